import Verif.Lemmas.Siblings
import Verif.Lemmas.DecEq
import Verif.Props.Typing

/-!
# Properties of the validation of modules: C32, C35–C42, C44, C45, C47–C50
-/

namespace Whasm
open Spec

/-! ## C32 -/

/-- **C32.** For all module values, also those the parser cannot produce. -/
theorem C32_total (m : Module) : (∃ r, validateModule m = .ok r) ∨ validateModule m = .error .invalid := by
  obtain ⟨h1, h2⟩ := validate_any m
  by_cases h : DeclsOk .code m ∧ ∀ f ∈ m.funcs, Accepted m f
  · exact .inl ⟨_, h1 h⟩
  · exact .inr (h2 h)

theorem C32_no_panic (m : Module) : validateModule m ≠ .error .panic := by
  rcases C32_total m with ⟨r, h⟩ | h <;> rw [h] <;> intro h <;> cases h

-- panics do exist in the model: this frame claims an operand that is not there
example : popOperand (.val .i32) { frames := [⟨[], [], 1, false⟩] } = .error .panic := by decide +kernel

-- `End` leaves no frame for `drop`
example : validateModule { types := [⟨[], []⟩], funcs := [⟨0, [], [.endMark, .drop, .unreachable]⟩] } = .error .invalid := by decide +kernel

/-! ## C35 -/

/-- **C35.** The context in which everything is validated. Each import has its entry: none is skipped. -/
theorem C35_context {m : Module} {c : Ctx} (h : contextFrom m {} = .ok ((), c)) :
    c.types = m.types ∧
    c.funcs.map some = (m.imports.filterMap fun i => match i.desc with | .func x => some m.types[x.toNat]? | _ => none) ++
      m.funcs.map (fun f => m.types[f.ty.toNat]?) ∧
    c.tables = (m.imports.filterMap fun i => match i.desc with | .table t => some t | _ => none) ++ m.tables.map (·.ty) ∧
    c.mems = (m.imports.filterMap fun i => match i.desc with | .mem t => some t | _ => none) ++ m.mems.map (·.ty) ∧
    c.globals = (m.imports.filterMap fun i => match i.desc with | .global t => some t | _ => none) ++ m.globals.map (·.ty) := by
  obtain ⟨h1, h2⟩ := contextFrom_eq m
  by_cases ht : TypesIn m
  · rw [h1 ht] at h
    cases h
    refine ⟨rfl, ?_, rfl, rfl, rfl⟩
    have e1 : ∀ is : List Import, (∀ i ∈ is, ∀ x, i.desc = .func x → x.toNat < m.types.length) →
        (is.filterMap fun i => match i.desc with | .func x => m.types[x.toNat]? | _ => none).map some =
        is.filterMap fun i => match i.desc with | .func x => some m.types[x.toNat]? | _ => none := by
      intro is hi
      induction is with
      | nil => rfl
      | cons i is ih =>
        have ih := ih fun j hj => hi j (List.mem_cons_of_mem _ hj)
        rw [List.filterMap_cons, List.filterMap_cons]
        cases hd : i.desc with
        | func x =>
          have := hi i List.mem_cons_self x hd
          simp only [List.getElem?_eq_getElem this, List.map_cons, ih]
        | table t => exact ih
        | mem t => exact ih
        | global t => exact ih
    have e2 : ∀ fs : List Func, (∀ f ∈ fs, f.ty.toNat < m.types.length) →
        (fs.filterMap fun f => m.types[f.ty.toNat]?).map some = fs.map fun f => m.types[f.ty.toNat]? := by
      intro fs hi
      induction fs with
      | nil => rfl
      | cons f fs ih =>
        have ih := ih fun j hj => hi j (List.mem_cons_of_mem _ hj)
        have := hi f List.mem_cons_self
        rw [List.filterMap_cons]
        simp only [List.getElem?_eq_getElem this, List.map_cons, ih]
    show (funcSpace m).map some = _
    rw [funcSpace, List.map_append, importedFuncs, e2 _ ht.2]
    exact congrArg (· ++ _) (e1 _ ht.1)
  · rw [h2 ht] at h
    cases h

/-- **C35, exports.** They resolve through these spaces. -/
theorem C35_exports {m : Module} {c : Ctx} (h : contextFrom m {} = .ok ((), c)) (n : Name) (x : Idx) :
    validateExport ⟨n, .func x⟩ c = (match c.funcs[x.toNat]? with | some t => .ok (.func t, c) | none => .error .invalid) ∧
    validateExport ⟨n, .table x⟩ c = (match c.tables[x.toNat]? with | some t => .ok (.table t, c) | none => .error .invalid) ∧
    validateExport ⟨n, .mem x⟩ c = (match c.mems[x.toNat]? with | some t => .ok (.mem t, c) | none => .error .invalid) ∧
    validateExport ⟨n, .global x⟩ c = (match c.globals[x.toNat]? with | some t => .ok (.global t, c) | none => .error .invalid) := by
  obtain ⟨h1, h2⟩ := contextFrom_eq m
  by_cases ht : TypesIn m
  · rw [h1 ht] at h
    cases h
    refine ⟨?_, ?_, ?_, ?_⟩
    · refine (gives_export m _).trans ?_
      simp only [exportType, ctxOf]
      cases (funcSpace m)[x.toNat]? <;> rfl
    · refine (gives_export m _).trans ?_
      simp only [exportType, ctxOf]
      cases (tableSpace m)[x.toNat]? <;> rfl
    · refine (gives_export m _).trans ?_
      simp only [exportType, ctxOf]
      cases (memSpace m)[x.toNat]? <;> rfl
    · refine (gives_export m _).trans ?_
      simp only [exportType, ctxOf]
      cases (globalSpace m)[x.toNat]? <;> rfl
  · rw [h2 ht] at h
    cases h

/-- **C35, calls.** A call in an accepted module refers to the function at that place of the function space. -/
theorem C35_calls {m : Module} {r : ModuleResult} (h : validateModule m = .ok r) {f : Func} (hf : f ∈ m.funcs) {x : Idx}
    (hx : Occurs (.call x) f.body) : ∃ t ft L, m.types[f.ty.toNat]? = some t ∧ (funcSpace m)[x.toNat]? = some ft ∧
      HasType { bodyEnv .code m t f.locals with labels := L } (.call x) ft.params ft.results := by
  obtain ⟨⟨_, ha⟩, _⟩ := validate_any_iff.mp h
  obtain ⟨t, ht, hs⟩ := accepted_seen (ha f hf)
  obtain ⟨d, hj⟩ := occursAt_iff.mp hx
  obtain ⟨c, c', _, hc, _, hv⟩ := hs _ d hj
  obtain ⟨_, e2, _⟩ := same_decls hc
  obtain ⟨ft, c1, h1, _⟩ := bindOk_inv (p := lookup c.funcs x) hv
  have h2 := (lookup_ok h1).1
  rw [e2] at h2
  exact ⟨t, ft, [], ht, h2, .call h2⟩

/-- One imported function of type `i32 -> i64`, one own function of type `i64 -> i32`. -/
def twoFuncs (x y : Idx) : Module :=
  { types := [⟨[.i32], [.i64]⟩, ⟨[.i64], [.i32]⟩], imports := [⟨[], [], .mem ⟨⟨1, none⟩⟩⟩, ⟨[], [], .func 0⟩],
    funcs := [⟨1, [], [.constI32 1, .call x, .drop, .constI64 0, .call y]⟩], exports := [⟨[], .func x⟩, ⟨[1], .func y⟩] }

example : validateModule (twoFuncs 0 1) =
    .ok ⟨[.mem ⟨⟨1, none⟩⟩, .func ⟨[.i32], [.i64]⟩], [.func ⟨[.i32], [.i64]⟩, .func ⟨[.i64], [.i32]⟩]⟩ ∧
    validateModule (twoFuncs 1 0) = .error .invalid ∧ validateModule (twoFuncs 0 2) = .error .invalid := by decide +kernel

/-! ## C36 -/

/-- **C36, only if.** -/
theorem C36_distinct {m : Module} {r : ModuleResult} (h : validateModule m = .ok r) : (m.exports.map (·.name)).Nodup :=
  (validate_any_iff.mp h).1.1.names

/-- **C36, duplicates are rejected.** -/
theorem C36_duplicates {m : Module} (h : ¬ (m.exports.map (·.name)).Nodup) : validateModule m = .error .invalid :=
  (validate_any m).2 fun hv => h hv.1.names

/-- **C36, distinct names are no reason to reject.** If a module is accepted, so it is under any other distinct names. -/
theorem C36_rename {m : Module} {r : ModuleResult} (h : validateModule m = .ok r) {es : List Export}
    (hd : es.map (·.desc) = m.exports.map (·.desc)) (hn : (es.map (·.name)).Nodup) : validateModule { m with exports := es } = .ok r := by
  obtain ⟨⟨⟨a1, a3, a4, a5, a6, a7, a8, a9, b1, b2, a10, a11, a12, a13⟩, ha⟩, rfl⟩ := validate_any_iff.mp h
  let g : ExportDesc → Option External := fun d => exportType m ⟨[], d⟩
  have hg : ∀ e : Export, exportType m e = g e.desc := fun _ => rfl
  have hs : ∀ l : List Export, l.filterMap (exportType m) = (l.map (·.desc)).filterMap g := by
    intro l; rw [List.filterMap_map]; rfl
  refine validate_any_iff.mpr ⟨⟨⟨a1, a3, a4, a5, a6, a7, a8, a9, b1, b2, ?_, a11, a12, hn⟩, ha⟩, ?_⟩
  · intro e he
    have : e.desc ∈ m.exports.map (·.desc) := by rw [← hd]; exact List.mem_map_of_mem he
    obtain ⟨e', he', hde⟩ := List.mem_map.mp this
    have := a10 e' he'
    rw [hg, hde] at this
    exact this
  · show externals m = { imports := m.imports.filterMap (importType m), exports := es.filterMap (exportType m) }
    rw [hs es, hd, ← hs]
    rfl

-- not sorted, not adjacent
example : validateModule { mems := [⟨⟨1, none⟩⟩], exports := [⟨[2], .mem 0⟩, ⟨[1], .mem 0⟩, ⟨[2], .mem 0⟩] } = .error .invalid ∧
    validateModule { mems := [⟨⟨1, none⟩⟩], exports := [⟨[2], .mem 0⟩, ⟨[1], .mem 0⟩, ⟨[1, 2], .mem 0⟩, ⟨[], .mem 0⟩] } =
      .ok ⟨[], [.mem ⟨⟨1, none⟩⟩, .mem ⟨⟨1, none⟩⟩, .mem ⟨⟨1, none⟩⟩, .mem ⟨⟨1, none⟩⟩]⟩ := by decide +kernel

/-! ## C37 -/

/-- **C37.** -/
theorem C37_limits {m : Module} {r : ModuleResult} (h : validateModule m = .ok r) :
    (∀ t ∈ tableSpace m, ∀ n, t.lim.max = some n → t.lim.min.toNat ≤ n.toNat) ∧
    ∀ t ∈ memSpace m, t.lim.min.toNat ≤ 65535 ∧ ∀ n, t.lim.max = some n → n.toNat ≤ 65535 ∧ t.lim.min.toNat ≤ n.toNat := by
  obtain ⟨⟨hd, _⟩, _⟩ := validate_any_iff.mp h
  constructor
  · intro t ht
    rcases List.mem_append.mp ht with ht | ht
    · exact fun n hn => ((hd.importTables t ht).2 n hn).2
    · obtain ⟨x, hx, rfl⟩ := List.mem_map.mp ht
      exact fun n hn => ((hd.tables x hx).2 n hn).2
  · intro t ht
    rcases List.mem_append.mp ht with ht | ht
    · exact hd.importMems t ht
    · obtain ⟨x, hx, rfl⟩ := List.mem_map.mp ht
      exact hd.mems x hx

/-- **C37, nothing else is required of a memory**, own or imported. -/
theorem C37_memory (l : Limits) : ((∃ r, validateModule { mems := [⟨⟨l⟩⟩] } = .ok r) ↔ LimitsOk 65535 l) ∧
    ((∃ r, validateModule { imports := [⟨[], [], .mem ⟨l⟩⟩] } = .ok r) ↔ LimitsOk 65535 l) := by
  constructor
  · constructor
    · rintro ⟨r, h⟩
      exact (C37_limits h).2 ⟨l⟩ (by simp [memSpace, importedMems])
    · intro h
      refine ⟨_, ok_of_valid ⟨?_, by simp⟩⟩
      constructor <;> simp [Rules.code, importedTables, importedMems, h]
  · constructor
    · rintro ⟨r, h⟩
      exact (C37_limits h).2 ⟨l⟩ (by simp [memSpace, importedMems])
    · intro h
      refine ⟨_, ok_of_valid ⟨?_, by simp⟩⟩
      constructor <;> simp [Rules.code, importedTables, importedMems, h, importType]

/-- **C37, or of a table.** -/
theorem C37_table (l : Limits) : ((∃ r, validateModule { tables := [⟨⟨l, .funcRef⟩⟩] } = .ok r) ↔ ∀ n, l.max = some n → l.min.toNat ≤ n.toNat) ∧
    ((∃ r, validateModule { imports := [⟨[], [], .table ⟨l, .funcRef⟩⟩] } = .ok r) ↔ ∀ n, l.max = some n → l.min.toNat ≤ n.toNat) := by
  have hl : (∀ n, l.max = some n → l.min.toNat ≤ n.toNat) → LimitsOk (2 ^ 32) l := fun h =>
    ⟨by have := l.min.isLt; omega, fun n hn => ⟨by have := n.isLt; omega, h n hn⟩⟩
  constructor
  · constructor
    · rintro ⟨r, h⟩
      exact (C37_limits h).1 ⟨l, .funcRef⟩ (by simp [tableSpace, importedTables])
    · intro h
      refine ⟨_, ok_of_valid ⟨?_, by simp⟩⟩
      have := hl h
      constructor <;> simp_all [Rules.code, importedTables, importedMems]
  · constructor
    · rintro ⟨r, h⟩
      exact (C37_limits h).1 ⟨l, .funcRef⟩ (by simp [tableSpace, importedTables])
    · intro h
      refine ⟨_, ok_of_valid ⟨?_, by simp⟩⟩
      have := hl h
      constructor <;> simp_all [Rules.code, importedTables, importedMems, importType]

/-- A memory of 65536 pages. -/
def bigMemory : Module := { mems := [⟨⟨⟨65536, none⟩⟩⟩] }

/-- **C37, the bound is off by one.** -/
theorem C37_bound : Valid .w3c bigMemory ∧ validateModule bigMemory = .error .invalid := by
  refine ⟨⟨?_, by simp [bigMemory]⟩, by decide +kernel⟩
  constructor <;> simp [Rules.w3c, bigMemory, importedTables, importedMems, tableSpace, memSpace, LimitsOk]

example : validateModule { mems := [⟨⟨⟨65535, some 65535⟩⟩⟩] } = .ok ⟨[], []⟩ ∧
    validateModule { mems := [⟨⟨⟨2, some 1⟩⟩⟩] } = .error .invalid ∧
    validateModule { mems := [⟨⟨⟨2, some 65536⟩⟩⟩] } = .error .invalid ∧
    validateModule { tables := [⟨⟨⟨2, some 1⟩, .funcRef⟩⟩] } = .error .invalid ∧
    validateModule { tables := [⟨⟨⟨2, some 0xFFFFFFFF⟩, .funcRef⟩⟩] } = .ok ⟨[], []⟩ := by decide +kernel

/-! ## C38 -/

/-- **C38.** -/
theorem C38_start {m : Module} {r : ModuleResult} (h : validateModule m = .ok r) {s : Start} (hs : m.start = some s) :
    s.func.toNat < (funcSpace m).length ∧ (funcSpace m)[s.func.toNat]? = some ⟨[], []⟩ :=
  ⟨lt_of_some ((validate_any_iff.mp h).1.1.start s hs), (validate_any_iff.mp h).1.1.start s hs⟩

/-- **C38, nothing else is required of the start function.** -/
theorem C38_exact {m : Module} {r : ModuleResult} (h : validateModule m = .ok r) {s : Start}
    (hs : (funcSpace m)[s.func.toNat]? = some ⟨[], []⟩) : validateModule { m with start := some s } = .ok r := by
  obtain ⟨⟨⟨a1, a3, a4, a5, a6, a7, a8, a9, b1, b2, a10, a11, a12, a13⟩, ha⟩, rfl⟩ := validate_any_iff.mp h
  refine validate_any_iff.mpr ⟨⟨⟨a1, a3, a4, a5, a6, a7, ?_, a9, b1, b2, a10, a11, a12, a13⟩, ha⟩, rfl⟩
  intro s' hs'
  cases hs'
  exact hs

example : validateModule { types := [⟨[], []⟩, ⟨[.i32], []⟩, ⟨[], [.i32]⟩], imports := [⟨[], [], .func 0⟩], start := some ⟨0⟩ } =
      .ok ⟨[.func ⟨[], []⟩], []⟩ ∧
    validateModule { types := [⟨[], []⟩, ⟨[.i32], []⟩, ⟨[], [.i32]⟩], imports := [⟨[], [], .func 1⟩], start := some ⟨0⟩ } = .error .invalid ∧
    validateModule { types := [⟨[], []⟩, ⟨[.i32], []⟩, ⟨[], [.i32]⟩], imports := [⟨[], [], .func 2⟩], start := some ⟨0⟩ } = .error .invalid ∧
    validateModule { types := [⟨[], []⟩], imports := [⟨[], [], .func 0⟩], start := some ⟨1⟩ } = .error .invalid := by decide +kernel

/-! ## C39 -/

/-- **C39.** -/
theorem C39_result {m : Module} {r : ModuleResult} (h : validateModule m = .ok r) :
    r.imports.map some = m.imports.map (importType m) ∧ r.exports.map some = m.exports.map (exportType m) := by
  obtain ⟨⟨hd, _⟩, rfl⟩ := validate_any_iff.mp h
  have key : ∀ {α : Type} {f : α → Option External} {xs : List α}, (∀ x ∈ xs, (f x).isSome = true) → (xs.filterMap f).map some = xs.map f := by
    intro α f xs hx
    induction xs with
    | nil => rfl
    | cons x xs ih =>
      have h1 := hx x List.mem_cons_self
      obtain ⟨y, hy⟩ := Option.isSome_iff_exists.mp h1
      rw [List.filterMap_cons, hy]
      simp only [List.map_cons, hy, ih fun z hz => hx z (List.mem_cons_of_mem _ hz)]
  exact ⟨key hd.imports, key hd.exports⟩

/-- **C39, lengths.** -/
theorem C39_lengths {m : Module} {r : ModuleResult} (h : validateModule m = .ok r) :
    r.imports.length = m.imports.length ∧ r.exports.length = m.exports.length := by
  obtain ⟨h1, h2⟩ := C39_result h
  exact ⟨by simpa using congrArg List.length h1, by simpa using congrArg List.length h2⟩

/-- Two imports and three exports of three kinds. -/
def fiveExternals : Module :=
  { imports := [⟨[], [], .global ⟨.var, .f32⟩⟩, ⟨[], [], .table ⟨⟨0, none⟩, .funcRef⟩⟩], globals := [⟨⟨.const, .i64⟩, [.constI64 3]⟩],
    mems := [⟨⟨⟨1, some 2⟩⟩⟩], exports := [⟨[2], .global 1⟩, ⟨[1], .mem 0⟩, ⟨[], .global 0⟩] }

example : validateModule fiveExternals =
    .ok ⟨[.global ⟨.var, .f32⟩, .table ⟨⟨0, none⟩, .funcRef⟩], [.global ⟨.const, .i64⟩, .mem ⟨⟨1, some 2⟩⟩, .global ⟨.var, .f32⟩]⟩ := by decide +kernel

/-! ## C40 -/

/-- **C40.** In any context, between items; the context does not change. -/
theorem C40_exact {c : Ctx} (ho : c.operands = []) (hf : c.frames = []) (t : Val) (e : Expr) :
    (SingleConst c.globals e t → validateInit [t] e c = .ok ((), c)) ∧
    (¬ SingleConst c.globals e t → validateInit [t] e c = .error .invalid) :=
  (checks_init ho hf t e).congr constOk_iff

/-- **C40, in accepted modules.** -/
theorem C40_module {m : Module} {r : ModuleResult} (h : validateModule m = .ok r) :
    (∀ g ∈ m.globals, SingleConst (ownGlobals m) g.init g.ty.val) ∧ (∀ e ∈ m.elem, SingleConst (globalSpace m) e.offset .i32) ∧
    ∀ d ∈ m.data, SingleConst (globalSpace m) d.offset .i32 := by
  obtain ⟨⟨hd, _⟩, _⟩ := validate_any_iff.mp h
  exact ⟨fun g hg => constOk_iff.mp (hd.globals g hg), fun e he => constOk_iff.mp (hd.elem e he).2.1, fun d h => constOk_iff.mp (hd.data d h).2⟩

example : validateInit [.i32] [.constI32 7] {} = .ok ((), {}) ∧ validateInit [.i32] [.constI64 7] {} = .error .invalid ∧
    validateInit [.i32] [] {} = .error .invalid ∧ validateInit [.i32] [.constI32 7, .constI32 7] {} = .error .invalid ∧
    validateInit [.i32] [.constI32 7, .num .i32Eqz] {} = .error .invalid ∧ validateInit [.i32] [.unreachable] {} = .error .invalid ∧
    validateInit [.i32] [.globalGet 0] { globals := [⟨.const, .i32⟩] } = .ok ((), { globals := [⟨.const, .i32⟩] }) ∧
    validateInit [.i32] [.globalGet 0] { globals := [⟨.var, .i32⟩] } = .error .invalid := by decide +kernel

/-! ## C41 -/

/-- **C41, partial.** A `global.get` in a global initializer refers, in the module's *own* globals, to an immutable one of the same type.
Missing for C41: that it is an imported one; see `C41_negation`. -/
theorem C41_own_partial {m : Module} {r : ModuleResult} (h : validateModule m = .ok r) {g : Global} (hg : g ∈ m.globals) {x : Idx}
    (hx : .globalGet x ∈ g.init) : g.init = [.globalGet x] ∧ (ownGlobals m)[x.toNat]? = some ⟨.const, g.ty.val⟩ := by
  have := (C40_module h).1 g hg
  generalize hi : g.init = e at hx this
  generalize g.ty.val = t at this
  cases this with
  | global h => simp at hx; subst hx; exact ⟨rfl, h⟩
  | _ => simp at hx

/-- A global that is initialized with itself. -/
def selfGlobal : Module := { globals := [⟨⟨.const, .i32⟩, [.globalGet 0]⟩] }

/-- **C41 fails.** There are no imports. -/
theorem C41_negation : validateModule selfGlobal = .ok ⟨[], []⟩ ∧ importedGlobals selfGlobal = [] ∧ ¬ Valid .w3c selfGlobal := by
  refine ⟨by decide +kernel, rfl, fun h => ?_⟩
  have := constOk_iff.mp (h.globals ⟨⟨.const, .i32⟩, [.globalGet 0]⟩ (by simp [selfGlobal]))
  generalize he : ([.globalGet 0] : Expr) = e at this
  cases this with
  | global h =>
    cases he
    simp [Rules.w3c, importedGlobals, selfGlobal] at h
  | _ => cases he

/-- A mutable global initialized with an imported one. -/
def importedInit : Module := { imports := [⟨[], [], .global ⟨.const, .i64⟩⟩], globals := [⟨⟨.var, .i64⟩, [.globalGet 0]⟩] }

/-- **C41, the converse fails too.** The allowed use of imported globals is rejected. -/
theorem C41_rejected : Valid .w3c importedInit ∧ validateModule importedInit = .error .invalid := by
  refine ⟨⟨?_, by simp [importedInit]⟩, by decide +kernel⟩
  have hg : ConstOk { globals := [⟨.const, .i64⟩], aligned := true } [.globalGet 0] .i64 := constOk_iff.mpr (.global rfl)
  constructor <;> simp [Rules.w3c, importedInit, importedTables, importedMems, tableSpace, memSpace, importType]
  exact hg

-- forward references are accepted as well
example : validateModule { globals := [⟨⟨.const, .i32⟩, [.globalGet 1]⟩, ⟨⟨.const, .i32⟩, [.constI32 1]⟩] } = .ok ⟨[], []⟩ := by decide +kernel

/-! ## C42 -/

/-- **C42, partial.** Missing for C42: imported tables and memories are not counted; see `C42_negation`. -/
theorem C42_own_partial {m : Module} {r : ModuleResult} (h : validateModule m = .ok r) : m.tables.length ≤ 1 ∧ m.mems.length ≤ 1 :=
  ⟨(validate_any_iff.mp h).1.1.oneTable, (validate_any_iff.mp h).1.1.oneMem⟩

/-- **C42, modules without such imports.** -/
theorem C42_no_imports {m : Module} {r : ModuleResult} (h : validateModule m = .ok r) (ht : importedTables m = []) (hm : importedMems m = []) :
    (tableSpace m).length ≤ 1 ∧ (memSpace m).length ≤ 1 := by
  have := C42_own_partial h
  simpa [tableSpace, memSpace, ht, hm] using this

/-- An imported and an own memory, two imported tables and an own one. -/
def manyMemories : Module :=
  { imports := [⟨[], [], .mem ⟨⟨1, none⟩⟩⟩, ⟨[], [], .table ⟨⟨1, none⟩, .funcRef⟩⟩, ⟨[], [], .table ⟨⟨1, none⟩, .funcRef⟩⟩],
    mems := [⟨⟨⟨1, none⟩⟩⟩], tables := [⟨⟨⟨1, none⟩, .funcRef⟩⟩] }

/-- **C42 fails.** -/
theorem C42_negation : (∃ r, validateModule manyMemories = .ok r) ∧ (memSpace manyMemories).length = 2 ∧ (tableSpace manyMemories).length = 3 ∧
    ¬ Valid .w3c manyMemories := by
  refine ⟨⟨⟨[.mem ⟨⟨1, none⟩⟩, .table ⟨⟨1, none⟩, .funcRef⟩, .table ⟨⟨1, none⟩, .funcRef⟩], []⟩, by decide +kernel⟩, rfl, rfl, fun h => ?_⟩
  have := h.oneMem
  simp [Rules.w3c, memSpace, importedMems, manyMemories] at this

example : validateModule { mems := [⟨⟨⟨1, none⟩⟩⟩, ⟨⟨⟨1, none⟩⟩⟩] } = .error .invalid ∧
    validateModule { tables := [⟨⟨⟨1, none⟩, .funcRef⟩⟩, ⟨⟨⟨1, none⟩, .funcRef⟩⟩] } = .error .invalid := by decide +kernel

/-! ## C44 -/

/-- **C44.** Also if the type is not used. -/
theorem C44_results {m : Module} {r : ModuleResult} (h : validateModule m = .ok r) : ∀ t ∈ m.types, t.results.length ≤ 1 :=
  (validate_any_iff.mp h).1.1.types

/-- **C44, the type of each function and block result.** -/
theorem C44_funcs {m : Module} {r : ModuleResult} (h : validateModule m = .ok r) : ∀ t ∈ funcSpace m, t.results.length ≤ 1 := by
  intro t ht
  refine C44_results h t ?_
  rcases List.mem_append.mp ht with ht | ht
  · obtain ⟨i, _, hi⟩ := List.mem_filterMap.mp ht
    cases hd : i.desc with
    | func x => rw [hd] at hi; exact List.mem_of_getElem? hi
    | _ => rw [hd] at hi; cases hi
  · obtain ⟨i, _, hi⟩ := List.mem_filterMap.mp ht
    exact List.mem_of_getElem? hi

/-- **C44, nothing else is required of a type.** -/
theorem C44_exact (t : FuncTy) : (∃ r, validateModule { types := [t] } = .ok r) ↔ t.results.length ≤ 1 := by
  constructor
  · rintro ⟨r, h⟩; exact C44_results h t (by simp)
  · intro h
    refine ⟨_, ok_of_valid ⟨?_, by simp⟩⟩
    constructor <;> simp [Rules.code, importedTables, importedMems, h]

example : validateModule { types := [⟨[.i32, .i32, .i64], [.f32]⟩, ⟨[], [.f32, .f32]⟩] } = .error .invalid ∧
    validateModule { types := [⟨[.i32, .i32, .i64], [.f32]⟩, ⟨[], []⟩] } = .ok ⟨[], []⟩ := by decide +kernel

/-! ## C45 -/

/-- **C45, state.** Between functions nothing is left over. -/
theorem C45_state {c c' : Ctx} (h1 : c.locals = []) (h2 : c.ret = none) (h3 : c.operands = []) (h4 : c.frames = []) {f : Func} {t : FuncTy}
    (h : validateFunc f c = .ok (t, c')) : c' = c ∧ c.types[f.ty.toNat]? = some t := by
  rcases func_total ⟨h1, h2, h3, h4⟩ f with ⟨t', ht, _, h'⟩ | h'
  · rw [h'] at h; cases h; exact ⟨rfl, ht⟩
  · rw [h'] at h; cases h

/-- **C45, each body alone.** A module is accepted exactly if it is accepted with all bodies but one replaced by `unreachable`, for each
choice of that one (and with all replaced, for an `i` beyond the last function). -/
theorem C45_alone {m : Module} {r : ModuleResult} : validateModule m = .ok r ↔ ∀ i, validateModule (onlyBody m i) = .ok r := by
  have hty : ∀ i, (m.funcs.mapIdx fun j f => if j = i then f else stub f).map (·.ty) = m.funcs.map (·.ty) := by
    intro i
    apply List.ext_getElem?
    intro n
    simp only [List.getElem?_map, List.getElem?_mapIdx]
    cases m.funcs[n]? with
    | none => rfl
    | some f =>
      simp only [Option.map_some]
      split <;> rfl
  have hv : ∀ i, validateModule (onlyBody m i) = .ok r ↔
      (DeclsOk .code m ∧ ∀ f ∈ m.funcs.mapIdx (fun j f => if j = i then f else stub f), Accepted m f) ∧ r = externals m :=
    fun i => validate_funcs (hty i)
  simp only [hv]
  rw [validate_any_iff]
  constructor
  · rintro ⟨⟨hd, ha⟩, rfl⟩ i
    refine ⟨⟨hd, fun f hf => ?_⟩, rfl⟩
    obtain ⟨n, hn⟩ := List.mem_iff_getElem?.mp hf
    rw [List.getElem?_mapIdx] at hn
    cases hx : m.funcs[n]? with
    | none => rw [hx] at hn; cases hn
    | some g =>
      rw [hx] at hn
      have hg := ha g (List.mem_of_getElem? hx)
      simp only [Option.map_some, Option.some.injEq] at hn
      rw [← hn]
      split
      · exact hg
      · obtain ⟨t, ht, _⟩ := accepted_type hg
        exact (accepted_stub m g).mpr ⟨t, ht⟩
  · intro h
    refine ⟨⟨(h 0).1.1, fun f hf => ?_⟩, (h 0).2⟩
    obtain ⟨n, hn⟩ := List.mem_iff_getElem?.mp hf
    refine (h n).1.2 f (List.mem_iff_getElem?.mpr ⟨n, ?_⟩)
    rw [List.getElem?_mapIdx, hn]
    simp

/-- **C45, other bodies.** If a module is accepted, so is any module with the same declarations whose functions (type, locals and body)
are taken, in any order and with any repetitions, from the first. -/
theorem C45_reorder {m : Module} {r : ModuleResult} (h : validateModule m = .ok r) {fs : List Func}
    (ht : fs.map (·.ty) = m.funcs.map (·.ty)) (hf : ∀ f ∈ fs, f ∈ m.funcs) : validateModule { m with funcs := fs } = .ok r := by
  obtain ⟨⟨hd, ha⟩, hr⟩ := validate_any_iff.mp h
  exact (validate_funcs ht).mpr ⟨⟨hd, fun f h => ha f (hf f h)⟩, hr⟩

-- the first body fails alone, the second does not
def oneBad : Module := { types := [⟨[], [.i32]⟩], funcs := [⟨0, [], [.constI64 0]⟩, ⟨0, [], [.constI32 0]⟩] }

example : validateModule oneBad = .error .invalid ∧ validateModule (onlyBody oneBad 0) = .error .invalid ∧
    validateModule (onlyBody oneBad 1) = .ok ⟨[], []⟩ ∧ validateModule (onlyBody oneBad 2) = .ok ⟨[], []⟩ := by decide +kernel

/-! ## C47 -/

/-- **C47, `End`.** At any depth, whatever surrounds it. -/
theorem C47_end {m : Module} {f : Func} (hf : f ∈ m.funcs) (ho : Occurs .endMark f.body) : validateModule m = .error .invalid :=
  (validate_any m).2 fun hv => accepted_noEnd (hv.2 f hf) ho

/-- **C47, `Else`** can be accepted. -/
theorem C47_else : validateModule { types := [⟨[], []⟩], funcs := [⟨0, [], [.elseMark, .block [] [.elseMark]]⟩] } = .ok ⟨[], []⟩ := by
  decide +kernel

-- even if the frames are balanced: the block provides the frame for the `end`
example : validateModule { types := [⟨[], []⟩], funcs := [⟨0, [], [.block [] [.endMark], .loop [] []]⟩] } = .error .invalid ∧
    validateModule { types := [⟨[], []⟩], funcs := [⟨0, [], [.block [] [], .loop [] []]⟩] } = .ok ⟨[], []⟩ := by decide +kernel

/-! ## C48 -/

/-- The rules of the document but for alignment, the scope of global initializers and imported tables and memories. -/
def Spec.Rules.lax : Rules :=
  { Rules.w3c with aligned := false, initGlobals := ownGlobals, tableCount := fun m => m.tables.length, memCount := fun m => m.mems.length }

/-- **C48.** -/
theorem C48_lax {s rest : List Byte} {m : Module} (hs : parseModule s = (.ok m, rest)) {r : ModuleResult} (h : validateModule m = .ok r) :
    Valid .lax m := by
  obtain ⟨⟨a1, a3, a4, a5, a6, a7, a8, a9, b1, b2, a10, a11, a12, a13⟩, hf⟩ := valid_of_ok h (parsed_noElse hs)
  refine ⟨⟨a1, a3, fun x hx => limitsOk_mono (by decide) (a4 x hx), a5, a6, a7, a8, a9, b1, fun x hx => limitsOk_mono (by decide) (b2 x hx), a10, a11, a12, a13⟩, ?_⟩
  intro f hm
  exact funcOk_transfer (hf f hm) (fun h => by cases h) fun h => by cases h

theorem declsOk_w3c {m : Module} (hd : DeclsOk .code m) (hg : ∀ g ∈ m.globals, SingleConst (importedGlobals m) g.init g.ty.val)
    (ht : (tableSpace m).length ≤ 1) (hm : (memSpace m).length ≤ 1) : DeclsOk .w3c m := by
  obtain ⟨a1, a3, a4, a5, a6, a7, a8, a9, b1, b2, a10, a11, a12, a13⟩ := hd
  exact ⟨a1, a3, fun x hx => limitsOk_mono (by decide) (a4 x hx), fun g h => constOk_iff.mpr (hg g h),
    fun e he => ⟨(a6 e he).1, constOk_iff.mpr (show SingleConst (globalSpace m) _ _ from constOk_iff.mp (a6 e he).2.1), (a6 e he).2.2⟩,
    fun d hd => ⟨(a7 d hd).1, constOk_iff.mpr (show SingleConst (globalSpace m) _ _ from constOk_iff.mp (a7 d hd).2)⟩, a8, a9, b1, fun x hx => limitsOk_mono (by decide) (b2 x hx),
    a10, ht, hm, a13⟩

/-- **C48, full validity.** With the three exceptions excluded, an accepted module is valid by the document. -/
theorem C48_valid {m : Module} {r : ModuleResult} (h : validateModule m = .ok r) (he : NoElse m)
    (ha : ∀ f ∈ m.funcs, ∀ j, Occurs j f.body → AlignOk j) (hg : ∀ g ∈ m.globals, ∀ x, .globalGet x ∉ g.init)
    (ht : (tableSpace m).length ≤ 1) (hm : (memSpace m).length ≤ 1) : Valid .w3c m := by
  obtain ⟨hd, hf⟩ := valid_of_ok h he
  refine ⟨declsOk_w3c hd (fun g h' => ?_) ht hm, fun f hm => ?_⟩
  · have h1 := (C40_module h).1 g h'
    have h2 := hg g h'
    generalize g.init = e at h1 h2
    generalize g.ty.val = t at h1
    cases h1 with
    | i32 v => exact .i32 v
    | i64 v => exact .i64 v
    | f32 v => exact .f32 v
    | f64 v => exact .f64 v
    | global h => exact (h2 _ List.mem_cons_self).elim
  · exact funcOk_transfer (hf f hm) (fun h => by cases h) fun _ => .inr fun j d hj => ha f hm j (occursAt_iff.mpr ⟨d, hj⟩)

/-- The bytes of (module (func (result i32) i32.const 5) (export "a" (func 0))). -/
def smallBytes : List Byte :=
  [0x00, 0x61, 0x73, 0x6D, 0x01, 0x00, 0x00, 0x00, 0x01, 0x05, 0x01, 0x60, 0x00, 0x01, 0x7F, 0x03, 0x02, 0x01, 0x00,
    0x07, 0x05, 0x01, 0x01, 0x61, 0x00, 0x00, 0x0A, 0x06, 0x01, 0x04, 0x00, 0x41, 0x05, 0x0B]

def smallModule : Module :=
  { types := [⟨[], [.i32]⟩], funcs := [⟨0, [], [.constI32 5]⟩], exports := [⟨[0x61], .func 0⟩] }

example : parseModule smallBytes = (.ok smallModule, []) ∧ validateModule smallModule = .ok ⟨[], [.func ⟨[], [.i32]⟩]⟩ := by decide +kernel

example : Valid .w3c smallModule := by
  have hp : parseModule smallBytes = (.ok smallModule, []) := by decide +kernel
  refine C48_valid (r := ⟨[], [.func ⟨[], [.i32]⟩]⟩) (by decide +kernel) (parsed_noElse hp) ?_ (by simp [smallModule])
    (by simp [smallModule, tableSpace, importedTables]) (by simp [smallModule, memSpace, importedMems])
  intro f hf j hj
  obtain rfl := List.mem_singleton.mp hf
  cases hj with
  | here h => obtain rfl := List.mem_singleton.mp h; trivial
  | block h _ => simp at h
  | loop h _ => simp at h
  | thn h _ => simp at h
  | els h _ => simp at h

/-! ## C49 -/

/-- **C49, partial.** Modules valid by the document are accepted if no branch leaves a function body, no memory limit is 65536, and
globals are not initialized from imported ones. Missing for C49: those three; see `C49_negation`. -/
theorem C49_accepted_partial {m : Module} (h : Valid .w3c m)
    (hb : ∀ f ∈ m.funcs, ∀ j d, OccursAt j d f.body → ∀ l ∈ branchTargets j, l.toNat < d)
    (hm : ∀ t ∈ memSpace m, t.lim.min ≠ 65536 ∧ t.lim.max ≠ some 65536) (hg : ∀ g ∈ m.globals, ∀ x, .globalGet x ∉ g.init) :
    validateModule m = .ok (externals m) := by
  obtain ⟨⟨a1, a3, a4, a5, a6, a7, a8, a9, b1, b2, a10, a11, a12, a13⟩, hf⟩ := h
  have hlim : ∀ t ∈ memSpace m, LimitsOk 65536 t.lim → LimitsOk 65535 t.lim := by
    intro t ht hl
    obtain ⟨h1, h2⟩ := hm t ht
    refine ⟨?_, fun n hn => ⟨?_, (hl.2 n hn).2⟩⟩
    · have := hl.1
      have h3 : t.lim.min.toNat ≠ 65536 := fun h => h1 (BitVec.eq_of_toNat_eq h)
      omega
    · have := (hl.2 n hn).1
      have h3 : n.toNat ≠ 65536 := fun h => h2 (by rw [hn]; exact congrArg some (BitVec.eq_of_toNat_eq h))
      omega
  refine ok_of_valid ⟨⟨a1, a3, fun x hx => hlim _ (List.mem_append_right _ (List.mem_map_of_mem hx)) (a4 x hx), fun g hg' => ?_,
    fun e he => ⟨(a6 e he).1, constOk_iff.mpr (show SingleConst (globalSpace m) _ _ from constOk_iff.mp (a6 e he).2.1), (a6 e he).2.2⟩,
    fun d hd => ⟨(a7 d hd).1, constOk_iff.mpr (show SingleConst (globalSpace m) _ _ from constOk_iff.mp (a7 d hd).2)⟩, a8, a9, b1,
    fun x hx => hlim x (List.mem_append_left _ hx) (b2 x hx), a10, ?_, ?_, a13⟩,
    fun f hm => funcOk_transfer (hf f hm) (fun _ _ => hb f hm) fun h => by cases h⟩
  · have h1 := constOk_iff.mp (a5 g hg')
    have h2 := hg g hg'
    refine constOk_iff.mpr ?_
    generalize g.init = e at h1 h2
    generalize g.ty.val = t at h1
    cases h1 with
    | i32 v => exact .i32 v
    | i64 v => exact .i64 v
    | f32 v => exact .f32 v
    | f64 v => exact .f64 v
    | global h => exact (h2 _ List.mem_cons_self).elim
  · simp only [Rules.w3c, tableSpace, List.length_append, List.length_map] at a11
    show m.tables.length ≤ 1
    omega
  · simp only [Rules.w3c, memSpace, List.length_append, List.length_map] at a12
    show m.mems.length ≤ 1
    omega

/-- **C49 fails**, in three ways. -/
theorem C49_negation : (Valid .w3c brModule ∧ validateModule brModule = .error .invalid) ∧
    (Valid .w3c bigMemory ∧ validateModule bigMemory = .error .invalid) ∧
    Valid .w3c importedInit ∧ validateModule importedInit = .error .invalid := by
  refine ⟨⟨⟨?_, C31_negation.2.1⟩, C31_negation.2.2⟩, C37_bound, C41_rejected⟩
  constructor <;> simp [brModule, Rules.w3c, importedTables, importedMems, tableSpace, memSpace]

/-- The two notions agree on modules that avoid the differences: **C48 and C49 together.** -/
theorem C49_agree {m : Module} (hn : NoElse m) (ha : ∀ f ∈ m.funcs, ∀ j, Occurs j f.body → AlignOk j)
    (hg : ∀ g ∈ m.globals, ∀ x, .globalGet x ∉ g.init) (ht : (tableSpace m).length ≤ 1) (hm : (memSpace m).length ≤ 1)
    (hb : ∀ f ∈ m.funcs, ∀ j d, OccursAt j d f.body → ∀ l ∈ branchTargets j, l.toNat < d)
    (hl : ∀ t ∈ memSpace m, t.lim.min ≠ 65536 ∧ t.lim.max ≠ some 65536) :
    (∃ r, validateModule m = .ok r) ↔ Valid .w3c m :=
  ⟨fun ⟨_, h⟩ => C48_valid h hn ha hg ht hm, fun h => ⟨_, C49_accepted_partial h hb hl hg⟩⟩

/-! ## C50 -/

/-- **C50.** Modules that differ only in operands of constants, in the immediates of memory accesses and in the bytes of data segments
have the same verdict and the same import and export types. -/
theorem C50_constants {m m' : Module} (h : forgetModule m = forgetModule m') : validateModule m = validateModule m' := by
  rw [← module_forget m, h, module_forget m']

/-- **C50, the same in any context**, for instructions. -/
theorem C50_instr {i i' : Instr} (h : forget i = forget i') (c : Ctx) : validateInstr i c = validateInstr i' c := by
  rw [← validate_forget i, h, validate_forget i']

/-- A module with constants, loads and offsets as given. -/
def withConstants (a b : I32) (x : U32) : Module :=
  { types := [⟨[], [.i32]⟩], funcs := [⟨0, [], [.block [.i32] [.constI32 a, .load .i32Load x 0]]⟩], mems := [⟨⟨⟨1, none⟩⟩⟩],
    data := [⟨0, [.constI32 b], [1, 2]⟩] }

example : forgetModule (withConstants 1 2 3) = forgetModule (withConstants 4 5 6) ∧
    validateModule (withConstants 1 2 3) = .ok ⟨[], []⟩ := by decide +kernel

end Whasm
