import Verif.Lemmas.Room

/-!
# Validation of modules with limited memory
-/

namespace Whasm.Room
open Spec

section
variable {C : Computer}

/-- The context can be built if there is memory for the index spaces, and only then. -/
structure FitsContext (C : Computer) (m : Module) : Prop where
  types : m.types.length ≤ C.entries .types
  funcs : (funcSpace m).length ≤ C.entries .funcs
  tables : (tableSpace m).length ≤ C.entries .tables
  mems : (memSpace m).length ≤ C.entries .mems
  globals : (globalSpace m).length ≤ C.entries .globals

theorem grows_types (ts : List FuncTy) : ∀ c : Ctx, (c.types.length + ts.length ≤ C.entries .types → useTypes C ts c = Whasm.useTypes ts c) ∧
    (c.types.length ≤ C.entries .types → ∀ u c', useTypes C ts c = .ok (u, c') → c.types.length + ts.length ≤ C.entries .types) := by
  induction ts with
  | nil => exact fun c => ⟨fun _ => useTypes_each [] c, fun h _ _ _ => h⟩
  | cons t ts ih =>
    intro c
    have e1 : useTypes C (t :: ts) c = (push C .types (·.types.length) (fun c => .ok ((), { c with types := c.types ++ [t] })) >>= fun _ => useTypes C ts) c := rfl
    have e2 : Whasm.useTypes (t :: ts) c = Whasm.useTypes ts { c with types := c.types ++ [t] } := by
      show Except.ok ((), { c with types := c.types ++ (t :: ts) }) = Except.ok ((), { c with types := (c.types ++ [t]) ++ ts })
      rw [List.append_assoc]; rfl
    have hlen : ({ c with types := c.types ++ [t] } : Ctx).types.length = c.types.length + 1 := by simp
    obtain ⟨i1, i2⟩ := ih { c with types := c.types ++ [t] }
    rw [hlen] at i1 i2
    rw [e1, e2, List.length_cons]
    by_cases hr : c.types.length + 1 ≤ C.entries .types
    · rw [bind_ok (show push C .types (·.types.length) (fun c => .ok ((), { c with types := c.types ++ [t] })) c = .ok ((), { c with types := c.types ++ [t] }) from if_pos hr)]
      exact ⟨fun h => i1 (by omega), fun _ u c' e => by have := i2 hr u c' e; omega⟩
    · rw [bind_err (show push C .types (·.types.length) (fun c => .ok ((), { c with types := c.types ++ [t] })) c = .error .panic from if_neg hr)]
      exact ⟨fun h => absurd (by omega) hr, fun _ u c' e => by cases e⟩

theorem grows_importedFuncs (is : List Import) (ts : List FuncTy) : Grows (useImportedFuncs C is) (Whasm.useImportedFuncs is)
    (is.filterMap fun i => match i.desc with | .func x => ts[x.toNat]? | _ => none).length (·.funcs.length) (C.entries .funcs) ts := by
  rw [← total_filterMap]
  refine grows_forEach is fun i _ => ?_
  cases i.desc with
  | func x => exact grows_func fun t => grows_push fun c u c' e => by cases e; exact ⟨rfl, by simp⟩
  | _ => exact grows_none

theorem grows_importedTables (is : List Import) (ts : List FuncTy) : Grows (useImportedTables C is) (Whasm.useImportedTables is)
    (is.filterMap fun i => match i.desc with | .table t => some t | _ => none).length (·.tables.length) (C.entries .tables) ts := by
  rw [← total_filterMap]
  refine grows_forEach is fun i _ => ?_
  cases i.desc with
  | table x => exact grows_push fun c u c' e => by cases e; exact ⟨rfl, by simp⟩
  | _ => exact grows_none

theorem grows_importedMems (is : List Import) (ts : List FuncTy) : Grows (useImportedMems C is) (Whasm.useImportedMems is)
    (is.filterMap fun i => match i.desc with | .mem t => some t | _ => none).length (·.mems.length) (C.entries .mems) ts := by
  rw [← total_filterMap]
  refine grows_forEach is fun i _ => ?_
  cases i.desc with
  | mem x => exact grows_push fun c u c' e => by cases e; exact ⟨rfl, by simp⟩
  | _ => exact grows_none

theorem grows_importedGlobals (is : List Import) (ts : List FuncTy) : Grows (useImportedGlobals C is) (Whasm.useImportedGlobals is)
    (is.filterMap fun i => match i.desc with | .global t => some t | _ => none).length (·.globals.length) (C.entries .globals) ts := by
  rw [← total_filterMap]
  refine grows_forEach is fun i _ => ?_
  cases i.desc with
  | global x => exact grows_push fun c u c' e => by cases e; exact ⟨rfl, by simp⟩
  | _ => exact grows_none

theorem grows_funcs (fs : List Func) (ts : List FuncTy) : Grows (useFuncs C fs) (Whasm.useFuncs fs)
    (fs.filterMap fun f => ts[f.ty.toNat]?).length (·.funcs.length) (C.entries .funcs) ts := by
  rw [← total_filterMap]
  exact grows_forEach fs fun f _ => grows_func fun t => grows_push fun c u c' e => by cases e; exact ⟨rfl, by simp⟩

theorem total_ones {α : Type} (xs : List α) : total (fun _ => 1) xs = xs.length := by
  induction xs with
  | nil => rfl
  | cons x xs ih => show 1 + total _ xs = _; rw [ih, List.length_cons, Nat.add_comm]

theorem grows_tables (xs : List Table) (ts : List FuncTy) : Grows (useTables C xs) (Whasm.useTables xs) xs.length (·.tables.length) (C.entries .tables) ts := by
  rw [← total_ones]
  exact grows_forEach xs fun f _ => grows_push fun c u c' e => by cases e; exact ⟨rfl, by simp⟩

theorem grows_mems (xs : List Mem) (ts : List FuncTy) : Grows (useMems C xs) (Whasm.useMems xs) xs.length (·.mems.length) (C.entries .mems) ts := by
  rw [← total_ones]
  exact grows_forEach xs fun f _ => grows_push fun c u c' e => by cases e; exact ⟨rfl, by simp⟩

theorem grows_globals (xs : List Global) (ts : List FuncTy) : Grows (useGlobals C xs) (Whasm.useGlobals xs) xs.length (·.globals.length) (C.entries .globals) ts := by
  rw [← total_ones]
  exact grows_forEach xs fun f _ => grows_push fun c u c' e => by cases e; exact ⟨rfl, by simp⟩

theorem space_lengths (m : Module) : (tableSpace m).length = (importedTables m).length + m.tables.length ∧ (memSpace m).length = (importedMems m).length + m.mems.length ∧
    (globalSpace m).length = (importedGlobals m).length + m.globals.length ∧ (funcSpace m).length = (importedFuncs m).length + (m.funcs.filterMap fun f => m.types[f.ty.toNat]?).length := by
  simp [tableSpace, memSpace, globalSpace, funcSpace, ownGlobals]

theorem context_fits {m : Module} (h : FitsContext C m) : contextFrom C m {} = Whasm.contextFrom m {} := by
  obtain ⟨l1, l2, l3, l4⟩ := space_lengths m
  obtain ⟨g1, g2, g3, g4, g5⟩ := h
  refine bindV_congr ((grows_types m.types {}).1 (by show 0 + _ ≤ _; omega)) fun _ c1 e1 => ?_
  cases e1
  refine bindV_congr ((grows_importedFuncs m.imports m.types _ rfl).1 (by show 0 + (importedFuncs m).length ≤ _; omega)) fun _ c2 e2 => ?_
  have e2 := (useImportedFuncs_eq m.imports { types := m.types }).symm.trans e2
  have hi : ∀ i ∈ m.imports, ∀ x, i.desc = .func x → x.toNat < m.types.length := Classical.byContradiction fun hn => by
    rw [if_neg hn] at e2
    cases e2
  rw [if_pos hi] at e2
  cases e2
  refine bindV_congr ((grows_importedTables m.imports m.types _ rfl).1 (by show 0 + (importedTables m).length ≤ _; omega)) fun _ c3 e3 => ?_
  rw [useImportedTables_eq] at e3
  cases e3
  refine bindV_congr ((grows_importedMems m.imports m.types _ rfl).1 (by show 0 + (importedMems m).length ≤ _; omega)) fun _ c3 e3 => ?_
  rw [useImportedMems_eq] at e3
  cases e3
  refine bindV_congr ((grows_importedGlobals m.imports m.types _ rfl).1 (by show 0 + (importedGlobals m).length ≤ _; omega)) fun _ c3 e3 => ?_
  rw [useImportedGlobals_eq] at e3
  cases e3
  refine bindV_congr ((grows_funcs m.funcs m.types _ rfl).1 (by show (importedFuncs m).length + _ ≤ _; omega)) fun _ c3 e3 => ?_
  have e3 := (useFuncs_eq m.funcs (Ctx.mk m.types (importedFuncs m) (importedTables m) (importedMems m) (importedGlobals m) [] none [] [])).symm.trans e3
  have hf : ∀ f ∈ m.funcs, f.ty.toNat < m.types.length := Classical.byContradiction fun hn => by
    rw [if_neg hn] at e3
    cases e3
  rw [if_pos hf] at e3
  cases e3
  refine bindV_congr ((grows_tables m.tables m.types _ rfl).1 (by show (importedTables m).length + _ ≤ _; omega)) fun _ c3 e3 => ?_
  rw [useTables_eq] at e3
  cases e3
  refine bindV_congr ((grows_mems m.mems m.types _ rfl).1 (by show (importedMems m).length + _ ≤ _; omega)) fun _ c3 e3 => ?_
  rw [useMems_eq] at e3
  cases e3
  exact (grows_globals m.globals m.types _ rfl).1 (by show (importedGlobals m).length + _ ≤ _; omega)

theorem ok_bind {α β : Type} {p : V α} {f : α → V β} {c c' : Ctx} {y : β} (h : (p >>= f) c = .ok (y, c')) : ∃ x c1, p c = .ok (x, c1) ∧ f x c1 = .ok (y, c') := by
  cases hp : p c with
  | error e => rw [bind_err hp] at h; cases h
  | ok z => rw [bind_ok hp] at h; exact ⟨z.1, z.2, rfl, h⟩

theorem fits_context {m : Module} {u : Unit} {c : Ctx} (h : contextFrom C m {} = .ok (u, c)) : FitsContext C m ∧ TypesIn m ∧ c = ctxOf m := by
  obtain ⟨l1, l2, l3, l4⟩ := space_lengths m
  have h0 := h
  have hs : ∀ {q p : V Unit} {c c' : Ctx} {u : Unit}, OrPanic q p → q c = .ok (u, c') → p c = .ok (u, c') := fun ho hq => by
    rcases ho _ with hp | hp
    · rw [hp] at hq; cases hq
    · exact hp.symm.trans hq
  have hm := hs (orPanic_context m) h
  obtain ⟨k1, k2⟩ := contextFrom_eq m
  have ht : TypesIn m := Classical.byContradiction fun hn => by rw [k2 hn] at hm; cases hm
  refine ⟨?_, ht, by rw [k1 ht] at hm; cases hm; rfl⟩
  obtain ⟨_, c1, e1, h⟩ := ok_bind h
  have t1 := (grows_types m.types {}).2 (Nat.zero_le _) _ _ e1
  have e1 := hs (orPanic_useTypes _) e1
  cases e1
  obtain ⟨_, c2, e2, h⟩ := ok_bind h
  obtain ⟨a1, a2, a3⟩ := grows_importedFuncs (C := C) m.imports m.types { types := m.types } rfl
  have t2 := a2 (Nat.zero_le _) _ _ e2
  have e2 := (a1 t2).symm.trans e2
  have e2 := (useImportedFuncs_eq m.imports { types := m.types }).symm.trans e2
  rw [if_pos ht.1] at e2
  cases e2
  obtain ⟨_, c3, e3, h⟩ := ok_bind h
  obtain ⟨a1, a2, a3⟩ := grows_importedTables (C := C) m.imports m.types _ (rfl : (Ctx.mk m.types (importedFuncs m) [] [] [] [] none [] []).types = m.types)
  have t3 := a2 (Nat.zero_le _) _ _ e3
  have e3 := (a1 t3).symm.trans e3
  rw [useImportedTables_eq] at e3
  cases e3
  obtain ⟨_, c4, e4, h⟩ := ok_bind h
  obtain ⟨a1, a2, a3⟩ := grows_importedMems (C := C) m.imports m.types _ (rfl : (Ctx.mk m.types (importedFuncs m) (importedTables m) [] [] [] none [] []).types = m.types)
  have t4 := a2 (Nat.zero_le _) _ _ e4
  have e4 := (a1 t4).symm.trans e4
  rw [useImportedMems_eq] at e4
  cases e4
  obtain ⟨_, c5, e5, h⟩ := ok_bind h
  obtain ⟨a1, a2, a3⟩ := grows_importedGlobals (C := C) m.imports m.types _ (rfl : (Ctx.mk m.types (importedFuncs m) (importedTables m) (importedMems m) [] [] none [] []).types = m.types)
  have t5 := a2 (Nat.zero_le _) _ _ e5
  have e5 := (a1 t5).symm.trans e5
  rw [useImportedGlobals_eq] at e5
  cases e5
  obtain ⟨_, c6, e6, h⟩ := ok_bind h
  obtain ⟨a1, a2, a3⟩ := grows_funcs (C := C) m.funcs m.types _ (rfl : (Ctx.mk m.types (importedFuncs m) (importedTables m) (importedMems m) (importedGlobals m) [] none [] []).types = m.types)
  have t6 := a2 (by have := t2; exact Nat.le_trans (Nat.le_add_left _ 0) this) _ _ e6
  have e6 := (a1 t6).symm.trans e6
  have e6 := (useFuncs_eq m.funcs (Ctx.mk m.types (importedFuncs m) (importedTables m) (importedMems m) (importedGlobals m) [] none [] [])).symm.trans e6
  rw [if_pos ht.2] at e6
  cases e6
  obtain ⟨_, c7, e7, h⟩ := ok_bind h
  obtain ⟨a1, a2, a3⟩ := grows_tables (C := C) m.tables m.types _ (rfl : (Ctx.mk m.types (funcSpace m) (importedTables m) (importedMems m) (importedGlobals m) [] none [] []).types = m.types)
  have t7 := a2 (Nat.le_trans (Nat.le_add_left _ 0) t3) _ _ e7
  have e7 := (a1 t7).symm.trans e7
  rw [useTables_eq] at e7
  cases e7
  obtain ⟨_, c8, e8, h⟩ := ok_bind h
  obtain ⟨a1, a2, a3⟩ := grows_mems (C := C) m.mems m.types _ (rfl : (Ctx.mk m.types (funcSpace m) (tableSpace m) (importedMems m) (importedGlobals m) [] none [] []).types = m.types)
  have t8 := a2 (Nat.le_trans (Nat.le_add_left _ 0) t4) _ _ e8
  have e8 := (a1 t8).symm.trans e8
  rw [useMems_eq] at e8
  cases e8
  obtain ⟨a1, a2, a3⟩ := grows_globals (C := C) m.globals m.types _ (rfl : (Ctx.mk m.types (funcSpace m) (tableSpace m) (memSpace m) (importedGlobals m) [] none [] []).types = m.types)
  have t9 := a2 (Nat.le_trans (Nat.le_add_left _ 0) t5) _ _ h
  have t1 : 0 + m.types.length ≤ _ := t1
  have t6 : (importedFuncs m).length + _ ≤ _ := t6
  have t7 : (importedTables m).length + _ ≤ _ := t7
  have t8 : (importedMems m).length + _ ≤ _ := t8
  have t9 : (importedGlobals m).length + _ ≤ _ := t9
  exact ⟨by omega, by omega, by omega, by omega, by omega⟩

/-! ## Definitions -/

/-- Between the validation of two definitions. -/
structure Idle (ts : List FuncTy) (c : Ctx) : Prop where
  slim : Slim c
  operands : c.operands = []
  frames : c.frames = []
  types : c.types = ts

/-- On contexts between definitions, `q` does what `p` does, and then the context is again one between definitions. -/
def IdleSame {α : Type} (ts : List FuncTy) (q p : V α) : Prop := ∀ c, Idle ts c → q c = p c ∧ ∀ x c', p c = .ok (x, c') → Idle ts c'

section
variable {α β : Type} {ts : List FuncTy}

theorem idle_bind {q p : V α} {g f : α → V β} (h : IdleSame ts q p) (hf : ∀ x, IdleSame ts (g x) (f x)) : IdleSame ts (q >>= g) (p >>= f) := by
  intro c hc
  obtain ⟨h1, h2⟩ := h c hc
  refine ⟨bindV_congr h1 fun x c' e => (hf x c' (h2 x c' e)).1, fun y c' e => ?_⟩
  obtain ⟨x, c1, e1, e2⟩ := ok_bind e
  exact (hf x c1 (h2 x c1 e1)).2 y c' e2

theorem idle_then {q p : V α} {g f : α → V β} (h : IdleSame ts q p) (hf : ∀ x c, Idle ts c → g x c = f x c) {c : Ctx} (hc : Idle ts c) : (q >>= g) c = (p >>= f) c :=
  bindV_congr (h c hc).1 fun x c' e => hf x c' ((h c hc).2 x c' e)

theorem idle_same {p : V α} (h : ∀ c x c', p c = .ok (x, c') → c' = c) : IdleSame ts p p := fun c hc => ⟨rfl, fun x c' e => h c x c' e ▸ hc⟩

theorem idle_pure {x : α} : IdleSame ts (pure x) (pure x) := idle_same fun _ _ _ e => by cases e; rfl

theorem idle_fail {e : VErr} : IdleSame ts (V.fail e : V α) (V.fail e) := idle_same fun _ _ _ e => by cases e

theorem idle_ite {b : Prop} [Decidable b] {q p : V α} {e : VErr} (h : IdleSame ts q p) : IdleSame ts (if b then V.fail e else q) (if b then V.fail e else p) := by
  by_cases hb : b
  · rw [if_pos hb, if_pos hb]; exact idle_fail
  · rw [if_neg hb, if_neg hb]; exact h

theorem idle_forEach {q p : α → V Unit} : ∀ xs : List α, (∀ x ∈ xs, IdleSame ts (q x) (p x)) → IdleSame ts (forEach q xs) (forEach p xs)
  | [], _ => idle_pure
  | x :: xs, h => idle_bind (h x List.mem_cons_self) fun _ => idle_forEach xs fun y hy => h y (List.mem_cons_of_mem _ hy)

theorem idle_lookup {sel : Ctx → List α} {i : Idx} : IdleSame ts (fun c => lookup (sel c) i c) (fun c => lookup (sel c) i c) :=
  idle_same fun c x c' e => by
    have e : lookup (sel c) i c = _ := e
    unfold lookup at e
    split at e
    · cases e
    · split at e <;> cases e
      rfl

theorem idle_reserve {k : Entry} {n : Nat} {q p : V α} (h : n ≤ C.entries k) (hq : IdleSame ts q p) : IdleSame ts (reserve C k n >>= fun _ => q) p := by
  intro c hc
  rw [bind_ok (show reserve C k n c = .ok ((), c) from if_pos h)]
  exact hq c hc

theorem checkEmpty_ok {c c' : Ctx} {u : Unit} (e : checkEmpty c = .ok (u, c')) : c' = c ∧ c.operands = [] ∧ c.frames = [] := by
  unfold checkEmpty at e
  split at e
  · cases e
  · rename_i h
    cases e
    refine ⟨rfl, ?_, ?_⟩
    · cases ho : c.operands with
      | nil => rfl
      | cons a l => exact absurd (.inr (by simp [ho])) h
    · cases ho : c.frames with
      | nil => rfl
      | cons a l => exact absurd (.inl (by simp [ho])) h

/-- What is between the frame of a definition and its end. -/
theorem framed_fits {l t : List Val} {q p : V Unit} {n : Nat} {d : Int} {c : Ctx} (hl : l.length ≤ 1) (ht : t.length ≤ 1) (h : Fit C q p n d 0 fun _ => True) (hs : Slim c)
    (ho : c.operands = []) (hf : c.frames = []) (hn : n ≤ C.entries .operands) (hd : max 1 (1 + d) ≤ C.entries .frames) :
    (pushFrame C l t >>= fun _ => q >>= fun _ => popFrame >>= fun _ => checkEmpty) c = (Whasm.pushFrame l t >>= fun _ => p >>= fun _ => popFrame >>= fun _ => checkEmpty) c ∧
    ∀ u c', (Whasm.pushFrame l t >>= fun _ => p >>= fun _ => popFrame >>= fun _ => checkEmpty) c = .ok (u, c') → Slim c' ∧ c'.types = c.types ∧ c'.operands = [] ∧ c'.frames = [] := by
  have hfit : Fit C (pushFrame C l t >>= fun _ => q >>= fun _ => popFrame >>= fun _ => checkEmpty) (Whasm.pushFrame l t >>= fun _ => p >>= fun _ => popFrame >>= fun _ => checkEmpty) n (max 1 (1 + d)) 0
      fun _ => True :=
    fit_mono (fit_bind (fit_pushFrame hl ht) fun _ _ => fit_bind h fun _ _ => fit_bind fit_popFrame fun _ _ =>
      fit_same (P := fun _ => True) fun _ _ _ _ e => ⟨trivial, (checkEmpty_ok e).1⟩)
  obtain ⟨h1, h2⟩ := hfit c hs (by rw [ho]; show 0 + n ≤ _; omega) (by rw [hf]; show (0 : Int) + _ ≤ _; omega)
  refine ⟨h1, fun u c' e => ?_⟩
  obtain ⟨_, h3, h4, _, _⟩ := h2 u c' e
  obtain ⟨_, _, _, e⟩ := ok_bind e
  obtain ⟨_, _, _, e⟩ := ok_bind e
  obtain ⟨_, c3, _, e⟩ := ok_bind e
  obtain ⟨rfl, h5, h6⟩ := checkEmpty_ok e
  exact ⟨h3, h4, h5, h6⟩

theorem idle_init {t : List Val} {e : ConstExpr} (ht : t.length ≤ 1) (hn : bulkL e ≤ C.entries .operands) (hd : 1 ≤ C.entries .frames) :
    IdleSame ts (validateInit C t e) (Whasm.validateInit t e) := by
  intro c ⟨h1, h2, h3, h4⟩
  obtain ⟨a, b⟩ := framed_fits ht ht (fit_constExpr e) h1 h2 h3 hn (by omega)
  refine ⟨a, fun u c' e => ?_⟩
  obtain ⟨c1, c2, c3, c4⟩ := b u c' e
  exact ⟨c1, c3, c4, c2.trans h4⟩

theorem idle_global {g : Global} (hn : bulkL g.init ≤ C.entries .operands) (hd : 1 ≤ C.entries .frames) : IdleSame ts (validateGlobal C g) (Whasm.validateGlobal g) :=
  idle_bind idle_pure fun _ => idle_bind (idle_init (Nat.le_refl _) hn hd) fun _ => idle_pure

theorem idle_elem {x : Elem} (hn : bulkL x.offset ≤ C.entries .operands) (hd : 1 ≤ C.entries .frames) : IdleSame ts (validateElem C x) (Whasm.validateElem x) :=
  idle_bind idle_lookup fun _ => idle_ite (idle_bind (idle_init (Nat.le_refl _) hn hd) fun _ => idle_forEach _ fun _ _ => idle_bind idle_lookup fun _ => idle_pure)

theorem idle_data {x : Data} (hn : bulkL x.offset ≤ C.entries .operands) (hd : 1 ≤ C.entries .frames) : IdleSame ts (validateData C x) (Whasm.validateData x) :=
  idle_bind idle_lookup fun _ => idle_init (Nat.le_refl _) hn hd

theorem idle_func {f : Func} (hl : slots ts f ≤ C.entries .locals) (hb : Meter.Flat 1 f.body) (hn : bulkL f.body ≤ C.entries .operands) (hd : depthL f.body < C.entries .frames) :
    IdleSame ts (validateFunc C f) (Width.validateFunc C.bits C.build f) := by
  intro c hc
  obtain ⟨h1, h2, h3, h4⟩ := hc
  have hl' : validateTypeIdx f.ty c = match ts[f.ty.toNat]? with | some t => .ok (t, c) | none => .error .invalid := by
    have := gives_lookup c.types f.ty c
    unfold Gives at this
    rw [h4] at this
    show lookup c.types f.ty c = _
    rw [h4]
    split at this <;> simp_all
  cases ht : ts[f.ty.toNat]? with
  | none =>
    rw [ht] at hl'
    have e1 : validateFunc C f c = .error .invalid := bind_err hl'
    have e2 : Width.validateFunc C.bits C.build f c = .error .invalid := bind_err hl'
    rw [e1, e2]
    exact ⟨rfl, fun _ _ e => by cases e⟩
  | some t =>
    rw [ht] at hl'
    have hres : t.results.length ≤ 1 := h1.types t (h4 ▸ List.mem_of_getElem? ht)
    have hs : t.params.length + f.locals.length ≤ C.entries .locals := by
      unfold slots at hl
      rw [ht] at hl
      exact hl
    let c1 : Ctx := { c with ret := some t.results, locals := t.params ++ f.locals }
    let tail (p : V Unit) : V FuncTy := p >>= fun _ => (fun c => .ok ((), { c with locals := [], ret := none }) : V Unit) >>= fun _ => pure t
    have e1 : validateFunc C f c = tail (pushFrame C t.results t.results >>= fun _ => validateExpr C f.body >>= fun _ => popFrame >>= fun _ => checkEmpty) c1 := by
      refine (bind_ok hl').trans ((bind_ok (show reserve C .locals _ c = .ok ((), c) from if_pos hs)).trans ?_)
      simp only [tail, V_assoc]
      rfl
    have e2 : Width.validateFunc C.bits C.build f c = tail (Whasm.pushFrame t.results t.results >>= fun _ => Width.validateExpr C.bits C.build f.body >>= fun _ => popFrame >>= fun _ => checkEmpty) c1 := by
      refine (bind_ok hl').trans ?_
      simp only [tail, V_assoc]
      rfl
    obtain ⟨a, b⟩ := framed_fits (C := C) (c := c1) hres hres (fit_expr f.body hb) ⟨h1.types, h1.funcs, h1.frames, fun r hr => by cases hr; exact hres⟩ h2 h3 hn (by omega)
    rw [e1, e2]
    refine ⟨bindV_left a, fun x c' e => ?_⟩
    obtain ⟨u, c2, k1, k2⟩ := ok_bind e
    obtain ⟨⟨s1, s2, s3, s4⟩, k3, k4, k5⟩ := b u c2 k1
    cases k2
    exact ⟨⟨s1, s2, s3, fun r hr => by cases hr⟩, k4, k5, k3.trans h4⟩

end

/-! ## Modules -/

theorem mem_exprs (m : Module) : (∀ f ∈ m.funcs, f.body ∈ exprsOf m) ∧ (∀ g ∈ m.globals, g.init ∈ exprsOf m) ∧ (∀ e ∈ m.elem, e.offset ∈ exprsOf m) ∧ ∀ d ∈ m.data, d.offset ∈ exprsOf m := by
  refine ⟨fun x h => ?_, fun x h => ?_, fun x h => ?_, fun x h => ?_⟩ <;> unfold exprsOf <;> simp only [List.mem_append, List.mem_map]
  · exact .inl (.inl (.inl ⟨x, h, rfl⟩))
  · exact .inl (.inl (.inr ⟨x, h, rfl⟩))
  · exact .inl (.inr ⟨x, h, rfl⟩)
  · exact .inr ⟨x, h, rfl⟩

theorem funcSpace_mem {m : Module} {t : FuncTy} (h : t ∈ funcSpace m) : t ∈ m.types := by
  unfold funcSpace importedFuncs at h
  rcases List.mem_append.mp h with h | h
  · obtain ⟨i, _, hi⟩ := List.mem_filterMap.mp h
    split at hi
    · exact List.mem_of_getElem? hi
    · cases hi
  · obtain ⟨i, _, hi⟩ := List.mem_filterMap.mp h
    exact List.mem_of_getElem? hi

theorem idle_ctxOf {m : Module} (h : ∀ t ∈ m.types, t.results.length ≤ 1) : Idle m.types (ctxOf m) :=
  ⟨⟨h, fun t ht => h t (funcSpace_mem ht), fun f hf => (by cases hf), fun t ht => (by cases ht)⟩, rfl, rfl, rfl⟩

/-- The part of `Module::validate` after the functions. -/
def bodyTail (C : Computer) (m : Module) : V ModuleResult := do
  forEach (fun t => do let _ ← validateTable t; pure ()) m.tables
  forEach (fun x => do let _ ← validateMem x; pure ()) m.mems
  withCtx {} (do
    useGlobals C m.globals
    forEach (fun g => do let _ ← validateGlobal C g; pure ()) m.globals)
  forEach (validateElem C) m.elem
  forEach (validateData C) m.data
  match m.start with
    | some s => validateStart s
    | none => pure ()
  reserve C .externals m.imports.length
  let imports ← collect validateImport m.imports
  reserve C .externals m.exports.length
  let exports ← collect validateExport m.exports
  if ¬ (m.tables.length ≤ 1) then V.fail .invalid
  else if ¬ (m.mems.length ≤ 1) then V.fail .invalid
  else do
    reserve C .names m.exports.length
    let exportNames := m.exports.map (·.name)
    let exportNames := dedup (sortNames exportNames)
    if exportNames.length ≠ m.exports.length then V.fail .invalid
    else pure { imports := imports, exports := exports }

/-- The same with unlimited memory. -/
def freeTail (m : Module) : V ModuleResult := do
  forEach (fun t => do let _ ← validateTable t; pure ()) m.tables
  forEach (fun x => do let _ ← validateMem x; pure ()) m.mems
  withCtx {} (do
    Whasm.useGlobals m.globals
    forEach (fun g => do let _ ← Whasm.validateGlobal g; pure ()) m.globals)
  forEach Whasm.validateElem m.elem
  forEach Whasm.validateData m.data
  match m.start with
    | some s => validateStart s
    | none => pure ()
  let imports ← collect validateImport m.imports
  let exports ← collect validateExport m.exports
  if ¬ (m.tables.length ≤ 1) then V.fail .invalid
  else if ¬ (m.mems.length ≤ 1) then V.fail .invalid
  else
    let exportNames := m.exports.map (·.name)
    let exportNames := dedup (sortNames exportNames)
    if exportNames.length ≠ m.exports.length then V.fail .invalid
    else pure { imports := imports, exports := exports }

theorem reserve_go {α : Type} {k : Entry} {n : Nat} {q : V α} (h : n ≤ C.entries k) : (reserve C k n >>= fun _ => q) = q := by
  funext c
  exact bind_ok (show reserve C k n c = .ok ((), c) from if_pos h)

theorem limits_ok {l : Limits} {c c' : Ctx} {x : U32} (e : validateLimits l c = .ok (x, c')) : c' = c := by
  unfold validateLimits at e
  split at e <;> cases e
  rfl

theorem table_ok {t : TableTy} {c c' : Ctx} {u : Unit} (e : validateTableTy t c = .ok (u, c')) : c' = c := by
  obtain ⟨x, c1, e1, e2⟩ := ok_bind e
  cases limits_ok e1
  split at e2 <;> cases e2
  rfl

theorem mem_ok {t : MemTy} {c c' : Ctx} {u : Unit} (e : validateMemTy t c = .ok (u, c')) : c' = c := by
  obtain ⟨x, c1, e1, e2⟩ := ok_bind e
  cases limits_ok e1
  split at e2 <;> cases e2
  rfl

theorem tail_fits {m : Module} (h : HasEntries C.entries m) {c : Ctx} (hc : Idle m.types c) : bodyTail C m c = freeTail m c := by
  obtain ⟨_, x2, x3, x4⟩ := mem_exprs m
  have one : ∀ e ∈ exprsOf m, 1 ≤ C.entries .frames := fun e he => Nat.lt_of_le_of_lt (Nat.zero_le _) (h.frames e he)
  have rest : ∀ imports : V (List External), ∀ exports, (reserve C .externals m.imports.length >>= fun _ => imports >>= fun imports => reserve C .externals m.exports.length >>= fun _ =>
      exports >>= fun exports => if ¬ (m.tables.length ≤ 1) then V.fail .invalid else if ¬ (m.mems.length ≤ 1) then V.fail .invalid else reserve C .names m.exports.length >>= fun _ =>
        if (dedup (sortNames (m.exports.map (·.name)))).length ≠ m.exports.length then V.fail .invalid else pure { imports := imports, exports := exports } : V ModuleResult) =
      (imports >>= fun imports => exports >>= fun exports => if ¬ (m.tables.length ≤ 1) then V.fail .invalid else if ¬ (m.mems.length ≤ 1) then V.fail .invalid else
        if (dedup (sortNames (m.exports.map (·.name)))).length ≠ m.exports.length then V.fail .invalid else pure { imports := imports, exports := exports }) := by
    intro imports exports
    simp only [reserve_go h.imports, reserve_go h.exports, reserve_go h.names]
  have hg : IdleSame m.types (withCtx {} (do useGlobals C m.globals; forEach (fun g => do let _ ← validateGlobal C g; pure ()) m.globals))
      (withCtx {} (do Whasm.useGlobals m.globals; forEach (fun g => do let _ ← Whasm.validateGlobal g; pure ()) m.globals)) := by
    intro c hc
    have l := (space_lengths m).2.2.1
    have hin : (useGlobals C m.globals >>= fun _ => forEach (fun g => do let _ ← validateGlobal C g; pure ()) m.globals) {} =
        (Whasm.useGlobals m.globals >>= fun _ => forEach (fun g => do let _ ← Whasm.validateGlobal g; pure ()) m.globals) {} := by
      refine bindV_congr ((grows_globals m.globals [] {} rfl).1 (by have := h.globals; show 0 + _ ≤ _; omega)) fun u c' e => ?_
      rw [useGlobals_eq] at e
      cases e
      exact (idle_forEach (ts := []) _ (fun g hg => idle_bind (idle_global (h.operands _ (x2 g hg)) (one _ (x2 g hg))) fun _ => idle_pure) _
        ⟨⟨fun t ht => (by cases ht), fun t ht => (by cases ht), fun t ht => (by cases ht), fun t ht => (by cases ht)⟩, rfl, rfl, rfl⟩).1
    refine ⟨?_, fun x c' e => ?_⟩
    · unfold withCtx
      rw [hin]
    · unfold withCtx at e
      split at e <;> cases e
      exact hc
  refine idle_then (idle_forEach _ fun t _ => idle_same fun c x c' e => ?_) (fun _ c hc => idle_then (idle_forEach _ fun t _ => idle_same fun c x c' e => ?_) (fun _ c hc => idle_then hg (fun _ c hc =>
    idle_then (idle_forEach _ fun e he => idle_elem (h.operands _ (x3 e he)) (one _ (x3 e he))) (fun _ c hc =>
    idle_then (idle_forEach _ fun e he => idle_data (h.operands _ (x4 e he)) (one _ (x4 e he))) (fun _ c hc => ?_) hc) hc) hc) hc) hc
  · obtain ⟨y, c1, e1, e2⟩ := ok_bind e
    obtain ⟨z, c2, e3, e4⟩ := ok_bind e1
    cases table_ok e3
    cases e4
    cases e2
    rfl
  · obtain ⟨y, c1, e1, e2⟩ := ok_bind e
    obtain ⟨z, c2, e3, e4⟩ := ok_bind e1
    cases mem_ok e3
    cases e4
    cases e2
    rfl
  · have r := rest (collect validateImport m.imports) (collect validateExport m.exports)
    cases m.start with
    | none => exact congrFun r c
    | some s => exact bindV_congr rfl fun _ c' _ => congrFun r c'

theorem fits_of_entries {m : Module} (h : HasEntries C.entries m) : FitsContext C m := ⟨h.types, h.funcs, h.tables, h.mems, h.globals⟩

theorem globals_go {m : Module} (h : HasEntries C.entries m) (c : Ctx) : withCtx {} (useGlobals C m.globals) c = .ok ((), c) := by
  have l := (space_lengths m).2.2.1
  unfold withCtx
  rw [(grows_globals m.globals [] {} rfl).1 (by have := h.globals; show 0 + _ ≤ _; omega), useGlobals_eq]

theorem funcTy_ok {t : FuncTy} {c c' : Ctx} {u : Unit} (e : validateFuncTy t c = .ok (u, c')) : c' = c := by
  unfold validateFuncTy at e
  split at e <;> cases e
  rfl

/-- When no vector is too long for memory, nothing is changed. -/
theorem module_fits {m : Module} (h : HasEntries C.entries m) (hb : BlockResults 1 m) (hl : ∀ f ∈ m.funcs, slots m.types f ≤ C.entries .locals) :
    validateModule C m = Width.validateModule C.bits C.build m := by
  have hbody : (contextFrom C m >>= fun _ => validateModuleBody C m) {} = (Whasm.contextFrom m >>= fun _ => Width.validateModuleBody C.bits C.build m) {} := by
    refine bindV_congr (context_fits (fits_of_entries h)) fun u c e => ?_
    obtain ⟨c1, c2⟩ := contextFrom_eq m
    by_cases hi : TypesIn m
    · rw [c1 hi] at e
      cases e
      refine (bind_ok (globals_go h _)).trans ?_
      have ht : Checks (forEach validateFuncTy m.types) (ctxOf m) (∀ t ∈ m.types, t.results.length ≤ 1) := checks_forEach fun t _ => checks_if.congr (by simp)
      by_cases htt : ∀ t ∈ m.types, t.results.length ≤ 1
      · refine (bind_ok (ht.1 htt)).trans (Eq.trans ?_ (bind_ok (ht.1 htt)).symm)
        refine idle_then (idle_forEach _ fun f hf => idle_bind (idle_func (hl f hf) (hb _ ((mem_exprs m).1 f hf)) (h.operands _ ((mem_exprs m).1 f hf)) (h.frames _ ((mem_exprs m).1 f hf))) fun _ => idle_pure)
          (fun _ c hc => ?_) (idle_ctxOf htt)
        exact tail_fits h hc
      · exact (bind_err (ht.2 htt)).trans (bind_err (ht.2 htt)).symm
    · rw [c2 hi] at e
      cases e
  unfold validateModule Width.validateModule
  rw [hbody]
  rfl

/-- Validation with memory for everything but the local variables, on targets with at least 32 bits. -/
theorem module_either {m : Module} (h : HasEntries C.entries m) (hb : BlockResults 1 m) (hw : 32 ≤ C.bits) (hp : Plain m) (hd : ∀ f ∈ m.funcs, depthL f.body + 1 < 2 ^ 32) :
    ((TooManyLocals (C.entries .locals) m ∨ C.bits = 32 ∧ BranchesToLast m) ∧ validateModule C m = .error .panic) ∨
    (¬ (TooManyLocals (C.entries .locals) m ∨ C.bits = 32 ∧ BranchesToLast m) ∧ validateModule C m = Whasm.validateModule m) := by
  obtain ⟨c1, c2⟩ := contextFrom_eq m
  have e0 := context_fits (fits_of_entries h)
  have ht : Checks (forEach validateFuncTy m.types) (ctxOf m) (∀ t ∈ m.types, t.results.length ≤ 1) := checks_forEach fun t _ => checks_if.congr (by simp)
  by_cases hi : TypesIn m
  · by_cases htt : ∀ t ∈ m.types, t.results.length ≤ 1
    · have hiff : (TooManyLocals (C.entries .locals) m ∨ C.bits = 32 ∧ BranchesToLast m) ↔ ∃ before f after, m.funcs = before ++ f :: after ∧ (∀ g ∈ before, Accepted m g) ∧
          (C.entries .locals < slots m.types f ∨ C.bits = 32 ∧ GetsToLast m f) := by
        have hm : ∀ {before f after}, m.funcs = before ++ f :: after → ∀ g ∈ before, Accepted m g ↔ FuncOk .code m g := fun e g hg =>
          accepted_iff m (hp g (e ▸ List.mem_append_left _ hg))
        constructor
        · rintro (⟨_, _, _, before, f, after, h4, h5, h6⟩ | ⟨hw, _, _, _, before, f, after, h4, h5, h6⟩)
          · exact ⟨before, f, after, h4, fun g hg => (hm h4 g hg).mpr (h5 g hg), .inl h6⟩
          · exact ⟨before, f, after, h4, fun g hg => (hm h4 g hg).mpr (h5 g hg), .inr ⟨hw, h6⟩⟩
        · rintro ⟨before, f, after, h4, h5, h6 | ⟨hw, h6⟩⟩
          · exact .inl ⟨hi.1, hi.2, htt, before, f, after, h4, fun g hg => (hm h4 g hg).mp (h5 g hg), h6⟩
          · exact .inr ⟨hw, hi.1, hi.2, htt, before, f, after, h4, fun g hg => (hm h4 g hg).mp (h5 g hg), h6⟩
      rw [hiff]
      have hidle := idle_ctxOf htt
      have hfun : ∀ f ∈ m.funcs, ((C.entries .locals < slots m.types f ∨ C.bits = 32 ∧ GetsToLast m f) ∧ validateFunc C f (ctxOf m) = .error .panic) ∨
          (¬ (C.entries .locals < slots m.types f ∨ C.bits = 32 ∧ GetsToLast m f) ∧ validateFunc C f (ctxOf m) = Whasm.validateFunc f (ctxOf m)) := by
        intro f hf
        by_cases hs : C.entries .locals < slots m.types f
        · refine .inl ⟨.inl hs, ?_⟩
          have hlt := hi.2 f hf
          have hl : validateTypeIdx f.ty (ctxOf m) = .ok (m.types[f.ty.toNat], ctxOf m) := by
            show lookup m.types f.ty (ctxOf m) = _
            unfold lookup
            rw [if_neg (by omega), List.getElem?_eq_getElem hlt]
          refine (bind_ok hl).trans (bind_err ?_)
          refine if_neg ?_
          unfold slots at hs
          rw [List.getElem?_eq_getElem hlt] at hs
          exact Nat.not_le.mpr hs
        · have hx := (mem_exprs m).1 f hf
          have e := (idle_func (C := C) (ts := m.types) (Nat.not_lt.mp hs) (hb _ hx) (h.operands _ hx) (h.frames _ hx) _ hidle).1
          rcases Nat.lt_or_ge 32 C.bits with h32 | h32
          · refine .inr ⟨fun hn => hn.elim hs fun hn => by omega, e.trans ?_⟩
            unfold Width.validateFunc Whasm.validateFunc
            rw [width_expr h32]
          · have h32 : C.bits = 32 := Nat.le_antisymm h32 hw
            rcases width_func (build := C.build) (m := m) (hp f hf) (hd f hf) with ⟨a, b⟩ | ⟨a, b⟩
            · exact .inl ⟨.inr ⟨h32, a⟩, e.trans (h32 ▸ b)⟩
            · exact .inr ⟨fun hn => hn.elim hs fun hn => a hn.2, e.trans (h32 ▸ b)⟩
      rcases each_func (m := m) m.funcs hfun with ⟨h1, h2⟩ | ⟨h1, h2⟩
      · refine .inl ⟨h1, ?_⟩
        unfold validateModule
        rw [bind_ok (e0.trans (c1 hi)), show validateModuleBody C m (ctxOf m) = .error .panic from (bind_ok (globals_go h _)).trans ((bind_ok (ht.1 htt)).trans (bind_err h2))]
      · refine .inr ⟨h1, ?_⟩
        unfold validateModule Whasm.validateModule
        rw [bind_ok (e0.trans (c1 hi)), bind_ok (c1 hi)]
        have hb : validateModuleBody C m (ctxOf m) = Whasm.validateModuleBody m (ctxOf m) := by
          refine (bind_ok (globals_go h _)).trans ((bind_ok (ht.1 htt)).trans (Eq.trans ?_ (bind_ok (ht.1 htt)).symm))
          refine bindV_congr h2 fun u c e => ?_
          have hc : c = ctxOf m := by
            have k : Checks (forEach (fun f => do let _ ← Whasm.validateFunc f; pure ()) m.funcs) (ctxOf m) (∀ f ∈ m.funcs, Accepted m f) := checks_forEach fun f _ => checks_accepted m f
            by_cases hk : ∀ f ∈ m.funcs, Accepted m f
            · have := (k.1 hk).symm.trans e
              cases this
              rfl
            · have := (k.2 hk).symm.trans e
              cases this
          subst hc
          exact tail_fits h hidle
        rw [hb]
        rfl
    · refine .inr ⟨fun h => htt (h.elim (·.types) (·.2.types)), ?_⟩
      unfold validateModule Whasm.validateModule
      rw [bind_ok (e0.trans (c1 hi)), bind_ok (c1 hi), show validateModuleBody C m (ctxOf m) = .error .invalid from (bind_ok (globals_go h _)).trans (bind_err (ht.2 htt)),
        show Whasm.validateModuleBody m (ctxOf m) = .error .invalid from bind_err (ht.2 htt)]
  · refine .inr ⟨fun h => hi (h.elim (fun h => ⟨h.imports, h.indices⟩) fun h => ⟨h.2.imports, h.2.indices⟩), ?_⟩
    unfold validateModule Whasm.validateModule
    rw [bind_err (e0.trans (c2 hi)), bind_err (c2 hi)]

end

end Whasm.Room
