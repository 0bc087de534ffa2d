import Verif.Props.Validity
import Verif.Props.Module

/-!
# C29, C45, C48, C49: exact forms

Where the verdict of the validator and validity by the document differ, exactly.
-/

namespace Whasm
open Spec

/-! ## C45 -/

/-- Success leaves the state `c` unchanged. -/
def Keeps {α : Type} (p : V α) (c : Ctx) : Prop := ∀ x c', p c = .ok (x, c') → c' = c

theorem keeps_pure {α : Type} (x : α) (c : Ctx) : Keeps (pure x) c := by
  intro y c' h; cases h; rfl

theorem keeps_fail {α : Type} (e : VErr) (c : Ctx) : Keeps (V.fail e : V α) c := by
  intro y c' h; cases h

theorem keeps_bind {α β : Type} {p : V α} {f : α → V β} {c : Ctx} (hp : Keeps p c) (hf : ∀ x, Keeps (f x) c) : Keeps (p >>= f) c := by
  intro y c' h
  cases hx : p c with
  | error e => rw [bind_err hx] at h; cases h
  | ok r =>
    obtain ⟨x, c1⟩ := r
    obtain rfl := hp x c1 hx
    rw [bind_ok hx] at h
    exact hf x y c' h

theorem keeps_lookup {α : Type} (xs : List α) (i : Idx) (c : Ctx) : Keeps (lookup xs i) c := by
  intro x c' h
  unfold lookup at h
  split at h
  · cases h
  · split at h <;> cases h
    rfl

theorem keeps_if {α : Type} {Q : Prop} [Decidable Q] {p q : V α} {c : Ctx} (hp : Keeps p c) (hq : Keeps q c) : Keeps (if Q then p else q) c := by
  split
  · exact hp
  · exact hq

theorem keeps_checks {p : V Unit} {c : Ctx} {Q : Prop} (h : Checks p c Q) : Keeps p c := by
  intro x c' hp
  by_cases q : Q
  · rw [h.1 q] at hp; cases hp; rfl
  · rw [h.2 q] at hp; cases hp

/-- **C45, state, the other items.** After each successful item that is not a function the state is what it was before. -/
theorem C45_items {c c' : Ctx} (h1 : c.locals = []) (h2 : c.ret = none) (h3 : c.operands = []) (h4 : c.frames = []) :
    (∀ t : FuncTy, validateFuncTy t c = .ok ((), c') → c' = c) ∧
    (∀ (x : Table) (t : TableTy), validateTable x c = .ok (t, c') → c' = c) ∧
    (∀ (x : Mem) (t : MemTy), validateMem x c = .ok (t, c') → c' = c) ∧
    (∀ (g : Global) (t : GlobalTy), validateGlobal g c = .ok (t, c') → c' = c) ∧
    (∀ e : Elem, validateElem e c = .ok ((), c') → c' = c) ∧
    (∀ d : Data, validateData d c = .ok ((), c') → c' = c) ∧
    (∀ s : Start, validateStart s c = .ok ((), c') → c' = c) ∧
    (∀ (i : Import) (t : External), validateImport i c = .ok (t, c') → c' = c) ∧
    (∀ (e : Export) (t : External), validateExport e c = .ok (t, c') → c' = c) := by
  have hc : Clean c := ⟨h1, h2, h3, h4⟩
  refine ⟨fun t h => keeps_if (keeps_fail _ _) (keeps_pure _ _) _ _ h,
    fun x t h => keeps_bind (keeps_checks (checks_tableTy x.ty)) (fun _ => keeps_pure _ _) _ _ h,
    fun x t h => keeps_bind (keeps_checks (checks_memTy x.ty)) (fun _ => keeps_pure _ _) _ _ h,
    fun g t h => keeps_bind (keeps_pure _ _) (fun _ => keeps_bind (keeps_checks (checks_init h3 h4 _ _)) fun _ => keeps_pure _ _) _ _ h,
    fun e h => keeps_checks (checks_elem hc e) _ _ h, fun d h => keeps_checks (checks_data hc d) _ _ h,
    fun s h => keeps_checks (checks_start s) _ _ h, fun i t h => ?_, fun e t h => ?_⟩
  · obtain ⟨_, _, d⟩ := i
    cases d with
    | func x => exact keeps_bind (keeps_lookup _ _ _) (fun _ => keeps_pure _ _) _ _ h
    | table x => exact keeps_bind (keeps_checks (checks_tableTy x)) (fun _ => keeps_pure _ _) _ _ h
    | mem x => exact keeps_bind (keeps_checks (checks_memTy x)) (fun _ => keeps_pure _ _) _ _ h
    | global x => exact keeps_bind (keeps_pure _ _) (fun _ => keeps_pure _ _) _ _ h
  · obtain ⟨_, d⟩ := e
    cases d with
    | func x => exact keeps_bind (keeps_lookup _ _ _) (fun _ => keeps_pure _ _) _ _ h
    | table x => exact keeps_bind (keeps_lookup _ _ _) (fun _ => keeps_pure _ _) _ _ h
    | mem x => exact keeps_bind (keeps_lookup _ _ _) (fun _ => keeps_pure _ _) _ _ h
    | global x => exact keeps_bind (keeps_lookup _ _ _) (fun _ => keeps_pure _ _) _ _ h

/-! ## C48 -/

/-- **C48, the rules of the crate.** Without stray `Else` the validator decides validity by the rules of the crate, and delivers the types
of imports and exports. -/
theorem C48_code {m : Module} (he : NoElse m) :
    (Valid .code m → validateModule m = .ok (externals m)) ∧ (¬ Valid .code m → validateModule m = .error .invalid) :=
  ⟨ok_of_valid, fun h => by
    rcases C32_total m with ⟨r, hr⟩ | hr
    · exact (h (valid_of_ok hr he)).elim
    · exact hr⟩

theorem typed_aligned {C : Env} (hC : C.aligned = true) {i : Instr} {a b : List Val} (h : HasType C i a b) : AlignOk i := by
  cases h with
  | @load _ op _ _ _ _ h => have := h hC; cases op <;> exact this
  | @store _ op _ _ _ _ h => have := h hC; cases op <;> exact this
  | _ => trivial

/-- **C48, exactly when an accepted module is valid by the document**: the three listed exceptions are all there are. -/
theorem C48_exact {m : Module} {r : ModuleResult} (h : validateModule m = .ok r) (he : NoElse m) : Valid .w3c m ↔
    (∀ f ∈ m.funcs, ∀ j, Occurs j f.body → AlignOk j) ∧
    (∀ g ∈ m.globals, ∀ x, .globalGet x ∈ g.init → (importedGlobals m)[x.toNat]? = some ⟨.const, g.ty.val⟩) ∧
    (tableSpace m).length ≤ 1 ∧ (memSpace m).length ≤ 1 := by
  constructor
  · intro hv
    refine ⟨fun f hf j hj => ?_, fun g hg x hx => ?_, hv.oneTable, hv.oneMem⟩
    · obtain ⟨t, _, hb⟩ := hv.funcs f hf
      obtain ⟨d, hj⟩ := occursAt_iff.mp hj
      obtain ⟨_, _, _, _, hty⟩ := occurs_typed hj hb
      exact typed_aligned rfl hty
    · have h1 : SingleConst (importedGlobals m) g.init g.ty.val := constOk_iff.mp (hv.globals g hg)
      generalize g.init = e at h1 hx
      generalize g.ty.val = t at h1
      cases h1 with
      | global h => simp at hx; subst hx; exact h
      | _ => simp at hx
  · rintro ⟨ha, hg, ht, hm⟩
    obtain ⟨hd, hf⟩ := valid_of_ok h he
    refine ⟨declsOk_w3c hd (fun g h' => ?_) ht hm, fun f hm => ?_⟩
    · have h1 := (C40_module h).1 g h'
      have h2 := hg g h'
      generalize g.init = e at h1 h2
      generalize g.ty.val = t at h1 h2
      cases h1 with
      | i32 v => exact .i32 v
      | i64 v => exact .i64 v
      | f32 v => exact .f32 v
      | f64 v => exact .f64 v
      | global h => exact .global (h2 _ List.mem_cons_self)
    · exact funcOk_transfer (hf f hm) (fun h => by cases h) fun _ => .inr fun j d hj => ha f hm j (occursAt_iff.mpr ⟨d, hj⟩)

/-! ## C49 -/

/-- **C49, exactly when a module that is valid by the document is accepted.** -/
theorem C49_exact {m : Module} (h : Valid .w3c m) : validateModule m = .ok (externals m) ↔
    (∀ f ∈ m.funcs, ∀ j d, OccursAt j d f.body → ∀ l ∈ branchTargets j, l.toNat < d) ∧
    (∀ t ∈ memSpace m, t.lim.min ≠ 65536 ∧ t.lim.max ≠ some 65536) ∧
    (∀ g ∈ m.globals, ∀ x, .globalGet x ∈ g.init → (ownGlobals m)[x.toNat]? = some ⟨.const, g.ty.val⟩) := by
  constructor
  · intro ho
    refine ⟨fun f hf j d hj l hl => ?_, fun t ht => ?_, fun g hg x hx => (C41_own_partial ho hg hx).2⟩
    · obtain ⟨t, _, hi⟩ := C34_bodies ho hf
      have := hi j d hj
      cases j with
      | br => simp [branchTargets] at hl; subst hl; exact this
      | brIf => simp [branchTargets] at hl; subst hl; exact this
      | brTable =>
        simp [branchTargets] at hl
        rcases hl with hl | rfl
        · exact this.1 l hl
        · exact this.2
      | _ => simp [branchTargets] at hl
    · obtain ⟨k1, k2⟩ := (C37_limits ho).2 t ht
      refine ⟨fun e => ?_, fun e => ?_⟩
      · rw [e] at k1; exact absurd k1 (by decide)
      · exact absurd (k2 _ e).1 (by decide)
  · rintro ⟨hb, hm, hg⟩
    obtain ⟨⟨a1, a3, a4, a5, a6, a7, a8, a9, b1, b2, a10, a11, a12, a13⟩, hf⟩ := h
    have hlim : ∀ t ∈ memSpace m, LimitsOk 65536 t.lim → LimitsOk 65535 t.lim := by
      intro t ht hl
      obtain ⟨h1, h2⟩ := hm t ht
      refine ⟨?_, fun n hn => ⟨?_, (hl.2 n hn).2⟩⟩
      · have := hl.1
        have h3 : t.lim.min.toNat ≠ 65536 := fun h => h1 (BitVec.eq_of_toNat_eq h)
        omega
      · have := (hl.2 n hn).1
        have h3 : n.toNat ≠ 65536 := fun h => h2 (by rw [hn]; exact congrArg some (BitVec.eq_of_toNat_eq h))
        omega
    refine ok_of_valid ⟨⟨a1, a3, fun x hx => hlim _ (List.mem_append_right _ (List.mem_map_of_mem hx)) (a4 x hx), fun g hg' => ?_,
      fun e he => ⟨(a6 e he).1, constOk_iff.mpr (show SingleConst (globalSpace m) _ _ from constOk_iff.mp (a6 e he).2.1), (a6 e he).2.2⟩,
      fun d hd => ⟨(a7 d hd).1, constOk_iff.mpr (show SingleConst (globalSpace m) _ _ from constOk_iff.mp (a7 d hd).2)⟩, a8, a9, b1,
      fun x hx => hlim x (List.mem_append_left _ hx) (b2 x hx), a10, ?_, ?_, a13⟩,
      fun f hm => funcOk_transfer (hf f hm) (fun _ _ => hb f hm) fun h => by cases h⟩
    · have h1 := constOk_iff.mp (a5 g hg')
      have h2 := hg g hg'
      refine constOk_iff.mpr ?_
      generalize g.init = e at h1 h2
      generalize g.ty.val = t at h1 h2
      cases h1 with
      | i32 v => exact .i32 v
      | i64 v => exact .i64 v
      | f32 v => exact .f32 v
      | f64 v => exact .f64 v
      | global h => exact .global (h2 _ List.mem_cons_self)
    · simp only [Rules.w3c, tableSpace, List.length_append, List.length_map] at a11
      show m.tables.length ≤ 1
      omega
    · simp only [Rules.w3c, memSpace, List.length_append, List.length_map] at a12
      show m.mems.length ≤ 1
      omega

/-- An imported global and an own one of the same type with the same number in their spaces: `global.get 0` means the one by the document,
the other in the crate; both accept it. -/
def sameGlobals : Module :=
  { imports := [⟨[], [], .global ⟨.const, .i32⟩⟩], globals := [⟨⟨.const, .i32⟩, [.globalGet 0]⟩] }

example : validateModule sameGlobals = .ok ⟨[.global ⟨.const, .i32⟩], []⟩ := by decide +kernel

example : Valid .w3c sameGlobals := by
  refine (C48_exact (r := ⟨[.global ⟨.const, .i32⟩], []⟩) (by decide +kernel) (by intro f hf; cases hf)).mpr
    ⟨(by intro f hf; cases hf), fun g hg x hx => ?_, by decide, by decide⟩
  obtain rfl := List.mem_singleton.mp hg
  simp at hx
  subst hx
  rfl

/-! ## C29 -/

/-- **C29, validation.** The nesting of accepted modules is not limited either. -/
theorem C29_deep_valid (k : Nat) : validateModule { types := [⟨[], []⟩], funcs := [⟨0, [], deep k⟩] } = .ok ⟨[], []⟩ := by
  have ht : ∀ (k : Nat) (C : Env), HasTypes C (deep k) [] [] := by
    intro k
    induction k with
    | zero => exact fun C => .nil []
    | succ k ih => exact fun C => hasTypes_single [] (.block (ih _))
  refine ok_of_valid ⟨?_, fun f hf => ?_⟩
  · constructor <;> simp [Rules.code, importedTables, importedMems]
  · obtain rfl := List.mem_singleton.mp hf
    exact ⟨⟨[], []⟩, rfl, ht k _⟩

end Whasm
