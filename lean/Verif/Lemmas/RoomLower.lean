import Verif.Lemmas.RoomModule

/-!
# What validation needs memory for
-/

namespace Whasm.Room
open Spec

section
variable {α β : Type} {C : Computer}

/-- `q` needs `d` more frames, and in the end there are `k` more, and the same types. -/
def Climb (C : Computer) (q : V α) (d k : Int) : Prop := ∀ c x c', (c.frames.length : Int) ≤ C.entries .frames → q c = .ok (x, c') →
  ((c.frames.length : Int) + d ≤ C.entries .frames ∧ (c'.frames.length : Int) = c.frames.length + k) ∧ c'.types = c.types

/-- `q` makes and removes no frames. -/
abbrev Level (C : Computer) (q : V α) : Prop := Climb C q 0 0

theorem climb_bind {q : V α} {g : α → V β} {d1 k1 d2 k2 d k : Int} (h : Climb C q d1 k1) (hg : ∀ x, Climb C (g x) d2 k2) (h1 : k1 ≤ d1 := by omega)
    (hd : d ≤ max d1 (k1 + d2) := by omega) (hk : k = k1 + k2 := by omega) : Climb C (q >>= g) d k := by
  intro c x c' hc e
  obtain ⟨y, c1, e1, e2⟩ := ok_bind e
  obtain ⟨⟨a1, a2⟩, a3⟩ := h c y c1 hc e1
  obtain ⟨⟨b1, b2⟩, b3⟩ := hg y c1 x c' (by omega) e2
  exact ⟨⟨by omega, by omega⟩, b3.trans a3⟩

theorem level_same {q : V α} (h : ∀ c x c', q c = .ok (x, c') → c'.frames.length = c.frames.length ∧ c'.types = c.types) : Level C q :=
  fun c x c' hc e => ⟨⟨by omega, by rw [(h c x c' e).1]; omega⟩, (h c x c' e).2⟩

theorem level_pure {x : α} : Level C (pure x : V α) := level_same fun _ _ _ e => by cases e; exact ⟨rfl, rfl⟩
theorem level_fail {e : VErr} : Level C (V.fail e : V α) := level_same fun _ _ _ e => by cases e
theorem level_ite {b : Prop} [Decidable b] {q : V α} {e : VErr} (h : Level C q) : Level C (if b then V.fail e else q) := by
  by_cases hb : b
  · rw [if_pos hb]; exact level_fail
  · rw [if_neg hb]; exact h
theorem level_lookup {sel : Ctx → List α} {i : Idx} : Level C (fun c => lookup (sel c) i c) := level_same fun c x c' e => by
  have e : lookup (sel c) i c = _ := e
  unfold lookup at e
  split at e
  · cases e
  · split at e <;> cases e
    exact ⟨rfl, rfl⟩
theorem level_label {w : Nat} {build : Build} {i : Idx} : Level C (validateLabelOn w build i) := level_same fun _ _ _ e => by rw [(label_ok e).2]; exact ⟨rfl, rfl⟩
theorem level_labels {w : Nat} {build : Build} {t : List Val} {ls : List Idx} : Level C (Width.validateLabels w build t ls) := level_same fun _ _ _ e => by rw [labels_ok e]; exact ⟨rfl, rfl⟩

theorem level_popOperand {o : Operand} : Level C (popOperand o) := level_same fun c x c' e => by
  unfold popOperand at e
  split at e
  · cases e
  · split at e
    · cases e; exact ⟨rfl, rfl⟩
    · split at e
      · cases e
      · split at e
        · cases e
        · split at e
          · cases e; exact ⟨rfl, rfl⟩
          · cases e; exact ⟨rfl, rfl⟩
          · split at e
            · cases e; exact ⟨rfl, rfl⟩
            · cases e

theorem level_popReversed : ∀ vs, Level C (popReversed vs)
  | [] => level_pure
  | _ :: vs => climb_bind level_popOperand fun _ => level_popReversed vs
theorem level_popOperands {vs : List Val} : Level C (popOperands vs) := level_popReversed _

theorem level_setUnreachable : Level C setUnreachable := level_same fun c x c' e => by
  unfold setUnreachable at e
  cases hf : c.frames with
  | nil => rw [hf] at e; cases e
  | cons f rest => rw [hf] at e; cases e; exact ⟨rfl, rfl⟩

theorem level_pushOperand {o : Operand} : Level C (pushOperand C o) := level_same fun c x c' e => by
  rcases orPanic_pushOperand (C := C) o c with h | h
  · rw [h] at e; cases e
  · rw [h] at e; cases e; exact ⟨rfl, rfl⟩
theorem level_pushOperands : ∀ vs : List Val, Level C (pushOperands C vs)
  | [] => level_pure
  | _ :: vs => climb_bind level_pushOperand fun _ => level_pushOperands vs

theorem climb_popFrame : Climb C popFrame 0 (-1) := by
  intro c x c' hc e
  unfold popFrame at e
  rw [bind_ok (x := c) (c' := c) rfl] at e
  cases hf : c.frames with
  | nil => rw [hf] at e; cases e
  | cons f rest =>
    rw [hf] at e
    obtain ⟨u, c1, e1, e⟩ := ok_bind e
    obtain ⟨_, c1', e2, e⟩ := ok_bind e
    cases e2
    obtain ⟨⟨_, hk⟩, ht⟩ := level_popOperands (C := C) c u c1 hc e1
    by_cases hh : c1.operands.length ≠ f.height
    · rw [if_pos hh] at e; cases e
    · rw [if_neg hh] at e
      cases hf1 : c1.frames with
      | nil => rw [hf1] at e; cases e
      | cons f1 rest1 =>
        rw [hf1] at e
        obtain ⟨_, c2, e2, e⟩ := ok_bind e
        cases e2
        cases e
        rw [hf1, hf] at hk
        refine ⟨⟨by rw [← hf]; omega, ?_⟩, ht⟩
        simp only [List.length_cons] at hk ⊢
        omega

theorem climb_pushFrame {l o : List Val} : Climb C (pushFrame C l o) 1 1 := by
  intro c x c' hc e
  by_cases h : c.frames.length + 1 ≤ C.entries .frames
  · have : pushFrame C l o c = Whasm.pushFrame l o c := if_pos h
    rw [this] at e
    cases e
    exact ⟨⟨by omega, by show ((_ :: c.frames).length : Int) = _; simp only [List.length_cons]; omega⟩, rfl⟩
  · have : pushFrame C l o c = .error .panic := if_neg h
    rw [this] at e
    cases e

theorem climb_end : Climb C (validateEnd C) 0 (-1) := climb_bind climb_popFrame level_pushOperands
theorem climb_else : Climb C (validateElse C) 0 0 := climb_bind climb_popFrame fun _ => climb_pushFrame

theorem level_then {q : V α} {g : α → V β} (h : Level C q) (hg : ∀ x, Level C (g x)) : Level C (q >>= g) := climb_bind h hg

mutual

theorem climb_instr : ∀ i : Instr, plainI i → Climb C (validateInstr C i) (depthI i) 0
  | .block t b, h | .loop t b, h => by
    have hb := climb_expr b h
    simp only [depthI]
    exact climb_bind level_pure fun _ => climb_bind (d := 1 + depthL b) (k := 0) climb_pushFrame fun _ => climb_bind (d := depthL b) (k := -1) hb fun _ => climb_end
  | .ifElse t a b, h => by
    have ha := climb_expr a h.1
    have hb := climb_expr b h.2
    simp only [depthI]
    exact climb_bind level_pure fun _ => climb_bind (d := 1 + max (depthL a) (depthL b)) (k := 0) level_popOperands fun _ => climb_bind (d := 1 + max (depthL a) (depthL b)) (k := 0) climb_pushFrame fun _ =>
      climb_bind (d := max (depthL a) (depthL b)) (k := -1) ha fun _ => climb_bind (d := depthL b) (k := -1) climb_else fun _ => climb_bind (d := depthL b) (k := -1) hb fun _ => climb_end
  | .elseMark, h | .endMark, h => by cases h
  | .unreachable, _ => level_setUnreachable
  | .nop, _ => level_pure
  | .br _, _ => level_then level_label fun _ => level_then level_popOperands fun _ => level_setUnreachable
  | .brIf _, _ => level_then level_label fun _ => level_then level_popOperands fun _ => level_then level_popOperands fun _ => level_pushOperands _
  | .brTable ls _, _ => level_then level_label fun _ => level_then level_labels fun _ => level_then level_popOperands fun _ => level_then level_popOperands fun _ => level_setUnreachable
  | .ret, _ => level_then (level_same fun _ _ _ e => by cases e; exact ⟨rfl, rfl⟩) fun c => by
    cases c.ret with
    | none => exact level_fail
    | some t => exact level_then level_popOperands fun _ => level_setUnreachable
  | .call _, _ => level_then level_lookup fun _ => level_then level_popOperands fun _ => level_pushOperands _
  | .callIndirect _ _, _ => level_then level_lookup fun _ => level_then level_lookup fun _ => level_ite (level_then level_popOperands fun _ => level_then level_popOperands fun _ => level_pushOperands _)
  | .drop, _ => level_then level_popOperand fun _ => level_pure
  | .select, _ => level_then level_popOperands fun _ => level_then level_popOperand fun _ => level_then level_popOperand fun _ => level_pushOperand
  | .localGet _, _ => level_then level_lookup fun _ => level_pushOperands _
  | .localSet _, _ => level_then level_lookup fun _ => level_popOperands
  | .localTee _, _ => level_then level_lookup fun _ => level_then level_popOperands fun _ => level_pushOperands _
  | .globalGet _, _ => level_then level_lookup fun _ => level_pushOperands _
  | .globalSet _, _ => level_then level_lookup fun _ => level_ite level_popOperands
  | .load _ _ _, _ => level_then level_lookup fun _ => level_then level_popOperands fun _ => level_pushOperands _
  | .store _ _ _, _ => level_then level_lookup fun _ => level_popOperands
  | .memSize _, _ => level_then level_lookup fun _ => level_pushOperands _
  | .memGrow _, _ => level_then level_lookup fun _ => level_then level_popOperands fun _ => level_pushOperands _
  | .constI32 _, _ | .constI64 _, _ | .constF32 _, _ | .constF64 _, _ => level_pushOperands _
  | .num _, _ => level_then level_popOperands fun _ => level_pushOperands _

theorem climb_expr : ∀ e : List Instr, plainL e → Climb C (validateExpr C e) (depthL e) 0
  | [], _ => level_pure
  | i :: is, h => climb_bind (climb_instr i h.1) (fun _ => climb_expr is h.2) (by omega) (by simp only [depthL]; omega)

end

theorem climb_reserve {k : Entry} {n : Nat} {c c' : Ctx} {u : Unit} (e : reserve C k n c = .ok (u, c')) : n ≤ C.entries k ∧ c' = c := by
  rcases reserve_same (C := C) k n c with h | h
  · rw [h] at e; cases e
  · refine ⟨Classical.byContradiction fun hn => ?_, ?_⟩
    · have : reserve C k n c = .error .panic := if_neg hn
      rw [this] at h
      cases h
    · rw [h] at e; cases e; rfl

theorem func_needs {f : Func} {c c' : Ctx} {t : FuncTy} (hp : plainL f.body) (hc : c.frames = []) (e : validateFunc C f c = .ok (t, c')) :
    slots c.types f ≤ C.entries .locals ∧ depthL f.body < C.entries .frames ∧ c'.types = c.types ∧ c'.frames = [] := by
  obtain ⟨t1, c1, e1, e⟩ := ok_bind e
  obtain ⟨_, c2, e2, e⟩ := ok_bind e
  obtain ⟨_, c3, e3, e⟩ := ok_bind e
  cases e3
  obtain ⟨_, c4, e4, e⟩ := ok_bind e
  obtain ⟨_, c5, e5, e⟩ := ok_bind e
  obtain ⟨_, c6, e6, e⟩ := ok_bind e
  obtain ⟨_, c7, e7, e⟩ := ok_bind e
  obtain ⟨_, c8, e8, e⟩ := ok_bind e
  cases e8
  cases e
  obtain ⟨a1, rfl⟩ := climb_reserve e2
  have h1 : lookup c.types f.ty c = _ := e1
  unfold lookup at h1
  by_cases hl : c.types.length ≤ f.ty.toNat
  · rw [if_pos hl] at h1; cases h1
  · rw [if_neg hl] at h1
    cases ht : c.types[f.ty.toNat]? with
    | none => rw [ht] at h1; cases h1
    | some t2 =>
      rw [ht] at h1
      cases h1
      obtain ⟨⟨b1, b2⟩, b3⟩ := climb_pushFrame (C := C) _ _ _ (by show ((c.frames.length : Nat) : Int) ≤ _; rw [hc]; show (0 : Int) ≤ _; omega) e4
      have b2 : (c4.frames.length : Int) = c.frames.length + 1 := b2
      rw [hc] at b2
      have b2 : (c4.frames.length : Int) = 0 + 1 := b2
      have b1 : (c.frames.length : Int) + 1 ≤ C.entries .frames := b1
      rw [hc] at b1
      have b1 : (0 : Int) + 1 ≤ C.entries .frames := b1
      obtain ⟨⟨d1, d2⟩, d3⟩ := climb_expr (C := C) f.body hp _ _ _ (by omega) e5
      obtain ⟨⟨_, g2⟩, g3⟩ := climb_popFrame (C := C) _ _ _ (by omega) e6
      obtain ⟨rfl, _, hf⟩ := checkEmpty_ok e7
      refine ⟨?_, by omega, g3.trans (d3.trans b3), hf⟩
      unfold slots
      rw [ht]
      exact a1

theorem funcs_need {ts : List FuncTy} : ∀ (fs : List Func) {c c' : Ctx} {u : Unit}, (∀ f ∈ fs, plainL f.body) → c.types = ts → c.frames = [] →
    forEach (fun f => do let _ ← validateFunc C f; pure ()) fs c = .ok (u, c') → ∀ f ∈ fs, slots ts f ≤ C.entries .locals ∧ depthL f.body < C.entries .frames
  | [], _, _, _, _, _, _, _ => fun f hf => by cases hf
  | g :: fs, c, c', u, hp, ht, hc, e => by
    obtain ⟨_, c1, e1, e2⟩ := ok_bind e
    obtain ⟨t, c2, e3, e4⟩ := ok_bind e1
    cases e4
    obtain ⟨a1, a2, a3, a4⟩ := func_needs (hp g List.mem_cons_self) hc e3
    intro f hf
    rcases List.mem_cons.mp hf with rfl | hf
    · exact ⟨ht ▸ a1, a2⟩
    · exact funcs_need fs (fun f hf => hp f (List.mem_cons_of_mem _ hf)) (a3.trans ht) a4 e2 f hf

/-- What an accepted module has needed. -/
theorem module_needs {m : Module} {r : ModuleResult} (hp : Plain m) (h : validateModule C m = .ok r) :
    FitsContext C m ∧ (∀ f ∈ m.funcs, slots m.types f ≤ C.entries .locals ∧ depthL f.body < C.entries .frames) ∧
    m.imports.length ≤ C.entries .externals ∧ m.exports.length ≤ C.entries .externals ∧ m.exports.length ≤ C.entries .names := by
  unfold validateModule at h
  split at h
  · rename_i r' c' e
    obtain ⟨u, c, e0, e⟩ := ok_bind e
    obtain ⟨h1, h2, rfl⟩ := fits_context e0
    refine ⟨h1, ?_⟩
    obtain ⟨_, c1, e1, e⟩ := ok_bind e
    have hc1 : c1 = ctxOf m := by
      rcases globals_first (C := C) m.globals (ctxOf m) with k | k
      · rw [k] at e1; cases e1
      · rw [k] at e1; cases e1; rfl
    subst hc1
    obtain ⟨_, c2, e2, e⟩ := ok_bind e
    have ht : Checks (forEach validateFuncTy m.types) (ctxOf m) (∀ t ∈ m.types, t.results.length ≤ 1) := checks_forEach fun t _ => checks_if.congr (by simp)
    have hc2 : c2 = ctxOf m := by
      by_cases htt : ∀ t ∈ m.types, t.results.length ≤ 1
      · rw [ht.1 htt] at e2; cases e2; rfl
      · rw [ht.2 htt] at e2; cases e2
    subst hc2
    obtain ⟨_, c3, e3, e⟩ := ok_bind e
    refine ⟨funcs_need m.funcs hp rfl rfl e3, ?_⟩
    obtain ⟨_, c4, _, e⟩ := ok_bind e
    obtain ⟨_, c5, _, e⟩ := ok_bind e
    obtain ⟨_, c6, _, e⟩ := ok_bind e
    obtain ⟨_, c7, _, e⟩ := ok_bind e
    obtain ⟨_, c8, _, e⟩ := ok_bind e
    have rest : ∀ {c : Ctx}, (do
        reserve C .externals m.imports.length
        let imports ← collect validateImport m.imports
        reserve C .externals m.exports.length
        let exports ← collect validateExport m.exports
        if ¬ (m.tables.length ≤ 1) then V.fail .invalid
        else if ¬ (m.mems.length ≤ 1) then V.fail .invalid
        else do
          reserve C .names m.exports.length
          if (dedup (sortNames (m.exports.map (·.name)))).length ≠ m.exports.length then V.fail .invalid
          else pure { imports := imports, exports := exports } : V ModuleResult) c = .ok (r', c') →
        m.imports.length ≤ C.entries .externals ∧ m.exports.length ≤ C.entries .externals ∧ m.exports.length ≤ C.entries .names := by
      intro c e
      obtain ⟨_, d1, k1, e⟩ := ok_bind e
      obtain ⟨_, d2, k2, e⟩ := ok_bind e
      obtain ⟨_, d3, k3, e⟩ := ok_bind e
      obtain ⟨_, d4, k4, e⟩ := ok_bind e
      refine ⟨(climb_reserve k1).1, (climb_reserve k3).1, ?_⟩
      by_cases q1 : ¬ (m.tables.length ≤ 1)
      · rw [if_pos q1] at e; cases e
      · rw [if_neg q1] at e
        by_cases q2 : ¬ (m.mems.length ≤ 1)
        · rw [if_pos q2] at e; cases e
        · rw [if_neg q2] at e
          obtain ⟨_, d5, k5, e⟩ := ok_bind e
          exact (climb_reserve k5).1
    cases hs : m.start with
    | none => rw [hs] at e; exact rest e
    | some s =>
      rw [hs] at e
      obtain ⟨_, c9, _, e⟩ := ok_bind e
      exact rest e
  · cases h

end

end Whasm.Room
