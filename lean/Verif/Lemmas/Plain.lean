import Verif.Lemmas.Validity
import Verif.Lemmas.Depth

/-!
# Expressions and modules without pseudo-instructions
-/

namespace Whasm
open Spec

theorem plainL_mem {i : Instr} : ∀ {e : List Instr}, plainL e → i ∈ e → plainI i
  | _ :: is, ⟨h1, h2⟩, h => by
    rcases List.mem_cons.mp h with rfl | h
    · exact h1
    · exact plainL_mem h2 h

theorem plain_occurs {j : Instr} {e : List Instr} (h : Occurs j e) : plainL e → plainI j := by
  induction h with
  | here h => exact fun hp => plainL_mem hp h
  | block h _ ih => exact fun hp => ih (by have := plainL_mem hp h; rwa [plainI] at this)
  | loop h _ ih => exact fun hp => ih (by have := plainL_mem hp h; rwa [plainI] at this)
  | thn h _ ih => exact fun hp => ih (by have := plainL_mem hp h; rw [plainI] at this; exact this.1)
  | els h _ ih => exact fun hp => ih (by have := plainL_mem hp h; rw [plainI] at this; exact this.2)

theorem occurs_cons {j i : Instr} {is : List Instr} (h : Occurs j is) : Occurs j (i :: is) := by
  cases h with
  | here h => exact .here (List.mem_cons_of_mem _ h)
  | block h h' => exact .block (List.mem_cons_of_mem _ h) h'
  | loop h h' => exact .loop (List.mem_cons_of_mem _ h) h'
  | thn h h' => exact .thn (List.mem_cons_of_mem _ h) h'
  | els h h' => exact .els (List.mem_cons_of_mem _ h) h'

theorem occurs_split {j i : Instr} {is : List Instr} : Occurs j (i :: is) ↔ Occurs j [i] ∨ Occurs j is := by
  constructor
  · intro h
    cases h with
    | here h =>
      rcases List.mem_cons.mp h with rfl | h
      · exact .inl (.here (by simp))
      · exact .inr (.here h)
    | block h h' =>
      rcases List.mem_cons.mp h with rfl | h
      · exact .inl (.block (List.mem_singleton.mpr rfl) h')
      · exact .inr (.block h h')
    | loop h h' =>
      rcases List.mem_cons.mp h with rfl | h
      · exact .inl (.loop (List.mem_singleton.mpr rfl) h')
      · exact .inr (.loop h h')
    | thn h h' =>
      rcases List.mem_cons.mp h with rfl | h
      · exact .inl (.thn (List.mem_singleton.mpr rfl) h')
      · exact .inr (.thn h h')
    | els h h' =>
      rcases List.mem_cons.mp h with rfl | h
      · exact .inl (.els (List.mem_singleton.mpr rfl) h')
      · exact .inr (.els h h')
  · rintro (h | h)
    · cases h with
      | here h => exact .here (List.mem_singleton.mp h ▸ List.mem_cons_self)
      | block h h' => exact .block (List.mem_cons.mpr (.inl (List.mem_singleton.mp h))) h'
      | loop h h' => exact .loop (List.mem_cons.mpr (.inl (List.mem_singleton.mp h))) h'
      | thn h h' => exact .thn (List.mem_cons.mpr (.inl (List.mem_singleton.mp h))) h'
      | els h h' => exact .els (List.mem_cons.mpr (.inl (List.mem_singleton.mp h))) h'
    · exact occurs_cons h

mutual

theorem plainI_of : ∀ (i : Instr), ¬ Occurs .endMark [i] → ¬ Occurs .elseMark [i] → plainI i
  | .block _ b, h1, h2 => by
    rw [plainI]
    exact plainL_of b (fun h => h1 (.block List.mem_cons_self h)) fun h => h2 (.block List.mem_cons_self h)
  | .loop _ b, h1, h2 => by
    rw [plainI]
    exact plainL_of b (fun h => h1 (.loop List.mem_cons_self h)) fun h => h2 (.loop List.mem_cons_self h)
  | .ifElse _ a b, h1, h2 => by
    rw [plainI]
    exact ⟨plainL_of a (fun h => h1 (.thn List.mem_cons_self h)) fun h => h2 (.thn List.mem_cons_self h),
      plainL_of b (fun h => h1 (.els List.mem_cons_self h)) fun h => h2 (.els List.mem_cons_self h)⟩
  | .endMark, h1, _ => (h1 (.here List.mem_cons_self)).elim
  | .elseMark, _, h2 => (h2 (.here List.mem_cons_self)).elim
  | .unreachable, _, _ | .nop, _, _ | .br _, _, _ | .brIf _, _, _ | .brTable _ _, _, _ | .ret, _, _ | .call _, _, _
  | .callIndirect _ _, _, _ | .drop, _, _ | .select, _, _ | .localGet _, _, _ | .localSet _, _, _ | .localTee _, _, _
  | .globalGet _, _, _ | .globalSet _, _, _ | .load _ _ _, _, _ | .store _ _ _, _, _ | .memSize _, _, _ | .memGrow _, _, _
  | .constI32 _, _, _ | .constI64 _, _, _ | .constF32 _, _, _ | .constF64 _, _, _ | .num _, _, _ => by simp only [plainI]

theorem plainL_of : ∀ (e : List Instr), ¬ Occurs .endMark e → ¬ Occurs .elseMark e → plainL e
  | [], _, _ => by simp only [plainL]
  | i :: is, h1, h2 => by
    have up : ∀ {j : Instr}, Occurs j [i] → Occurs j (i :: is) := by
      intro j h
      cases h with
      | here h => obtain rfl := List.mem_singleton.mp h; exact .here List.mem_cons_self
      | block h h' => obtain rfl := List.mem_singleton.mp h; exact .block List.mem_cons_self h'
      | loop h h' => obtain rfl := List.mem_singleton.mp h; exact .loop List.mem_cons_self h'
      | thn h h' => obtain rfl := List.mem_singleton.mp h; exact .thn List.mem_cons_self h'
      | els h h' => obtain rfl := List.mem_singleton.mp h; exact .els List.mem_cons_self h'
    rw [plainL]
    exact ⟨plainI_of i (fun h => h1 (up h)) fun h => h2 (up h),
      plainL_of is (fun h => h1 (occurs_cons h)) fun h => h2 (occurs_cons h)⟩

end

theorem plain_iff {e : List Instr} : plainL e ↔ ¬ Occurs .endMark e ∧ ¬ Occurs .elseMark e :=
  ⟨fun h => ⟨fun h' => by have := plain_occurs h' h; simp [plainI] at this, fun h' => by have := plain_occurs h' h; simp [plainI] at this⟩,
    fun h => plainL_of e h.1 h.2⟩

theorem endsL_mem {i : Instr} : ∀ {e : List Instr}, i ∈ e → endsI i ≤ endsL e
  | j :: is, h => by
    rw [endsL]
    rcases List.mem_cons.mp h with rfl | h
    · omega
    · have := endsL_mem h; omega

theorem ends_occurs {j : Instr} {e : List Instr} (h : Occurs j e) : endsI j ≤ endsL e := by
  induction h with
  | here h => exact endsL_mem h
  | block h _ ih => have := endsL_mem h; rw [endsI] at this; omega
  | loop h _ ih => have := endsL_mem h; rw [endsI] at this; omega
  | thn h _ ih => have := endsL_mem h; rw [endsI] at this; omega
  | els h _ ih => have := endsL_mem h; rw [endsI] at this; omega

/-- Accepted functions contain no `End` mark. -/
theorem accepted_noEnd {m : Module} {f : Func} (h : Accepted m f) : ¬ Occurs .endMark f.body := by
  obtain ⟨_, _, h0, _⟩ := accepted_type h
  intro ho
  have := ends_occurs ho
  rw [h0] at this
  simp [endsI] at this

theorem plain_of_noMarks {m : Module} (h : NoMarks m) : Plain m := fun f hf => plain_iff.mpr (h f hf)

/-- Accepted modules without `Else` marks are valid by the rules of the crate. -/
theorem valid_of_ok {m : Module} {r : ModuleResult} (h : validateModule m = .ok r) (he : NoElse m) : Valid .code m := by
  obtain ⟨h, _⟩ := validate_any_iff.mp h
  have hp : Plain m := fun f hf => plain_iff.mpr ⟨accepted_noEnd (h.2 f hf), he f hf⟩
  exact (accepted_valid hp).mp h

/-- Typed expressions contain no pseudo-instructions. -/
theorem hasTypes_plain {C : Env} {e : List Instr} {a b : List Val} (h : HasTypes C e a b) : plainL e := by
  rw [plain_iff]
  refine ⟨fun ho => ?_, fun ho => ?_⟩
  all_goals
    obtain ⟨d, ho⟩ := occursAt_iff.mp ho
    obtain ⟨_, _, _, _, hj⟩ := occurs_typed ho h
    cases hj

theorem valid_plain {R : Rules} {m : Module} (h : Valid R m) : Plain m := fun f hf => by
  obtain ⟨t, _, h⟩ := h.funcs f hf
  exact hasTypes_plain h

theorem ok_of_valid {m : Module} (h : Valid .code m) : validateModule m = .ok (externals m) :=
  (validate_ok_iff (valid_plain h)).mpr ⟨h, rfl⟩

/-! ## Change of rules -/

/-- Bodies under other rules. -/
theorem funcOk_transfer {R R' : Rules} {m : Module} {f : Func} (h : FuncOk R m f)
    (hl : R.funcLabel = true → R'.funcLabel = false → ∀ j d, OccursAt j d f.body → ∀ l ∈ branchTargets j, l.toNat < d)
    (ha : R'.aligned = true → R.aligned = true ∨ ∀ j d, OccursAt j d f.body → AlignOk j) : FuncOk R' m f := by
  obtain ⟨t, ht, h⟩ := h
  refine ⟨t, ht, ?_⟩
  refine transfer (C := bodyEnv R m t f.locals) (C' := bodyEnv R' m t f.locals) (M := if R.funcLabel then [t.results] else [])
    (M' := if R'.funcLabel then [t.results] else []) ⟨id, id, id, id, id, id, id⟩ h ?_ ha
  intro j d hj l hb r hd hr
  cases h1 : R.funcLabel with
  | false => rw [h1] at hr; simp at hr
  | true =>
    cases h2 : R'.funcLabel with
    | true => rw [h1] at hr; exact hr
    | false => have := hl h1 h2 j d hj l hb; omega

end Whasm
