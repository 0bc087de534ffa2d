import Verif.Lemmas.Points

/-!
# Where in a list of instructions an execution is
-/

namespace Whasm.Run
open Spec

variable {M : Machine}

/-- A step does not look at what follows. -/
theorem step_local {c c' : Conf} {e : Admin} {es es' : List Admin} (h : Step M c (e :: es) c' es') : ∃ X, es' = X ++ es ∧ ∀ tl, Step M c (e :: tl) c' (X ++ tl) := by
  cases h with
  | constI32 => exact ⟨[], rfl, fun _ => .constI32⟩
  | constI64 => exact ⟨[], rfl, fun _ => .constI64⟩
  | constF32 => exact ⟨[], rfl, fun _ => .constF32⟩
  | constF64 => exact ⟨[], rfl, fun _ => .constF64⟩
  | num hp hv => exact ⟨[], rfl, fun _ => .num hp hv⟩
  | numTrap hp hv => exact ⟨[_], rfl, fun _ => .numTrap hp hv⟩
  | drop => exact ⟨[], rfl, fun _ => .drop⟩
  | selectFirst ht hb => exact ⟨[], rfl, fun _ => .selectFirst ht hb⟩
  | selectSecond ht hb => exact ⟨[], rfl, fun _ => .selectSecond ht hb⟩
  | localGet hx => exact ⟨[], rfl, fun _ => .localGet hx⟩
  | localSet hx => exact ⟨[], rfl, fun _ => .localSet hx⟩
  | localTee hx => exact ⟨[], rfl, fun _ => .localTee hx⟩
  | globalGet hx => exact ⟨[], rfl, fun _ => .globalGet hx⟩
  | globalSet hx => exact ⟨[], rfl, fun _ => .globalSet hx⟩
  | load hm hb => exact ⟨[], rfl, fun _ => .load hm hb⟩
  | loadTrap hm hb => exact ⟨[_], rfl, fun _ => .loadTrap hm hb⟩
  | store hm ht hb => exact ⟨[], rfl, fun _ => .store hm ht hb⟩
  | storeTrap hm ht hb => exact ⟨[_], rfl, fun _ => .storeTrap hm ht hb⟩
  | memSize hm => exact ⟨[], rfl, fun _ => .memSize hm⟩
  | memGrow hm hl hg => exact ⟨[], rfl, fun _ => .memGrow hm hl hg⟩
  | memGrowFail hm hf => exact ⟨[], rfl, fun _ => .memGrowFail hm hf⟩
  | nop => exact ⟨[], rfl, fun _ => .nop⟩
  | unreachable => exact ⟨[_], rfl, fun _ => .unreachable⟩
  | block => exact ⟨[_], rfl, fun _ => .block⟩
  | loop => exact ⟨[_], rfl, fun _ => .loop⟩
  | ifThen hk => exact ⟨[_], rfl, fun _ => .ifThen hk⟩
  | ifElse hk => exact ⟨[_], rfl, fun _ => .ifElse hk⟩
  | brIf hk => exact ⟨[_], rfl, fun _ => .brIf hk⟩
  | brIfNot hk => exact ⟨[], rfl, fun _ => .brIfNot hk⟩
  | brTable hx => exact ⟨[_], rfl, fun _ => .brTable hx⟩
  | brTableElse hx => exact ⟨[_], rfl, fun _ => .brTableElse hx⟩
  | call hf => exact ⟨[_], rfl, fun _ => .call hf⟩
  | callIndirect hy hx hk ha ht => exact ⟨[_], rfl, fun _ => .callIndirect hy hx hk ha ht⟩
  | callOther hy hx hk ha ht => exact ⟨[_], rfl, fun _ => .callOther hy hx hk ha ht⟩
  | callEmpty hy hx hk => exact ⟨[_], rfl, fun _ => .callEmpty hy hx hk⟩
  | callOutside hy hx hk => exact ⟨[_], rfl, fun _ => .callOutside hy hx hk⟩
  | inLabel h => exact ⟨[_], rfl, fun _ => .inLabel h⟩
  | endLabel => exact ⟨[], rfl, fun _ => .endLabel⟩
  | brHere hl hp => exact ⟨plains _, rfl, fun _ => .brHere hl hp⟩
  | brOut hl => exact ⟨[_], rfl, fun _ => .brOut hl⟩
  | retOut => exact ⟨[_], rfl, fun _ => .retOut⟩
  | trapOut => exact ⟨[_], rfl, fun _ => .trapOut⟩
  | invokeOwn hp => exact ⟨[_], rfl, fun _ => .invokeOwn hp⟩
  | invokeHost hp hh => exact ⟨[], rfl, fun _ => .invokeHost hp hh⟩
  | hostTrap hp hh => exact ⟨[_], rfl, fun _ => .hostTrap hp hh⟩
  | inFrame h => exact ⟨[_], rfl, fun _ => .inFrame h⟩
  | endFrame hp => exact ⟨[], rfl, fun _ => .endFrame hp⟩
  | retHere hp => exact ⟨[], rfl, fun _ => .retHere hp⟩
  | trapFrame => exact ⟨[_], rfl, fun _ => .trapFrame⟩

/-- Nor do several. -/
theorem steps_split {k : Nat} {c c' : Conf} {a b es' : List Admin} (h : Steps M k c (a ++ b) c' es') :
    (∃ X, es' = X ++ b ∧ Steps M k c a c' X) ∨ ∃ k1 k2 c1, k1 + k2 = k ∧ Steps M k1 c a c1 [] ∧ Steps M k2 c1 b c' es' := by
  generalize hab : a ++ b = es at h
  induction h generalizing a with
  | zero => exact .inl ⟨a, hab.symm, .zero⟩
  | @succ n c es c1 es1 c2 es2 hstep hs ih =>
    cases a with
    | nil => exact .inr ⟨0, n + 1, c, Nat.zero_add _, .zero, by rw [List.nil_append] at hab; rw [hab]; exact .succ hstep hs⟩
    | cons e a =>
      subst hab
      obtain ⟨X, rfl, hX⟩ := step_local hstep
      rcases ih (a := X ++ a) (List.append_assoc ..) with ⟨Y, rfl, hY⟩ | ⟨k1, k2, c3, hk, h1, h2⟩
      · exact .inl ⟨Y, rfl, .succ (hX a) hY⟩
      · exact .inr ⟨k1 + 1, k2, c3, by omega, .succ (hX a) h1, h2⟩

theorem steps_tail {k : Nat} {c c' : Conf} {a X : List Admin} (b : List Admin) (h : Steps M k c a c' X) : Steps M k c (a ++ b) c' (X ++ b) := by
  induction h with
  | zero => exact .zero
  | @succ n c es c1 es1 c2 es2 hstep hs ih =>
    cases es with
    | nil => exact (not_step_nil hstep).elim
    | cons e es =>
      obtain ⟨Y, rfl, hY⟩ := step_local hstep
      refine .succ (hY (es ++ b)) ?_
      rw [← List.append_assoc]
      exact ih

/-- Execution of a list is in one of the instructions. -/
theorem steps_locate {c' : Conf} {es : List Admin} (he : es ≠ []) : ∀ {is : List Instr} {k : Nat} {c : Conf}, Steps M k c (plains is) c' es →
    ∃ n i j j0 c1 X, is[n]? = some i ∧ Steps M j0 c (plains (is.take n)) c1 [] ∧ Steps M j c1 [.plain i] c' X ∧ X ≠ [] ∧ j ≤ k ∧ es = X ++ plains (is.drop (n + 1))
  | [], k, c, h => by
    cases h with
    | zero => exact (he rfl).elim
    | succ h _ => exact (not_step_nil h).elim
  | i :: is, k, c, h => by
    have next : ∀ {k1 k2 c1}, k1 + k2 = k → Steps M k1 c [.plain i] c1 [] → Steps M k2 c1 (plains is) c' es → ∃ n i' j j0 c1 X, (i :: is)[n]? = some i' ∧
        Steps M j0 c (plains ((i :: is).take n)) c1 [] ∧ Steps M j c1 [.plain i'] c' X ∧ X ≠ [] ∧ j ≤ k ∧ es = X ++ plains ((i :: is).drop (n + 1)) := by
      intro k1 k2 c1 hk h1 h2
      obtain ⟨n, i', j, j0, c2, X, a1, a2, a3, a4, a5, a6⟩ := steps_locate he h2
      refine ⟨n + 1, i', j, k1 + j0, c2, X, a1, ?_, a3, a4, by omega, a6⟩
      exact steps_trans (steps_tail (plains (is.take n)) h1) a2
    rcases steps_split (a := [.plain i]) (b := plains is) h with ⟨X, h1, h2⟩ | ⟨k1, k2, c1, hk, h1, h2⟩
    · by_cases hX : X = []
      · subst hX
        subst h1
        exact next (Nat.add_zero _) h2 .zero
      · exact ⟨0, i, k, 0, c, X, rfl, .zero, h2, hX, Nat.le_refl _, h1⟩
    · exact next hk h1 h2

theorem stop_nil {j : Nat} {c c' : Conf} {X : List Admin} (h : Steps M j c [] c' X) : X = [] := by
  cases h with
  | zero => rfl
  | succ h _ => exact (not_step_nil h).elim

/-- Where no rule applies. -/
theorem stop_next {j : Nat} {c c' : Conf} {e : Admin} {X : List Admin} (h : Steps M j c [e] c' X) (hs : ∀ c' X, ¬ Step M c [e] c' X) : c' = c ∧ X = [e] := by
  cases h with
  | zero => exact ⟨rfl, rfl⟩
  | succ h _ => exact (hs _ _ h).elim

end Whasm.Run
