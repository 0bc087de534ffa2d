import Verif.Model.Equality
import Verif.Spec.Float

/-!
# Comparison of floats
-/

namespace Whasm
open Spec

/-- Magnitude of a bit pattern without sign. -/
def mag (mb r : Nat) : Nat := if r / 2 ^ mb = 0 then r % 2 ^ mb else (2 ^ mb + r % 2 ^ mb) * 2 ^ (r / 2 ^ mb - 1)

theorem mag_succ (mb r : Nat) : mag mb r < mag mb (r + 1) := by
  unfold mag
  have hM : 0 < 2 ^ mb := Nat.two_pow_pos mb
  generalize 2 ^ mb = M at *
  by_cases hc : r % M + 1 = M
  · have h0 := Nat.div_add_mod r M
    have h1 : (r + 1) / M = r / M + 1 := by
      have : r + 1 = M * (r / M + 1) := by rw [Nat.mul_add]; omega
      rw [this, Nat.mul_div_cancel_left _ hM]
    have h2 : (r + 1) % M = 0 := by
      have : r + 1 = M * (r / M + 1) := by rw [Nat.mul_add]; omega
      rw [this, Nat.mul_mod_right]
    rw [h1, h2]
    simp only [Nat.add_eq_zero_iff, Nat.succ_ne_self, and_false, if_false, Nat.add_sub_cancel]
    split
    · next h => rw [h]; simp; omega
    · next h =>
      obtain ⟨k, hk⟩ := Nat.exists_eq_succ_of_ne_zero h
      rw [hk, Nat.succ_eq_add_one, Nat.add_sub_cancel, Nat.pow_succ]
      have hp : 0 < 2 ^ k := Nat.two_pow_pos k
      have : M + r % M < (M + 0) * 2 := by omega
      calc (M + r % M) * 2 ^ k < ((M + 0) * 2) * 2 ^ k := Nat.mul_lt_mul_of_pos_right this hp
        _ = (M + 0) * (2 ^ k * 2) := by rw [Nat.mul_assoc, Nat.mul_comm 2]
  · have hlt : r % M < M := Nat.mod_lt _ hM
    have h0 := Nat.div_add_mod r M
    have e : r + 1 = M * (r / M) + (r % M + 1) := by omega
    have h1 : (r + 1) / M = r / M := by
      rw [e, Nat.mul_add_div hM, Nat.div_eq_of_lt (by omega : r % M + 1 < M), Nat.add_zero]
    have h2 : (r + 1) % M = r % M + 1 := by
      rw [e, Nat.mul_add_mod, Nat.mod_eq_of_lt (by omega : r % M + 1 < M)]
    rw [h1, h2]
    split
    · omega
    · exact Nat.mul_lt_mul_of_pos_right (by omega) (Nat.two_pow_pos _)

theorem mag_lt {mb r r' : Nat} (h : r < r') : mag mb r < mag mb r' := by
  induction h with
  | refl => exact mag_succ mb r
  | step _ ih => exact Nat.lt_trans ih (mag_succ mb _)

theorem mag_inj {mb r r' : Nat} : mag mb r = mag mb r' ↔ r = r' := by
  constructor
  · intro h
    rcases Nat.lt_trichotomy r r' with h' | h' | h'
    · have := mag_lt (mb := mb) h'; omega
    · exact h'
    · have := mag_lt (mb := mb) h'; omega
  · rintro rfl; rfl

theorem mag_zero {mb r : Nat} : mag mb r = 0 ↔ r = 0 := by
  have h0 : mag mb 0 = 0 := by simp [mag]
  rw [← h0, mag_inj, h0]

theorem datum_eq {eb mb n : Nat} (h : n < 2 ^ (1 + eb + mb)) : datum eb mb n =
    if n % 2 ^ (eb + mb) / 2 ^ mb = 2 ^ eb - 1 then if n % 2 ^ (eb + mb) % 2 ^ mb = 0 then .inf (n / 2 ^ (eb + mb) = 1) else .nan
    else .fin (if n / 2 ^ (eb + mb) = 1 then - (mag mb (n % 2 ^ (eb + mb)) : Int) else mag mb (n % 2 ^ (eb + mb))) := by
  have h1 : n / 2 ^ mb % 2 ^ eb = n % 2 ^ (eb + mb) / 2 ^ mb := by
    rw [Nat.add_comm eb mb, Nat.pow_add, Nat.mod_mul_right_div_self]
  have h2 : n % 2 ^ mb = n % 2 ^ (eb + mb) % 2 ^ mb := by
    rw [Nat.pow_add, Nat.mod_mul_left_mod]
  have h3 : n / 2 ^ (eb + mb) % 2 = n / 2 ^ (eb + mb) := by
    apply Nat.mod_eq_of_lt
    rw [Nat.div_lt_iff_lt_mul (Nat.two_pow_pos _)]
    rw [Nat.add_assoc, Nat.pow_add, Nat.pow_one] at h
    exact h
  unfold datum mag
  simp only
  rw [h3, h1, h2]

theorem isNaN_iff {eb mb n : Nat} (h : n < 2 ^ (1 + eb + mb)) : isNaN eb mb n = true ↔ datum eb mb n = .nan := by
  rw [datum_eq h]
  unfold isNaN
  have hM : 0 < 2 ^ mb := Nat.two_pow_pos mb
  have hE : 0 < 2 ^ eb := Nat.two_pow_pos eb
  have hr : n % 2 ^ (eb + mb) < 2 ^ eb * 2 ^ mb := by rw [← Nat.pow_add]; exact Nat.mod_lt _ (Nat.two_pow_pos _)
  generalize n % 2 ^ (eb + mb) = r at *
  generalize 2 ^ mb = M at *
  generalize 2 ^ eb = E at *
  have hq : r / M < E := (Nat.div_lt_iff_lt_mul hM).mpr hr
  have hd := Nat.div_add_mod r M
  have hm := Nat.mod_lt r hM
  rw [decide_eq_true_iff]
  split
  · next he =>
    rw [he, Nat.mul_comm] at hd
    split
    · next hz => simp; omega
    · next hz => simp; omega
  · next he =>
    simp only [reduceCtorEq, iff_false]
    have : r / M + 1 ≤ E - 1 := by omega
    have : (r / M + 1) * M ≤ (E - 1) * M := Nat.mul_le_mul_right M this
    rw [Nat.add_mul, Nat.one_mul, Nat.mul_comm] at this
    omega

theorem floatEq_iff {eb mb a b : Nat} (he : 1 ≤ eb) (ha : a < 2 ^ (1 + eb + mb)) (hb : b < 2 ^ (1 + eb + mb)) :
    floatEq eb mb a b = true ↔ datum eb mb a ≠ .nan ∧ datum eb mb a = datum eb mb b := by
  have na := isNaN_iff ha
  have nb := isNaN_iff hb
  unfold floatEq
  simp only [Bool.and_eq_true, Bool.or_eq_true, Bool.not_eq_true', decide_eq_true_eq, ← Bool.not_eq_true, na, nb]
  have hsa := Nat.div_add_mod a (2 ^ (eb + mb))
  have hsb := Nat.div_add_mod b (2 ^ (eb + mb))
  have hE : 0 < 2 ^ (eb + mb) := Nat.two_pow_pos _
  have h2 : 2 ^ (1 + eb + mb) = 2 * 2 ^ (eb + mb) := by rw [Nat.add_assoc, Nat.pow_add, Nat.pow_one]
  have ha' : a / 2 ^ (eb + mb) < 2 := by rw [Nat.div_lt_iff_lt_mul hE, ← h2]; exact ha
  have hb' : b / 2 ^ (eb + mb) < 2 := by rw [Nat.div_lt_iff_lt_mul hE, ← h2]; exact hb
  have hab : a = b ↔ a / 2 ^ (eb + mb) = b / 2 ^ (eb + mb) ∧ a % 2 ^ (eb + mb) = b % 2 ^ (eb + mb) := by
    constructor
    · rintro rfl; exact ⟨rfl, rfl⟩
    · rintro ⟨h1, h3⟩; rw [← hsa, ← hsb, h1, h3]
  have hz : ∀ r : Nat, r = 0 → mag mb r = 0 := fun r h => mag_zero.mpr h
  have hi : ∀ r r' : Nat, mag mb r = mag mb r' ↔ r = r' := fun r r' => mag_inj
  have hz' : ∀ r : Nat, mag mb r = 0 ↔ r = 0 := fun r => mag_zero
  rw [hab, datum_eq ha, datum_eq hb]
  clear hab hsa hsb na nb ha hb h2
  generalize a / 2 ^ (eb + mb) = s at *
  generalize b / 2 ^ (eb + mb) = t at *
  generalize ha : a % 2 ^ (eb + mb) = r at *
  generalize hb : b % 2 ^ (eb + mb) = q at *
  clear ha hb
  have hdm := Nat.div_add_mod r (2 ^ mb)
  have hdq := Nat.div_add_mod q (2 ^ mb)
  have hE1 : 1 ≤ 2 ^ eb - 1 := by
    have : 2 ^ 1 ≤ 2 ^ eb := Nat.pow_le_pow_right (by decide) he
    omega
  have hnz : ∀ n : Nat, n / 2 ^ mb = 2 ^ eb - 1 → n ≠ 0 := by
    rintro n h rfl
    rw [Nat.zero_div] at h
    omega
  by_cases hr : r / 2 ^ mb = 2 ^ eb - 1
  · have hr1 := hnz r hr
    rw [if_pos hr]
    by_cases hr0 : r % 2 ^ mb = 0
    · rw [if_pos hr0]
      by_cases hq : q / 2 ^ mb = 2 ^ eb - 1
      · rw [if_pos hq]
        by_cases hq0 : q % 2 ^ mb = 0
        · rw [if_pos hq0]
          have : r = q := by rw [← hdm, ← hdq, hr, hq, hr0, hq0]
          simp only [ne_eq, reduceCtorEq, not_false_eq_true, true_and, this, and_true, Datum.inf.injEq, decide_eq_decide]
          have : s = 0 ∨ s = 1 := by omega
          have : t = 0 ∨ t = 1 := by omega
          omega
        · rw [if_neg hq0]; simp
      · rw [if_neg hq]
        simp only [ne_eq, reduceCtorEq, not_false_eq_true, true_and, iff_false, not_or, not_and]
        exact ⟨fun _ h => hq (h ▸ hr), fun h => (hr1 h).elim⟩
    · rw [if_neg hr0]; simp
  · rw [if_neg hr]
    by_cases hq : q / 2 ^ mb = 2 ^ eb - 1
    · have hq1 := hnz q hq
      rw [if_pos hq]
      have hne : r ≠ q := fun h => hr (h ▸ hq)
      by_cases hq0 : q % 2 ^ mb = 0 <;> simp [hq1, hne, hq0]
    · rw [if_neg hq]
      simp only [ne_eq, reduceCtorEq, not_false_eq_true, true_and, Datum.fin.injEq]
      have h1 := hi r q
      have h2 := hz' r
      have h3 := hz' q
      split <;> split <;> omega

theorem f32Eq_iff (a b : F32) : f32Eq a b = true ↔ datum32 a ≠ .nan ∧ datum32 a = datum32 b :=
  floatEq_iff (by decide) a.isLt b.isLt

theorem f64Eq_iff (a b : F64) : f64Eq a b = true ↔ datum64 a ≠ .nan ∧ datum64 a = datum64 b :=
  floatEq_iff (by decide) a.isLt b.isLt

/-! ## Expressions -/

mutual

theorem instrEq_iff : ∀ a b : Instr, instrEq a b = true ↔ SameInstr a b
  | .block t a, b => by
    constructor
    · intro h
      cases b <;> simp only [instrEq, Bool.and_eq_true, decide_eq_true_eq, reduceCtorEq] at h
      obtain ⟨rfl, h⟩ := h
      exact .block _ ((exprEq_iff _ _).mp h)
    · intro h
      cases h with
      | block _ h => simp [instrEq, (exprEq_iff _ _).mpr h]
      | other _ _ h => exact (h _ _ rfl).elim
  | .loop t a, b => by
    constructor
    · intro h
      cases b <;> simp only [instrEq, Bool.and_eq_true, decide_eq_true_eq, reduceCtorEq] at h
      obtain ⟨rfl, h⟩ := h
      exact .loop _ ((exprEq_iff _ _).mp h)
    · intro h
      cases h with
      | loop _ h => simp [instrEq, (exprEq_iff _ _).mpr h]
      | other _ _ _ h => exact (h _ _ rfl).elim
  | .ifElse t a a', b => by
    constructor
    · intro h
      cases b <;> simp only [instrEq, Bool.and_eq_true, decide_eq_true_eq, reduceCtorEq] at h
      obtain ⟨⟨rfl, h⟩, h'⟩ := h
      exact .ifElse _ ((exprEq_iff _ _).mp h) ((exprEq_iff _ _).mp h')
    · intro h
      cases h with
      | ifElse _ h h' => simp [instrEq, (exprEq_iff _ _).mpr h, (exprEq_iff _ _).mpr h']
      | other _ _ _ _ h => exact (h _ _ _ rfl).elim
  | .constF32 v, b => by
    constructor
    · intro h
      cases b <;> simp only [instrEq, reduceCtorEq] at h
      obtain ⟨h1, h2⟩ := (f32Eq_iff _ _).mp h
      exact .f32 h1 h2
    · intro h
      cases h with
      | f32 h1 h2 => simp [instrEq, (f32Eq_iff _ _).mpr ⟨h1, h2⟩]
      | other h => exact (h _ rfl).elim
  | .constF64 v, b => by
    constructor
    · intro h
      cases b <;> simp only [instrEq, reduceCtorEq] at h
      obtain ⟨h1, h2⟩ := (f64Eq_iff _ _).mp h
      exact .f64 h1 h2
    · intro h
      cases h with
      | f64 h1 h2 => simp [instrEq, (f64Eq_iff _ _).mpr ⟨h1, h2⟩]
      | other _ h => exact (h _ rfl).elim
  | .unreachable, b | .nop, b | .br _, b | .brIf _, b | .brTable _ _, b | .ret, b | .call _, b
  | .callIndirect _ _, b | .drop, b | .select, b | .localGet _, b | .localSet _, b | .localTee _, b
  | .globalGet _, b | .globalSet _, b | .load _ _ _, b | .store _ _ _, b | .memSize _, b | .memGrow _, b
  | .constI32 _, b | .constI64 _, b | .num _, b | .elseMark, b | .endMark, b => by
    constructor
    · intro h
      (cases b <;> simp only [instrEq, Bool.and_eq_true, decide_eq_true_eq, reduceCtorEq] at h <;> try simp only [h]) <;>
        exact .other (by simp) (by simp) (by simp) (by simp) (by simp)
    · intro h
      cases h with
      | other => simp [instrEq]

theorem exprEq_iff : ∀ a b : List Instr, exprEq a b = true ↔ SameExpr a b
  | [], b => by
    constructor
    · intro h; cases b <;> simp [exprEq] at h; exact .nil
    · intro h; cases h; simp [exprEq]
  | i :: is, b => by
    constructor
    · intro h
      cases b with
      | nil => simp [exprEq] at h
      | cons j js =>
        simp only [exprEq, Bool.and_eq_true] at h
        exact .cons ((instrEq_iff _ _).mp h.1) ((exprEq_iff _ _).mp h.2)
    · intro h
      cases h with
      | cons h1 h2 => simp [exprEq, (instrEq_iff _ _).mpr h1, (exprEq_iff _ _).mpr h2]

end

end Whasm
