import Verif.Model.Leb
import Verif.Spec.Leb

/-!
# Lemmas about the LEB-128 loops
-/

namespace Whasm
open Spec

theorem toNat_and_7F (b : Byte) : (b &&& 0x7F).toNat = b.toNat % 128 := by
  rw [UInt8.toNat_and]
  exact Nat.and_two_pow_sub_one_eq_mod b.toNat 7

theorem and_7F_eq_zero (b : Byte) : (b &&& 0x7F = 0) ↔ b.toNat % 128 = 0 := by
  rw [← toNat_and_7F, ← UInt8.toNat_inj]; rfl

theorem and_7F_eq_7F (b : Byte) : (b &&& 0x7F = 0x7F) ↔ b.toNat % 128 = 127 := by
  rw [← toNat_and_7F, ← UInt8.toNat_inj]; rfl

theorem and_80_eq_zero (b : Byte) : (b &&& 0x80 = 0) ↔ b.toNat < 128 := by
  have h : ∀ n : Fin 256, (n.val &&& 128 = 0) ↔ n.val < 128 := by decide +kernel
  rw [← UInt8.toNat_inj, UInt8.toNat_and]
  exact h ⟨b.toNat, b.toNat_lt⟩

theorem and_40_eq_zero (b : Byte) : (b &&& 0x40 = 0) ↔ b.toNat % 128 < 64 := by
  have h : ∀ n : Fin 256, (n.val &&& 64 = 0) ↔ n.val % 128 < 64 := by decide +kernel
  rw [← UInt8.toNat_inj, UInt8.toNat_and]
  exact h ⟨b.toNat, b.toNat_lt⟩

/-- The range check of one iteration: the seven new bits fit above position `shift`. -/
theorem fits_iff {N v shift : Nat} (hs : shift < N) :
    v < 2 ^ (N - shift) ↔ v * 2 ^ shift < 2 ^ N := by
  have e : 2 ^ N = 2 ^ (N - shift) * 2 ^ shift := by rw [← Nat.pow_add]; congr 1; omega
  rw [e, Nat.mul_lt_mul_right (Nat.two_pow_pos shift)]

theorem toNat_ofNat_7 {N : Nat} (hN : 7 ≤ N) {v : Nat} (hv : v < 128) :
    (BitVec.ofNat N v).toNat = v := by
  have : 128 ≤ 2 ^ N := Nat.pow_le_pow_right (n := 2) (by decide) hN
  rw [BitVec.toNat_ofNat, Nat.mod_eq_of_lt (by omega)]

theorem mul_mod_div {N v shift : Nat} (hs : shift < N) :
    v * 2 ^ shift % 2 ^ N / 2 ^ shift = v % 2 ^ (N - shift) := by
  have e : 2 ^ N = 2 ^ (N - shift) * 2 ^ shift := by rw [← Nat.pow_add]; congr 1; omega
  rw [e, Nat.mul_mod_mul_right, Nat.mul_div_cancel _ (Nat.two_pow_pos shift)]

/-- The unsigned range check of the code, in numbers. -/
theorem ushift_check {N : Nat} (hN : 7 ≤ N) {v shift : Nat} (hs : shift < N) (hv : v < 128) :
    (((BitVec.ofNat N v <<< shift) >>> shift) &&& BitVec.ofNat N 0x7F = BitVec.ofNat N v)
      ↔ v * 2 ^ shift < 2 ^ N := by
  rw [← fits_iff hs, ← BitVec.toNat_inj, BitVec.toNat_and, BitVec.toNat_ushiftRight, BitVec.toNat_shiftLeft,
    toNat_ofNat_7 hN hv, toNat_ofNat_7 hN (by decide), Nat.shiftLeft_eq, Nat.shiftRight_eq_div_pow,
    mul_mod_div hs]
  have e : v % 2 ^ (N - shift) &&& 0x7F = v % 2 ^ (N - shift) % 128 :=
    Nat.and_two_pow_sub_one_eq_mod _ 7
  have hle : v % 2 ^ (N - shift) ≤ v := Nat.mod_le _ _
  rw [e, Nat.mod_eq_of_lt (by omega : v % 2 ^ (N - shift) < 128)]
  constructor
  · intro h
    by_cases hc : v < 2 ^ (N - shift)
    · exact hc
    · have := Nat.mod_lt v (Nat.two_pow_pos (N - shift)); omega
  · intro h; exact Nat.mod_eq_of_lt h

/-- Or-ing the new bits is adding them. -/
theorem or_shift {N : Nat} {v shift a : Nat} (ha : a < 2 ^ shift) :
    BitVec.ofNat N a ||| (BitVec.ofNat N v <<< shift) = BitVec.ofNat N (a + v * 2 ^ shift) := by
  apply BitVec.eq_of_toNat_eq
  rw [BitVec.toNat_or, BitVec.toNat_shiftLeft, Nat.shiftLeft_eq, BitVec.toNat_ofNat, BitVec.toNat_ofNat,
    BitVec.toNat_ofNat, Nat.mod_mul_mod]
  have e : a + v * 2 ^ shift = 2 ^ shift * v ||| a := by
    rw [← Nat.two_pow_add_eq_or_of_lt ha]; rw [Nat.mul_comm]; omega
  rw [e, Nat.or_mod_two_pow, Nat.mul_comm (2 ^ shift) v, Nat.or_comm]

/-- One iteration of the unsigned loop while there is room, in numbers. -/
theorem unsignedLoop_cons {N : Nat} (hN : 7 ≤ N) {shift a : Nat} (hs : shift < N) (ha : a < 2 ^ shift)
    (b : Byte) (rest : List Byte) :
    unsignedLoop shift (BitVec.ofNat N a) (b :: rest) =
      if b.toNat % 128 * 2 ^ shift < 2 ^ N then
        if b.toNat < 128 then (.ok (BitVec.ofNat N (a + b.toNat % 128 * 2 ^ shift)), rest)
        else unsignedLoop (shift + 7) (BitVec.ofNat N (a + b.toNat % 128 * 2 ^ shift)) rest
      else (.error .outOfRangeUnsignedInteger, rest) := by
  have hv : b.toNat % 128 < 128 := Nat.mod_lt _ (by decide)
  rw [unsignedLoop]
  simp only [toNat_and_7F, and_80_eq_zero, shl?, ushr?, ge_iff_le, Nat.not_le.mpr hs, if_false, hs, if_true]
  by_cases hf : b.toNat % 128 * 2 ^ shift < 2 ^ N
  · rw [if_neg (by rw [ne_eq, Classical.not_not]; exact (ushift_check hN hs hv).mpr hf), if_pos hf,
      or_shift ha]
  · rw [if_pos (by rw [ne_eq]; exact mt (ushift_check hN hs hv).mp hf), if_neg hf]

/-- One iteration of the unsigned loop when only padding is acceptable. -/
theorem unsignedLoop_pad {N : Nat} {shift : Nat} (hs : N ≤ shift) (r : BitVec N)
    (b : Byte) (rest : List Byte) :
    unsignedLoop shift r (b :: rest) =
      if b.toNat % 128 = 0 then
        if b.toNat < 128 then (.ok r, rest) else unsignedLoop shift r rest
      else (.error .outOfRangeUnsignedInteger, rest) := by
  rw [unsignedLoop]
  simp only [and_80_eq_zero, ge_iff_le, hs, if_true, ne_eq, and_7F_eq_zero, ite_not]

/-- The unsigned loop on a complete group once all value bits are in place. -/
theorem unsignedLoop_group_pad {N shift : Nat} (hs : N ≤ shift) (r : BitVec N) (rest : List Byte) :
    ∀ bs : List Byte, Group bs →
      (uval bs = 0 ∧ unsignedLoop shift r (bs ++ rest) = (.ok r, rest)) ∨
      (uval bs ≠ 0 ∧ ∃ mid, unsignedLoop shift r (bs ++ rest) = (.error .outOfRangeUnsignedInteger, mid ++ rest))
  | [], h => h.elim
  | [b], h => by
    have hb : b.toNat < 128 := h
    simp only [List.cons_append, List.nil_append, unsignedLoop_pad hs, uval, hb, if_true]
    by_cases h0 : b.toNat % 128 = 0
    · left; simp [h0]
    · right; exact ⟨by omega, [], by simp [h0]⟩
  | b :: c :: bs, h => by
    obtain ⟨hb, hg⟩ := h
    have ih := unsignedLoop_group_pad hs r rest (c :: bs) hg
    rw [List.cons_append, unsignedLoop_pad hs, if_neg (by omega : ¬ b.toNat < 128)]
    rw [uval]
    by_cases h0 : b.toNat % 128 = 0
    · rw [if_pos h0]
      rcases ih with ⟨h1, h2⟩ | ⟨h1, h2⟩
      · left; exact ⟨by omega, h2⟩
      · right; exact ⟨by omega, h2⟩
    · right; rw [if_neg h0]; exact ⟨by omega, c :: bs, rfl⟩

/-- The unsigned loop on a complete group, from any intermediate state. -/
theorem unsignedLoop_group {N : Nat} (hN : 7 ≤ N) (rest : List Byte) :
    ∀ (bs : List Byte) (shift a : Nat), Group bs → shift < N → a < 2 ^ shift →
      (a + uval bs * 2 ^ shift < 2 ^ N ∧
        unsignedLoop shift (BitVec.ofNat N a) (bs ++ rest) = (.ok (BitVec.ofNat N (a + uval bs * 2 ^ shift)), rest)) ∨
      (¬ (a + uval bs * 2 ^ shift < 2 ^ N) ∧
        ∃ mid, unsignedLoop shift (BitVec.ofNat N a) (bs ++ rest) = (.error .outOfRangeUnsignedInteger, mid ++ rest))
  | [], _, _, h, _, _ => h.elim
  | [b], shift, a, h, hs, ha => by
    have hb : b.toNat < 128 := h
    simp only [List.cons_append, List.nil_append, unsignedLoop_cons hN hs ha, uval, hb, if_true, Nat.mul_zero,
      Nat.add_zero]
    by_cases hf : b.toNat % 128 * 2 ^ shift < 2 ^ N
    · left
      rw [if_pos hf]
      refine ⟨?_, rfl⟩
      have hv := (fits_iff (v := b.toNat % 128) hs).mpr hf
      have e : 2 ^ N = 2 ^ (N - shift) * 2 ^ shift := by rw [← Nat.pow_add]; congr 1; omega
      have : (b.toNat % 128 + 1) * 2 ^ shift ≤ 2 ^ (N - shift) * 2 ^ shift := Nat.mul_le_mul_right _ hv
      rw [e]; rw [Nat.add_mul] at this; omega
    · right
      rw [if_neg hf]
      exact ⟨by omega, [], rfl⟩
  | b :: c :: bs, shift, a, h, hs, ha => by
    obtain ⟨hb, hg⟩ := h
    have hp : 2 ^ (shift + 7) = 128 * 2 ^ shift := by rw [Nat.pow_add]; omega
    have hv : b.toNat % 128 < 128 := Nat.mod_lt _ (by decide)
    have ha' : a + b.toNat % 128 * 2 ^ shift < 2 ^ (shift + 7) := by
      have : (b.toNat % 128 + 1) * 2 ^ shift ≤ 128 * 2 ^ shift := Nat.mul_le_mul_right _ hv
      rw [Nat.add_mul] at this; omega
    have etot : a + uval (b :: c :: bs) * 2 ^ shift
        = (a + b.toNat % 128 * 2 ^ shift) + uval (c :: bs) * 2 ^ (shift + 7) := by
      rw [uval, hp, Nat.add_mul, Nat.mul_comm 128 (uval _), Nat.mul_assoc]; omega
    rw [List.cons_append, unsignedLoop_cons hN hs ha, if_neg (by omega : ¬ b.toNat < 128), etot]
    by_cases hf : b.toNat % 128 * 2 ^ shift < 2 ^ N
    · rw [if_pos hf]
      by_cases hs' : shift + 7 < N
      · exact unsignedLoop_group hN rest (c :: bs) (shift + 7) _ hg hs' ha'
      · have hlt : a + b.toNat % 128 * 2 ^ shift < 2 ^ N := by
          have hv := (fits_iff (v := b.toNat % 128) hs).mpr hf
          have e : 2 ^ N = 2 ^ (N - shift) * 2 ^ shift := by rw [← Nat.pow_add]; congr 1; omega
          have : (b.toNat % 128 + 1) * 2 ^ shift ≤ 2 ^ (N - shift) * 2 ^ shift := Nat.mul_le_mul_right _ hv
          rw [e]; rw [Nat.add_mul] at this; omega
        rcases unsignedLoop_group_pad (by omega : N ≤ shift + 7)
          (BitVec.ofNat N (a + b.toNat % 128 * 2 ^ shift)) rest (c :: bs) hg with ⟨h1, h2⟩ | ⟨h1, h2⟩
        · left; rw [h1]; exact ⟨by omega, by simpa using h2⟩
        · right
          refine ⟨?_, h2⟩
          have : 2 ^ N ≤ 2 ^ (shift + 7) := Nat.pow_le_pow_right (n := 2) (by decide) (by omega)
          have : 1 * 2 ^ (shift + 7) ≤ uval (c :: bs) * 2 ^ (shift + 7) :=
            Nat.mul_le_mul_right _ (by omega)
          omega
    · right
      rw [if_neg hf]
      exact ⟨by omega, c :: bs, rfl⟩

/-- `parseUnsigned` on a complete group. -/
theorem parseUnsigned_group {N : Nat} (hN : 7 ≤ N) {bs : List Byte} (hg : Group bs) (rest : List Byte) :
    (uval bs < 2 ^ N ∧ parseUnsigned N (bs ++ rest) = (.ok (BitVec.ofNat N (uval bs)), rest)) ∨
    (¬ (uval bs < 2 ^ N) ∧
      ∃ mid, parseUnsigned N (bs ++ rest) = (.error .outOfRangeUnsignedInteger, mid ++ rest)) := by
  have := unsignedLoop_group hN rest bs 0 0 hg (by omega) (by decide)
  simpa [parseUnsigned] using this

/-- Every stream either starts with a complete group or is unterminated. -/
theorem group_or_unterminated : ∀ s : List Byte,
    (∃ bs rest, s = bs ++ rest ∧ Group bs) ∨ Unterminated s
  | [] => .inr (by intro b hb; cases hb)
  | b :: s => by
    by_cases hb : b.toNat < 128
    · exact .inl ⟨[b], s, rfl, hb⟩
    · rcases group_or_unterminated s with ⟨bs, rest, rfl, hg⟩ | hu
      · left
        refine ⟨b :: bs, rest, rfl, ?_⟩
        cases bs with
        | nil => exact hg.elim
        | cons c bs => exact ⟨by omega, hg⟩
      · right
        intro x hx
        rcases List.mem_cons.mp hx with rfl | hx
        · omega
        · exact hu x hx

/-! ## Signed -/

/-- The signed value of seven bits. -/
def s7 (v : Nat) : Int := if v < 64 then v else (v : Int) - 128

theorem s7_lo (v : Nat) : -64 ≤ s7 v := by unfold s7; split <;> omega
theorem s7_hi {v : Nat} (h : v < 128) : s7 v < 64 := by unfold s7; split <;> omega

/-- `x` is representable on `w` bits in two's complement. -/
def InRange (w : Nat) (x : Int) : Prop := -(2 ^ (w - 1) : Int) ≤ x ∧ x < 2 ^ (w - 1)

theorem two_pow_pred {w : Nat} (hw : 0 < w) : (2 : Int) ^ w = 2 * 2 ^ (w - 1) := by
  obtain ⟨k, rfl⟩ : ∃ k, w = k + 1 := ⟨w - 1, by omega⟩
  rw [Nat.add_sub_cancel, Int.pow_succ]; omega

/-- `bmod` by a power of two is the unique representative in range. -/
theorem bmod_two_pow {w : Nat} (hw : 0 < w) (x : Int) :
    ∃ k : Int, Int.bmod x (2 ^ w) = x + k * 2 ^ w ∧ InRange w (Int.bmod x (2 ^ w)) := by
  have hp := two_pow_pred hw
  have hpos : (0 : Int) < 2 ^ (w - 1) := Int.pow_pos (by decide)
  have e : ((2 ^ w : Nat) : Int) = 2 ^ w := by simp
  have hm1 := Int.emod_nonneg x (b := (2 : Int) ^ w) (by omega)
  have hm2 := Int.emod_lt_of_pos x (b := (2 : Int) ^ w) (by omega)
  have hd := Int.mul_ediv_add_emod x (2 ^ w)
  have e2 : ((2 : Int) ^ w + 1) / 2 = 2 ^ (w - 1) := by omega
  unfold InRange
  rw [Int.bmod_def, e, e2]
  split
  · refine ⟨-(x / 2 ^ w), ?_, by omega, by omega⟩
    rw [Int.neg_mul, Int.mul_comm]; omega
  · refine ⟨-(x / 2 ^ w) - 1, ?_, by omega, by omega⟩
    rw [Int.sub_mul, Int.neg_mul, Int.mul_comm]; omega

theorem inRange_unique {w : Nat} (hw : 0 < w) {x y k : Int} (hx : InRange w x) (hy : InRange w y)
    (h : y = x + k * 2 ^ w) : y = x := by
  have hp := two_pow_pred hw
  have hpos : (0 : Int) < 2 ^ (w - 1) := Int.pow_pos (by decide)
  unfold InRange at hx hy
  have hk : k = 0 := by
    rcases Int.lt_trichotomy k 0 with h1 | h1 | h1
    · have : k * 2 ^ w ≤ (-1) * 2 ^ w := Int.mul_le_mul_of_nonneg_right (by omega) (by omega)
      omega
    · exact h1
    · have : 1 * 2 ^ w ≤ k * 2 ^ w := Int.mul_le_mul_of_nonneg_right (by omega) (by omega)
      omega
  rw [hk] at h; omega

theorem inRange_bmod {w : Nat} (hw : 0 < w) {x : Int} (hx : InRange w x) : Int.bmod x (2 ^ w) = x := by
  obtain ⟨k, h1, h2⟩ := bmod_two_pow hw x
  exact inRange_unique hw hx h2 h1

/-- Scaling: `a + x * 2^s` with a small non-negative `a` is in range on `w + s` bits iff `x` is on `w` bits. -/
theorem inRange_scale {w s : Nat} (hw : 0 < w) {a x : Int} (ha : 0 ≤ a) (ha' : a < 2 ^ s) :
    InRange (w + s) (a + x * 2 ^ s) ↔ InRange w x := by
  have e : (2 : Int) ^ (w + s - 1) = 2 ^ (w - 1) * 2 ^ s := by
    rw [← Int.pow_add]; congr 1; omega
  have hpos : (0 : Int) < 2 ^ s := Int.pow_pos (by decide)
  unfold InRange
  rw [e]
  constructor
  · rintro ⟨h1, h2⟩
    constructor
    · have : -(2 ^ (w - 1) : Int) * 2 ^ s < (x + 1) * 2 ^ s := by
        rw [Int.neg_mul, Int.add_mul]; omega
      have := Int.lt_of_mul_lt_mul_right this (by omega)
      omega
    · exact Int.lt_of_mul_lt_mul_right (by omega : x * 2 ^ s < 2 ^ (w - 1) * 2 ^ s) (by omega)
  · rintro ⟨h1, h2⟩
    have h3 : -(2 ^ (w - 1) : Int) * 2 ^ s ≤ x * 2 ^ s := Int.mul_le_mul_of_nonneg_right h1 (by omega)
    have h4 : (x + 1) * 2 ^ s ≤ 2 ^ (w - 1) * 2 ^ s := Int.mul_le_mul_of_nonneg_right (by omega) (by omega)
    rw [Int.neg_mul] at h3; rw [Int.add_mul] at h4
    constructor <;> omega

theorem toInt_shift_back {N v shift : Nat} (hs : shift < N) :
    ((BitVec.ofNat N v <<< shift).sshiftRight shift).toInt = Int.bmod v (2 ^ (N - shift)) := by
  have hpos : (0 : Int) < 2 ^ shift := Int.pow_pos (by decide)
  have hpN : (2 : Int) ^ N = 2 ^ (N - shift) * 2 ^ shift := by rw [← Int.pow_add]; congr 1; omega
  obtain ⟨k, h1, h2⟩ := bmod_two_pow (by omega : 0 < N - shift) (v : Int)
  rw [BitVec.toInt_sshiftRight, BitVec.toInt_shiftLeft, Int.shiftRight_eq_div_pow, Nat.shiftLeft_eq,
    BitVec.toNat_ofNat]
  generalize hr : Int.bmod (v : Int) (2 ^ (N - shift)) = r at h1 h2 ⊢
  have hrange : InRange N (0 + r * 2 ^ shift) := by
    have := (inRange_scale (s := shift) (by omega : 0 < N - shift) (a := 0) (x := r) (by omega) hpos).mpr h2
    rwa [show N - shift + shift = N by omega] at this
  rw [Int.zero_add] at hrange
  obtain ⟨k', h3, h4⟩ := bmod_two_pow (by omega : 0 < N) (((v % 2 ^ N * 2 ^ shift : Nat)) : Int)
  have hmod : ((v % 2 ^ N : Nat) : Int) = v - (v / 2 ^ N : Nat) * 2 ^ N := by
    have := Nat.div_add_mod v (2 ^ N)
    have h' : ((2 ^ N * (v / 2 ^ N) + v % 2 ^ N : Nat) : Int) = v := by rw [this]
    rw [Int.natCast_add, Int.natCast_mul, Int.natCast_pow] at h'
    rw [Int.mul_comm]
    have e2 : ((2 : Nat) : Int) = 2 := rfl
    rw [e2] at h'
    omega
  have heq : Int.bmod ((v % 2 ^ N * 2 ^ shift : Nat) : Int) (2 ^ N)
      = r * 2 ^ shift + (k' - k - (v / 2 ^ N : Nat) * 2 ^ shift) * 2 ^ N := by
    rw [h3, Int.natCast_mul, hmod, h1, Int.natCast_pow, hpN]
    have e2 : ((2 : Nat) : Int) = 2 := rfl
    rw [e2]
    grind
  rw [inRange_unique (by omega : 0 < N) hrange h4 heq, Int.natCast_pow]
  exact Int.mul_ediv_cancel _ (by omega)

theorem s7_congr {v : Nat} : ∃ k : Int, s7 v = v + k * 128 := by
  unfold s7; split
  · exact ⟨0, by omega⟩
  · exact ⟨-1, by omega⟩

theorem inRange_mono {w w' : Nat} (h : w ≤ w') {x : Int} (hx : InRange w x) : InRange w' x := by
  have : (2 : Int) ^ (w - 1) ≤ 2 ^ (w' - 1) := by
    have := Nat.pow_le_pow_right (n := 2) (by decide) (by omega : w - 1 ≤ w' - 1)
    exact_mod_cast this
  unfold InRange at *; omega

theorem s7_inRange {v : Nat} (h : v < 128) : InRange 7 (s7 v) := by
  have := s7_lo v; have := s7_hi h
  unfold InRange; constructor <;> simp <;> omega

/-- The arithmetic core of the signed range check. -/
theorem bmod_check {v w : Nat} (hv : v < 128) (hw : 0 < w) :
    (Int.bmod v (2 ^ w) % 128 = v) ↔ InRange w (s7 v) := by
  obtain ⟨k, h1, h2⟩ := bmod_two_pow hw (v : Int)
  obtain ⟨j, hj⟩ := s7_congr (v := v)
  generalize Int.bmod (v : Int) (2 ^ w) = r at h1 h2 ⊢
  by_cases h7 : w ≤ 7
  · have e128 : (128 : Int) = 2 ^ (7 - w) * 2 ^ w := by
      rw [← Int.pow_add, show 7 - w + w = 7 by omega]; rfl
    constructor
    · intro h
      have hr := inRange_mono h7 h2
      have : s7 v = r := by
        apply inRange_unique (by decide : 0 < 7) hr (s7_inRange hv) (k := j - r / 128)
        rw [hj, ← h]
        have := Int.mul_ediv_add_emod r 128
        have e : (2 : Int) ^ 7 = 128 := rfl
        rw [e]; omega
      rw [this]; exact h2
    · intro h
      have : r = s7 v := by
        apply inRange_unique hw h h2 (k := k - j * 2 ^ (7 - w))
        rw [h1, hj, e128]; grind
      rw [this, hj]; omega
  · have hbig : (128 : Int) ≤ 2 ^ (w - 1) := by
      have := Nat.pow_le_pow_right (n := 2) (by decide) (by omega : 7 ≤ w - 1)
      exact_mod_cast this
    have hvr : InRange w (v : Int) := by unfold InRange; constructor <;> omega
    have : r = v := inRange_unique hw hvr h2 h1
    rw [this]
    constructor
    · intro _; exact inRange_mono (by omega) (s7_inRange hv)
    · intro _; omega

/-- The signed range check of the code, in numbers. -/
theorem sshift_check {N : Nat} (hN : 7 ≤ N) {v shift : Nat} (hs : shift < N) (hv : v < 128) :
    (((BitVec.ofNat N v <<< shift).sshiftRight shift) &&& BitVec.ofNat N 0x7F = BitVec.ofNat N v)
      ↔ InRange (N - shift) (s7 v) := by
  rw [← bmod_check hv (by omega), ← toInt_shift_back hs, ← BitVec.toNat_inj, BitVec.toNat_and,
    toNat_ofNat_7 hN hv, toNat_ofNat_7 hN (by decide)]
  generalize (BitVec.ofNat N v <<< shift).sshiftRight shift = x
  have e : x.toNat &&& 0x7F = x.toNat % 128 := Nat.and_two_pow_sub_one_eq_mod _ 7
  have hdvd : (128 : Int) ∣ 2 ^ N := by
    refine ⟨2 ^ (N - 7), ?_⟩
    rw [show (128 : Int) = 2 ^ 7 by rfl, ← Int.pow_add]; congr 1; omega
  have hx : (x.toNat : Int) % 128 = x.toInt % 128 := by
    rw [BitVec.toInt_eq_toNat_cond]
    obtain ⟨q, hq⟩ := hdvd
    split
    · rfl
    · have : ((2 ^ N : Nat) : Int) = 2 ^ N := by simp
      rw [this, hq]; omega
  rw [e, ← hx]
  omega

instance (w : Nat) (x : Int) : Decidable (InRange w x) := by unfold InRange; infer_instance

theorem ofInt_congr {N : Nat} {x y k : Int} (h : x = y + k * 2 ^ N) :
    BitVec.ofInt N x = BitVec.ofInt N y := by
  apply BitVec.eq_of_toInt_eq
  have e : ((2 ^ N : Nat) : Int) = 2 ^ N := by simp
  rw [BitVec.toInt_ofInt, BitVec.toInt_ofInt, h, ← e]
  exact Int.add_mul_bmod_self_right ..

theorem ofNat_eq_ofInt {N a : Nat} : BitVec.ofNat N a = BitVec.ofInt N a := by
  simp

/-- The sign extension after the loop. -/
theorem sign_extend {N a k : Nat} (ha : a < 2 ^ k) :
    BitVec.ofNat N a ||| (~~~ 0#N <<< k) = BitVec.ofInt N ((a : Int) - 2 ^ k) := by
  have e : ~~~ 0#N = BitVec.ofNat N (2 ^ N - 1) := by
    apply BitVec.eq_of_toNat_eq
    rw [BitVec.toNat_not, BitVec.toNat_ofNat, BitVec.toNat_ofNat]
    have := Nat.two_pow_pos N
    rw [Nat.zero_mod, Nat.mod_eq_of_lt (by omega)]; omega
  rw [e, or_shift ha, ofNat_eq_ofInt]
  apply ofInt_congr (k := 2 ^ k)
  have h1 : (1 : Nat) ≤ 2 ^ N := Nat.two_pow_pos N
  rw [Int.natCast_add, Int.natCast_mul, Int.natCast_sub h1, Int.natCast_pow, Int.natCast_pow]
  have e2 : ((2 : Nat) : Int) = 2 := rfl
  rw [e2]
  grind

/-- One iteration of the signed loop while there is room, in numbers. -/
theorem signedLoop_cons {N : Nat} (hN : 7 ≤ N) {shift a : Nat} (hs : shift < N) (ha : a < 2 ^ shift)
    (pos : Bool) (b : Byte) (rest : List Byte) :
    signedLoop shift (BitVec.ofNat N a) pos (b :: rest) =
      if InRange (N - shift) (s7 (b.toNat % 128)) then
        if b.toNat < 128 then (.ok (BitVec.ofInt N (a + s7 (b.toNat % 128) * 2 ^ shift)), rest)
        else signedLoop (shift + 7) (BitVec.ofNat N (a + b.toNat % 128 * 2 ^ shift))
          (decide (b.toNat % 128 < 64)) rest
      else (.error .outOfRangeSignedInteger, rest) := by
  have hv : b.toNat % 128 < 128 := Nat.mod_lt _ (by decide)
  generalize hvv : b.toNat % 128 = v at hv
  have hp : 2 ^ (shift + 7) = 128 * 2 ^ shift := by rw [Nat.pow_add]; omega
  have hpi : (2 : Int) ^ (shift + 7) = 128 * 2 ^ shift := by rw [Int.pow_add]; omega
  have ha' : a + v * 2 ^ shift < 2 ^ (shift + 7) := by
    have : (v + 1) * 2 ^ shift ≤ 128 * 2 ^ shift := Nat.mul_le_mul_right _ hv
    rw [Nat.add_mul] at this; omega
  rw [signedLoop]
  simp only [toNat_and_7F, and_80_eq_zero, and_40_eq_zero, shl?, sshr?, ge_iff_le, Nat.not_le.mpr hs, if_false,
    hs, if_true, hvv]
  by_cases hf : InRange (N - shift) (s7 v)
  · rw [if_neg (by rw [ne_eq, Classical.not_not]; exact (sshift_check hN hs hv).mpr hf), if_pos hf,
      or_shift ha]
    by_cases hb : b.toNat < 128
    · rw [if_pos hb, if_pos hb]
      have ecast : ((a + v * 2 ^ shift : Nat) : Int) = a + v * 2 ^ shift := by
        rw [Int.natCast_add, Int.natCast_mul, Int.natCast_pow]; rfl
      by_cases h64 : v < 64
      · rw [if_neg (by simp [h64])]
        rw [ofNat_eq_ofInt, ecast]; simp [s7, h64]
      · by_cases hr : shift + 7 < N
        · rw [if_pos ⟨hr, by simp [h64]⟩, if_pos hr]
          simp only
          rw [sign_extend ha', ecast, hpi]
          simp only [s7, h64, if_false]
          congr 3; grind
        · rw [if_neg (by omega), ofNat_eq_ofInt, ecast]
          congr 2
          apply ofInt_congr (k := 2 ^ (shift + 7 - N))
          rw [← Int.pow_add, show shift + 7 - N + N = shift + 7 by omega, hpi]
          simp only [s7, h64, if_false]
          grind
    · rw [if_neg hb, if_neg hb]
  · rw [if_pos (by rw [ne_eq]; exact mt (sshift_check hN hs hv).mp hf), if_neg hf]

/-- One iteration of the signed loop when only sign padding is acceptable. -/
theorem signedLoop_pad {N : Nat} {shift : Nat} (hs : N ≤ shift) (r : BitVec N) (pos : Bool)
    (b : Byte) (rest : List Byte) :
    signedLoop shift r pos (b :: rest) =
      if b.toNat % 128 = (if pos then 0 else 127) then
        if b.toNat < 128 then (.ok r, rest) else signedLoop shift r pos rest
      else (.error .outOfRangeSignedInteger, rest) := by
  rw [signedLoop]
  simp only [and_80_eq_zero, ge_iff_le, hs, if_true, and_7F_eq_zero, and_7F_eq_7F]
  cases pos <;> simp

theorem sval_cons {b : Byte} {bs : List Byte} (h : Group (b :: bs)) (hb : 128 ≤ b.toNat) :
    Group bs ∧ sval (b :: bs) = (b.toNat % 128 : Nat) + 128 * sval bs := by
  cases bs with
  | nil => simp only [Group] at h; omega
  | cons c bs => exact ⟨h.2, rfl⟩

/-- The signed loop on a complete group once all value bits are in place. -/
theorem signedLoop_group_pad {N shift : Nat} (hs : N ≤ shift) (r : BitVec N) (pos : Bool) (rest : List Byte) :
    ∀ bs : List Byte, Group bs →
      (sval bs = (if pos then 0 else -1) ∧ signedLoop shift r pos (bs ++ rest) = (.ok r, rest)) ∨
      (sval bs ≠ (if pos then 0 else -1) ∧
        ∃ mid, signedLoop shift r pos (bs ++ rest) = (.error .outOfRangeSignedInteger, mid ++ rest))
  | [], h => h.elim
  | [b], h => by
    have hb : b.toNat < 128 := h
    simp only [List.cons_append, List.nil_append, signedLoop_pad hs, sval, hb, if_true]
    by_cases h0 : b.toNat % 128 = (if pos then 0 else 127)
    · left; rw [if_pos h0]; refine ⟨?_, rfl⟩
      cases pos <;> simp at h0 ⊢ <;> split <;> omega
    · right; rw [if_neg h0]; refine ⟨?_, [], rfl⟩
      cases pos <;> simp at h0 ⊢ <;> split <;> omega
  | b :: c :: bs, h => by
    obtain ⟨hb, hg⟩ := h
    have ih := signedLoop_group_pad hs r pos rest (c :: bs) hg
    rw [List.cons_append, signedLoop_pad hs, if_neg (by omega : ¬ b.toNat < 128)]
    rw [sval]
    by_cases h0 : b.toNat % 128 = (if pos then 0 else 127)
    · rw [if_pos h0, h0]
      rcases ih with ⟨h1, h2⟩ | ⟨h1, h2⟩
      · left; refine ⟨?_, h2⟩; rw [h1]; cases pos <;> simp
      · right; refine ⟨?_, h2⟩; cases pos <;> simp at h1 ⊢ <;> omega
    · right; rw [if_neg h0]
      refine ⟨?_, c :: bs, rfl⟩
      cases pos <;> simp at h0 ⊢ <;> omega

/-- The signed loop on a complete group, from any intermediate state. -/
theorem signedLoop_group {N : Nat} (hN : 7 ≤ N) (rest : List Byte) :
    ∀ (bs : List Byte) (shift a : Nat) (pos : Bool), Group bs → shift < N → a < 2 ^ shift →
      (InRange N (a + sval bs * 2 ^ shift) ∧
        signedLoop shift (BitVec.ofNat N a) pos (bs ++ rest)
          = (.ok (BitVec.ofInt N (a + sval bs * 2 ^ shift)), rest)) ∨
      (¬ InRange N (a + sval bs * 2 ^ shift) ∧
        ∃ mid, signedLoop shift (BitVec.ofNat N a) pos (bs ++ rest)
          = (.error .outOfRangeSignedInteger, mid ++ rest))
  | [], _, _, _, h, _, _ => h.elim
  | [b], shift, a, pos, h, hs, ha => by
    have hb : b.toNat < 128 := h
    have hai : (a : Int) < 2 ^ shift := by exact_mod_cast ha
    have hsv : sval [b] = s7 (b.toNat % 128) := rfl
    have hsc := inRange_scale (w := N - shift) (s := shift) (x := sval [b]) (by omega) (Int.natCast_nonneg a) hai
    rw [show N - shift + shift = N by omega] at hsc
    rw [List.cons_append, List.nil_append, signedLoop_cons hN hs ha, hsc, if_pos hb, hsv]
    by_cases hf : InRange (N - shift) (s7 (b.toNat % 128))
    · left; rw [if_pos hf]; exact ⟨hf, rfl⟩
    · right; rw [if_neg hf]; exact ⟨hf, [], rfl⟩
  | b :: c :: bs, shift, a, pos, h, hs, ha => by
    obtain ⟨hb, hg⟩ := h
    have hai : (a : Int) < 2 ^ shift := by exact_mod_cast ha
    have hp : 2 ^ (shift + 7) = 128 * 2 ^ shift := by rw [Nat.pow_add]; omega
    have hpi : (2 : Int) ^ (shift + 7) = 128 * 2 ^ shift := by rw [Int.pow_add]; omega
    have hv : b.toNat % 128 < 128 := Nat.mod_lt _ (by decide)
    have ha' : a + b.toNat % 128 * 2 ^ shift < 2 ^ (shift + 7) := by
      have : (b.toNat % 128 + 1) * 2 ^ shift ≤ 128 * 2 ^ shift := Nat.mul_le_mul_right _ hv
      rw [Nat.add_mul] at this; omega
    have ecast : ((a + b.toNat % 128 * 2 ^ shift : Nat) : Int) = a + (b.toNat % 128 : Nat) * 2 ^ shift := by
      rw [Int.natCast_add, Int.natCast_mul, Int.natCast_pow]; rfl
    have etot : (a : Int) + sval (b :: c :: bs) * 2 ^ shift
        = ((a + b.toNat % 128 * 2 ^ shift : Nat) : Int) + sval (c :: bs) * 2 ^ (shift + 7) := by
      rw [sval, hpi, ecast]; grind
    have hsc := inRange_scale (w := N - shift) (s := shift) (x := sval (b :: c :: bs)) (by omega)
      (Int.natCast_nonneg a) hai
    rw [show N - shift + shift = N by omega] at hsc
    rw [List.cons_append, signedLoop_cons hN hs ha, if_neg (by omega : ¬ b.toNat < 128)]
    by_cases hs' : shift + 7 < N
    · rw [if_pos (inRange_mono (by omega) (s7_inRange hv)), etot]
      exact signedLoop_group hN rest (c :: bs) (shift + 7) _ _ hg hs' ha'
    · -- all value bits are in place after this byte
      have h7 : InRange (N - shift) (sval (b :: c :: bs)) →
          -64 ≤ sval (b :: c :: bs) ∧ sval (b :: c :: bs) < 64 := fun h =>
        inRange_mono (by omega : N - shift ≤ 7) h
      have hlo := s7_lo (b.toNat % 128)
      have hhi := s7_hi hv
      by_cases hf : InRange (N - shift) (s7 (b.toNat % 128))
      · rw [if_pos hf, hsc]
        rcases signedLoop_group_pad (by omega : N ≤ shift + 7)
          (BitVec.ofNat N (a + b.toNat % 128 * 2 ^ shift)) (decide (b.toNat % 128 < 64)) rest (c :: bs) hg
          with ⟨h1, h2⟩ | ⟨h1, h2⟩
        · left
          have hsv : sval (b :: c :: bs) = s7 (b.toNat % 128) := by
            rw [sval, h1]; unfold s7
            by_cases h64 : b.toNat % 128 < 64 <;> simp [h64] <;> omega
          rw [hsv]
          refine ⟨hf, ?_⟩
          rw [List.cons_append] at h2 ⊢
          rw [h2, ofNat_eq_ofInt, ecast]
          congr 2
          by_cases h64 : b.toNat % 128 < 64
          · simp only [s7, h64, if_true]
          · apply ofInt_congr (k := 2 ^ (shift + 7 - N))
            rw [← Int.pow_add, show shift + 7 - N + N = shift + 7 by omega, hpi]
            simp only [s7, h64, if_false]
            grind
        · right
          refine ⟨fun hr => h1 ?_, h2⟩
          have h8 := h7 hr
          rw [sval] at h8
          by_cases h64 : b.toNat % 128 < 64 <;> simp [h64] <;> omega
      · right
        rw [if_neg hf, hsc]
        refine ⟨fun hr => hf ?_, c :: bs, rfl⟩
        have h8 := h7 hr
        have : sval (b :: c :: bs) = s7 (b.toNat % 128) := by
          rw [sval] at h8 ⊢
          unfold s7
          split <;> omega
        rw [this] at hr; exact hr

/-- `parseSigned` on a complete group. -/
theorem parseSigned_group {N : Nat} (hN : 7 ≤ N) {bs : List Byte} (hg : Group bs) (rest : List Byte) :
    (InRange N (sval bs) ∧ parseSigned N (bs ++ rest) = (.ok (BitVec.ofInt N (sval bs)), rest)) ∨
    (¬ InRange N (sval bs) ∧
      ∃ mid, parseSigned N (bs ++ rest) = (.error .outOfRangeSignedInteger, mid ++ rest)) := by
  have := signedLoop_group hN rest bs 0 0 true hg (by omega) (by decide)
  simpa [parseSigned] using this

end Whasm
