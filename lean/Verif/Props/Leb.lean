import Verif.Lemmas.LebMore
import Verif.Lemmas.DecEq

/-!
# C01 – C05: LEB-128 integers

`Spec.Group bs`: `bs` is a complete group; `Spec.uval`, `Spec.sval`: its mathematical value.
-/

namespace Whasm
open Spec

/-! ## C01 -/

/-- **C01.** On a stream that begins with a complete group, parsing an unsigned integer of `N ≥ 8` bits
returns `Ok v` exactly when `v` is the value of the group, and then exactly the group is consumed; if the value does
not fit, the result is the out-of-range error and nothing after the group is consumed. -/
theorem C01_unsigned_exact {N : Nat} (hN : 8 ≤ N) {bs : List Byte} (hg : Group bs) (rest : List Byte) :
    (∀ v r, parseUnsigned N (bs ++ rest) = (.ok v, r) ↔ r = rest ∧ v.toNat = uval bs) ∧
    (2 ^ N ≤ uval bs →
      ∃ mid, parseUnsigned N (bs ++ rest) = (.error .outOfRangeUnsignedInteger, mid ++ rest)) := by
  rcases parseUnsigned_group (by omega : 7 ≤ N) hg rest with ⟨h1, h2⟩ | ⟨h1, h2⟩
  · refine ⟨fun v r => ?_, fun h => by omega⟩
    rw [h2]
    constructor
    · intro h; cases h; exact ⟨rfl, by rw [BitVec.toNat_ofNat, Nat.mod_eq_of_lt h1]⟩
    · rintro ⟨rfl, hv⟩
      rw [← hv, BitVec.ofNat_toNat, BitVec.setWidth_eq]
  · refine ⟨fun v r => ?_, fun _ => h2⟩
    obtain ⟨mid, h2⟩ := h2
    rw [h2]
    constructor
    · intro h; cases h
    · rintro ⟨rfl, hv⟩; have := v.isLt; omega

-- 624485 = E5 8E 26, followed by other data
example : Group [0xE5, 0x8E, 0x26] ∧ uval [0xE5, 0x8E, 0x26] = 624485 ∧
    parseU32 [0xE5, 0x8E, 0x26, 0xFF] = (.ok 624485, [0xFF]) := by
  refine ⟨by decide, by decide, by decide +kernel⟩

-- the same bytes do not fit 16 bits
example : parseU16 [0xE5, 0x8E, 0x26, 0xFF] = (.error .outOfRangeUnsignedInteger, [0xFF]) := by decide +kernel

/-! ## C02 -/

/-- **C02.** The signed analogue: `Ok v` exactly when the two's-complement value of the group is `v`. -/
theorem C02_signed_exact {N : Nat} (hN : 8 ≤ N) {bs : List Byte} (hg : Group bs) (rest : List Byte) :
    (∀ v r, parseSigned N (bs ++ rest) = (.ok v, r) ↔ r = rest ∧ v.toInt = sval bs) ∧
    (¬ (-(2 ^ (N - 1)) ≤ sval bs ∧ sval bs < 2 ^ (N - 1)) →
      ∃ mid, parseSigned N (bs ++ rest) = (.error .outOfRangeSignedInteger, mid ++ rest)) := by
  rcases parseSigned_group (by omega : 7 ≤ N) hg rest with ⟨h1, h2⟩ | ⟨h1, h2⟩
  · refine ⟨fun v r => ?_, fun h => (h h1).elim⟩
    have hi : (BitVec.ofInt N (sval bs)).toInt = sval bs := by
      rw [BitVec.toInt_ofInt]; exact inRange_bmod (by omega) h1
    rw [h2]
    constructor
    · intro h; cases h; exact ⟨rfl, hi⟩
    · rintro ⟨rfl, hv⟩
      rw [BitVec.eq_of_toInt_eq (hi.trans hv.symm)]
  · refine ⟨fun v r => ?_, fun _ => h2⟩
    obtain ⟨mid, h2⟩ := h2
    rw [h2]
    constructor
    · intro h; cases h
    · rintro ⟨rfl, hv⟩
      refine (h1 ?_).elim
      have hlo := BitVec.le_toInt v
      have hhi := BitVec.toInt_lt (x := v)
      rw [← hv]; exact ⟨hlo, hhi⟩

-- -123456 = C0 BB 78
example : Group [0xC0, 0xBB, 0x78] ∧ sval [0xC0, 0xBB, 0x78] = -123456 ∧
    parseI32 [0xC0, 0xBB, 0x78, 0x01] = (.ok (BitVec.ofInt 32 (-123456)), [0x01]) := by
  refine ⟨by decide, by decide, by decide +kernel⟩

example : parseI8 [0x80, 0x7F] = (.ok (BitVec.ofInt 8 (-128)), []) ∧
    parseI8 [0x80, 0x01] = (.error .outOfRangeSignedInteger, []) := by decide +kernel

/-! ## C03 -/

/-- **C03, unsigned.** A stream that ends before the group is complete fails, with end of file exactly if some
completion is in range, with out of range otherwise. -/
theorem C03_unsigned_unterminated {N : Nat} (hN : 8 ≤ N) {s : List Byte} (hu : Unterminated s) :
    ((∃ t, Group (s ++ t) ∧ uval (s ++ t) < 2 ^ N) →
      parseUnsigned N s = (.error .unexpectedEndOfFile, [])) ∧
    ((¬ ∃ t, Group (s ++ t) ∧ uval (s ++ t) < 2 ^ N) →
      ∃ r, parseUnsigned N s = (.error .outOfRangeUnsignedInteger, r)) := by
  rcases parseUnsigned_unterminated (by omega : 7 ≤ N) s hu with ⟨h1, v, h2⟩ | ⟨mid, h⟩
  · refine ⟨fun _ => h1, fun hn => (hn ?_).elim⟩
    have hg := group_append hu (b := 0) (by decide)
    refine ⟨[0], hg, ?_⟩
    rcases parseUnsigned_group (by omega : 7 ≤ N) hg [] with ⟨h3, _⟩ | ⟨_, _, h3⟩
    · exact h3
    · rw [List.append_nil, h2] at h3; cases h3
  · refine ⟨?_, fun _ => ⟨mid, by simpa using h []⟩⟩
    rintro ⟨t, hg, hv⟩
    rcases parseUnsigned_group (by omega : 7 ≤ N) hg [] with ⟨_, h3⟩ | ⟨h3, _⟩
    · rw [List.append_nil, h t] at h3; cases h3
    · exact (h3 hv).elim

/-- **C03, signed.** -/
theorem C03_signed_unterminated {N : Nat} (hN : 8 ≤ N) {s : List Byte} (hu : Unterminated s) :
    ((∃ t, Group (s ++ t) ∧ -(2 ^ (N - 1)) ≤ sval (s ++ t) ∧ sval (s ++ t) < 2 ^ (N - 1)) →
      parseSigned N s = (.error .unexpectedEndOfFile, [])) ∧
    ((¬ ∃ t, Group (s ++ t) ∧ -(2 ^ (N - 1)) ≤ sval (s ++ t) ∧ sval (s ++ t) < 2 ^ (N - 1)) →
      ∃ r, parseSigned N s = (.error .outOfRangeSignedInteger, r)) := by
  rcases parseSigned_unterminated (by omega : 7 ≤ N) s hu with ⟨h1, b, hb, v, h2⟩ | ⟨mid, h⟩
  · refine ⟨fun _ => h1, fun hn => (hn ?_).elim⟩
    have hg := group_append hu hb
    refine ⟨[b], hg, ?_⟩
    rcases parseSigned_group (by omega : 7 ≤ N) hg [] with ⟨h3, _⟩ | ⟨_, _, h3⟩
    · exact h3
    · rw [List.append_nil, h2] at h3; cases h3
  · refine ⟨?_, fun _ => ⟨mid, by simpa using h []⟩⟩
    rintro ⟨t, hg, hv⟩
    rcases parseSigned_group (by omega : 7 ≤ N) hg [] with ⟨_, h3⟩ | ⟨h3, _⟩
    · rw [List.append_nil, h t] at h3; cases h3
    · exact (h3 hv).elim

example : Unterminated [0xFF, 0x81] ∧ parseU32 [0xFF, 0x81] = (.error .unexpectedEndOfFile, []) := by
  refine ⟨by simp [Unterminated], by decide +kernel⟩
example : Unterminated [0xFF, 0x82, 0x80] ∧ parseU8 [0xFF, 0x82, 0x80] = (.error .outOfRangeUnsignedInteger, [0x80]) := by
  refine ⟨by simp [Unterminated], by decide +kernel⟩
example : Unterminated [0x80, 0x80] ∧ parseI8 [0x80, 0x80] = (.error .unexpectedEndOfFile, []) := by
  refine ⟨by simp [Unterminated], by decide +kernel⟩

/-! ## C04 -/

/-- **C04, unsigned.** The minimal encoding of a value, padded by any number `k` of zero groups, decodes to that
value whatever follows. -/
theorem C04_unsigned_roundtrip {N : Nat} (hN : 8 ≤ N) (v : BitVec N) (k : Nat) (rest : List Byte) :
    parseUnsigned N (pad 0 (encU v.toNat) k ++ rest) = (.ok v, rest) := by
  obtain ⟨hg, hv⟩ := encU_spec v.toNat
  exact ((C01_unsigned_exact hN (pad_group (by decide) k _ hg) rest).1 v rest).mpr
    ⟨rfl, by rw [pad_uval k _ hg, hv]⟩

/-- **C04, signed.** The filler is `0x00` for non-negative and `0x7F` for negative values. -/
theorem C04_signed_roundtrip {N : Nat} (hN : 8 ≤ N) (v : BitVec N) (k : Nat) (rest : List Byte) :
    parseSigned N (pad (if 0 ≤ v.toInt then 0 else 127) (encS v.toInt) k ++ rest) = (.ok v, rest) := by
  obtain ⟨hg, hv⟩ := encS_spec v.toInt
  refine ((C02_signed_exact hN (pad_group (by split <;> decide) k _ hg) rest).1 v rest).mpr
    ⟨rfl, by rw [pad_sval k _ hg (by rw [hv]), hv]⟩

/-- The encodings used above are minimal: no complete group with the same value is shorter; and padding adds
exactly `k` bytes. -/
theorem C04_encodings_minimal :
    (∀ n bs, Group bs → uval bs = n → (encU n).length ≤ bs.length) ∧
    (∀ i bs, Group bs → sval bs = i → (encS i).length ≤ bs.length) ∧
    (∀ fill bs k, Group bs → (pad fill bs k).length = bs.length + k) := by
  refine ⟨encU_minimal, encS_minimal, fun fill bs k hg => ?_⟩
  cases k with
  | zero => rfl
  | succ k =>
    have : 0 < bs.length := List.length_pos_iff.mpr (group_ne_nil hg)
    simp [pad]; omega

example : pad 0 (encU 624485) 2 = [0xE5, 0x8E, 0xA6, 0x80, 0x00] ∧
    parseU32 [0xE5, 0x8E, 0xA6, 0x80, 0x00, 7] = (.ok 624485, [7]) := by decide +kernel
example : pad 127 (encS (-2)) 3 = [0xFE, 0xFF, 0xFF, 0x7F] ∧
    parseI32 [0xFE, 0xFF, 0xFF, 0x7F] = (.ok (BitVec.ofInt 32 (-2)), []) := by decide +kernel

/-! ## C05

Full statement: for all `N ≥ 8`, `bs`, `v`, `rest`,
`parseUnsigned N (bs ++ rest) = (.ok v, rest) ↔ UN N bs v.toNat` (and the signed analogue).
The direction from right to left holds; the other one fails because over-long encodings are accepted. -/

/-- The code accepts a six-byte encoding of `0u32`, which the grammar excludes: C05 is false. -/
theorem C05_negation : ∃ bs v, parseU32 bs = (.ok v, []) ∧ ¬ UN 32 bs v.toNat := by
  refine ⟨[0x80, 0x80, 0x80, 0x80, 0x80, 0x00], 0, by decide +kernel, fun h => ?_⟩
  have := (UN_group h (by decide)).2.2.2
  simp at this

theorem C05_negation_signed : ∃ bs v, parseI32 bs = (.ok v, []) ∧ ¬ SN 32 bs v.toInt := by
  refine ⟨[0xFF, 0xFF, 0xFF, 0xFF, 0xFF, 0x7F], -1, by decide +kernel, fun h => ?_⟩
  have := (SN_group h (by decide)).2.2.2
  simp at this

/-- **C05, unsigned, partial.** Equivalence for encodings of at most ⌈N/7⌉ bytes; in particular everything in
the grammar is accepted. Missing: without the length condition the implication from left to right is false
(`C05_negation`). -/
theorem C05_unsigned_grammar_partial {N : Nat} (hN : 8 ≤ N) (bs : List Byte) (v : BitVec N) (rest : List Byte) :
    UN N bs v.toNat ↔
      parseUnsigned N (bs ++ rest) = (.ok v, rest) ∧ bs.length ≤ (N + 6) / 7 := by
  constructor
  · intro h
    obtain ⟨h1, h2, h3, h4⟩ := UN_group h (by omega)
    exact ⟨((C01_unsigned_exact hN h1 rest).1 v rest).mpr ⟨rfl, h2.symm⟩, by omega⟩
  · rintro ⟨h1, h2⟩
    -- the accepted bytes form a group
    obtain hg : Group bs := by
      rcases group_or_unterminated (bs ++ rest) with ⟨g, r, e, hg⟩ | hu
      · rw [e] at h1
        have := ((C01_unsigned_exact hN hg r).1 v rest).mp h1
        obtain ⟨rfl, _⟩ := this
        rwa [List.append_cancel_right e]
      · rcases parseUnsigned_unterminated (by omega : 7 ≤ N) _ hu with ⟨h, _⟩ | ⟨mid, h⟩
        · rw [h1] at h; cases h
        · have := h []
          rw [List.append_nil, h1] at this; cases this
    have hv := (((C01_unsigned_exact hN hg rest).1 v rest).mp h1).2
    rw [hv]
    exact UN_of_group bs N hg (by rw [← hv]; exact v.isLt) (by omega)

/-- **C05, signed, partial.** As above. -/
theorem C05_signed_grammar_partial {N : Nat} (hN : 8 ≤ N) (bs : List Byte) (v : BitVec N) (rest : List Byte) :
    SN N bs v.toInt ↔
      parseSigned N (bs ++ rest) = (.ok v, rest) ∧ bs.length ≤ (N + 6) / 7 := by
  constructor
  · intro h
    obtain ⟨h1, h2, h3, h4⟩ := SN_group h (by omega)
    exact ⟨((C02_signed_exact hN h1 rest).1 v rest).mpr ⟨rfl, h2.symm⟩, by omega⟩
  · rintro ⟨h1, h2⟩
    obtain hg : Group bs := by
      rcases group_or_unterminated (bs ++ rest) with ⟨g, r, e, hg⟩ | hu
      · rw [e] at h1
        have := ((C02_signed_exact hN hg r).1 v rest).mp h1
        obtain ⟨rfl, _⟩ := this
        rwa [List.append_cancel_right e]
      · rcases parseSigned_unterminated (by omega : 7 ≤ N) _ hu with ⟨h, _⟩ | ⟨mid, h⟩
        · rw [h1] at h; cases h
        · have := h []
          rw [List.append_nil, h1] at this; cases this
    have hv := (((C02_signed_exact hN hg rest).1 v rest).mp h1).2
    rw [hv]
    exact SN_of_group bs N hg (by rw [← hv]; exact ⟨BitVec.le_toInt v, BitVec.toInt_lt⟩) (by omega)

-- the longest encodings that the grammar admits
example : UN 32 [0xFF, 0xFF, 0xFF, 0xFF, 0x0F] (2 ^ 32 - 1) :=
  UN_of_group [0xFF, 0xFF, 0xFF, 0xFF, 0x0F] 32 (by decide) (by decide) (by decide)
example : SN 32 [0x80, 0x80, 0x80, 0x80, 0x78] (-(2 ^ 31)) :=
  SN_of_group [0x80, 0x80, 0x80, 0x80, 0x78] 32 (by decide) (by decide) (by decide)

end Whasm
