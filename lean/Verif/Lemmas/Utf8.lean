import Verif.Lemmas.Elements

/-!
# The UTF-8 check of the model accepts exactly the encodings of scalar values
-/

namespace Whasm
open Spec

theorem u8_le (a b : Byte) : (a ≤ b) ↔ a.toNat ≤ b.toNat := UInt8.le_iff_toNat_le
theorem u8_lt (a b : Byte) : (a < b) ↔ a.toNat < b.toNat := UInt8.lt_iff_toNat_lt
theorem u8_eq (a b : Byte) : (a = b) ↔ a.toNat = b.toNat := UInt8.toNat_inj.symm

/-- The scalar value with number `v`. -/
def mkChar (v : Nat) (h : v < 0xD800 ∨ (0xDFFF < v ∧ v < 0x110000)) : Char :=
  ⟨UInt32.ofNat v, by
    show (UInt32.ofNat v).toNat.isValidChar
    rw [UInt32.toNat_ofNat', Nat.mod_eq_of_lt (by omega)]; exact h⟩

theorem mkChar_val (v : Nat) (h) : (mkChar v h).val.toNat = v := by
  show (UInt32.ofNat v).toNat = v
  rw [UInt32.toNat_ofNat', Nat.mod_eq_of_lt (by omega)]

theorem valid_encode (c : Char) (r : List Byte) : validUtf8 (String.utf8EncodeChar c ++ r) = validUtf8 r := by
  have hc : c.val.toNat < 0xD800 ∨ (0xDFFF < c.val.toNat ∧ c.val.toNat < 0x110000) := c.valid
  unfold String.utf8EncodeChar
  generalize c.val.toNat = v at hc
  simp only
  split
  · rw [List.cons_append, List.nil_append, validUtf8.eq_def]
    simp only
    rw [if_pos (by rw [u8_lt, toNat_ofNat_lt (by omega)]; exact Nat.lt_succ_of_le ‹_›)]
  split
  · rw [List.cons_append, List.cons_append, List.nil_append]
    rw [validUtf8.eq_def]
    simp only [isCont, u8_lt, u8_le, toNat_ofNat_lt (show v / 64 % 32 + 192 < 256 by omega),
      toNat_ofNat_lt (show v % 64 + 128 < 256 by omega), UInt8.toNat_ofNat, Bool.and_eq_true, decide_eq_true_eq]
    rw [if_neg (by omega), if_pos (by omega)]
    simp; omega
  split
  · simp only [List.cons_append, List.nil_append]
    rw [validUtf8.eq_def]
    simp only [isCont, u8_lt, u8_le, toNat_ofNat_lt (show v / 4096 % 16 + 224 < 256 by omega),
      toNat_ofNat_lt (show v % 64 + 128 < 256 by omega), toNat_ofNat_lt (show v / 64 % 64 + 128 < 256 by omega),
      UInt8.toNat_ofNat, Bool.and_eq_true, decide_eq_true_eq]
    rw [if_neg (by omega), if_neg (by omega), if_pos (by omega)]
    have e : ((UInt8.ofNat (v / 4096 % 16 + 224) == 0xE0) = decide (v / 4096 % 16 + 224 = 0xE0)) ∧
        ((UInt8.ofNat (v / 4096 % 16 + 224) == 0xED) = decide (v / 4096 % 16 + 224 = 0xED)) := by
      constructor <;> rw [Bool.eq_iff_iff, beq_iff_eq, decide_eq_true_eq, u8_eq, toNat_ofNat_lt (by omega)] <;> rfl
    rw [e.1, e.2, Bool.eq_iff_iff]
    simp only [Bool.and_eq_true, Bool.or_eq_true, decide_eq_true_eq]
    constructor
    · intro h; exact h.2
    · intro h; refine ⟨⟨?_, ?_⟩, h⟩ <;> omega
  · simp only [List.cons_append, List.nil_append]
    rw [validUtf8.eq_def]
    simp only [isCont, u8_lt, u8_le, toNat_ofNat_lt (show v / 262144 % 8 + 240 < 256 by omega),
      toNat_ofNat_lt (show v / 4096 % 64 + 128 < 256 by omega),
      toNat_ofNat_lt (show v % 64 + 128 < 256 by omega), toNat_ofNat_lt (show v / 64 % 64 + 128 < 256 by omega),
      UInt8.toNat_ofNat, Bool.and_eq_true, decide_eq_true_eq]
    rw [if_neg (by omega), if_neg (by omega), if_neg (by omega), if_pos (by omega)]
    have e : ((UInt8.ofNat (v / 262144 % 8 + 240) == 0xF0) = decide (v / 262144 % 8 + 240 = 0xF0)) ∧
        ((UInt8.ofNat (v / 262144 % 8 + 240) == 0xF4) = decide (v / 262144 % 8 + 240 = 0xF4)) := by
      constructor <;> rw [Bool.eq_iff_iff, beq_iff_eq, decide_eq_true_eq, u8_eq, toNat_ofNat_lt (by omega)] <;> rfl
    rw [e.1, e.2, Bool.eq_iff_iff]
    simp only [Bool.and_eq_true, Bool.or_eq_true, decide_eq_true_eq]
    constructor
    · intro h; exact h.2
    · intro h; refine ⟨⟨⟨?_, ?_⟩, ?_⟩, h⟩ <;> omega

/-- A valid non-empty byte string starts with the encoding of a scalar value. -/
theorem valid_head (b : Byte) (s : List Byte) (h : validUtf8 (b :: s) = true) :
    ∃ c r, b :: s = String.utf8EncodeChar c ++ r ∧ validUtf8 r = true := by
  have hb := b.toNat_lt
  rw [validUtf8.eq_def] at h
  simp only at h
  split at h
  next h0 =>
    rw [u8_lt] at h0
    have h0 : b.toNat < 128 := h0
    refine ⟨mkChar b.toNat (by omega), s, ?_, h⟩
    unfold String.utf8EncodeChar
    simp only [mkChar_val]
    rw [if_pos (by omega)]
    simp
  split at h
  next h1 =>
    simp only [Bool.and_eq_true, decide_eq_true_eq, u8_le, UInt8.toNat_ofNat] at h1
    rcases s with _ | ⟨b1, s⟩
    · cases h
    simp only [isCont, Bool.and_eq_true, decide_eq_true_eq, u8_le, UInt8.toNat_ofNat] at h
    refine ⟨mkChar ((b.toNat - 192) * 64 + (b1.toNat - 128)) (by omega), s, ?_, h.2⟩
    unfold String.utf8EncodeChar
    simp only [mkChar_val]
    rw [if_neg (by omega), if_pos (by omega)]
    simp only [List.cons_append, List.nil_append, List.cons.injEq, and_true, u8_eq]
    rw [toNat_ofNat_lt (by omega), toNat_ofNat_lt (by omega)]
    omega
  split at h
  next h1 =>
    simp only [Bool.and_eq_true, decide_eq_true_eq, u8_le, UInt8.toNat_ofNat] at h1
    rcases s with _ | ⟨b1, _ | ⟨b2, s⟩⟩
    · cases h
    · cases h
    have hb1 := b1.toNat_lt
    simp only [isCont, Bool.and_eq_true, Bool.or_eq_true, decide_eq_true_eq, u8_le, UInt8.toNat_ofNat, beq_iff_eq, u8_eq] at h
    refine ⟨mkChar ((b.toNat - 224) * 4096 + (b1.toNat - 128) * 64 + (b2.toNat - 128)) (by omega), s, ?_, h.2⟩
    unfold String.utf8EncodeChar
    simp only [mkChar_val]
    rw [if_neg (by omega), if_neg (by omega), if_pos (by omega)]
    simp only [List.cons_append, List.nil_append, List.cons.injEq, and_true, u8_eq]
    rw [toNat_ofNat_lt (by omega), toNat_ofNat_lt (by omega), toNat_ofNat_lt (by omega)]
    omega
  split at h
  next h1 =>
    simp only [Bool.and_eq_true, decide_eq_true_eq, u8_le, UInt8.toNat_ofNat] at h1
    rcases s with _ | ⟨b1, _ | ⟨b2, _ | ⟨b3, s⟩⟩⟩
    · cases h
    · cases h
    · cases h
    have hb1 := b1.toNat_lt
    simp only [isCont, Bool.and_eq_true, Bool.or_eq_true, decide_eq_true_eq, u8_le, UInt8.toNat_ofNat, beq_iff_eq, u8_eq] at h
    refine ⟨mkChar ((b.toNat - 240) * 262144 + (b1.toNat - 128) * 4096 + (b2.toNat - 128) * 64 + (b3.toNat - 128))
      (by omega), s, ?_, h.2⟩
    unfold String.utf8EncodeChar
    simp only [mkChar_val]
    rw [if_neg (by omega), if_neg (by omega), if_neg (by omega)]
    simp only [List.cons_append, List.nil_append, List.cons.injEq, and_true, u8_eq]
    rw [toNat_ofNat_lt (by omega), toNat_ofNat_lt (by omega), toNat_ofNat_lt (by omega), toNat_ofNat_lt (by omega)]
    omega
  · cases h

theorem encode_length_pos (c : Char) : 0 < (String.utf8EncodeChar c).length :=
  List.length_pos_iff.mpr String.utf8EncodeChar_ne_nil

theorem validUtf8_iff (s : List Byte) : validUtf8 s = true ↔ IsUtf8 s := by
  constructor
  · intro h
    induction hn : s.length using Nat.strongRecOn generalizing s with
    | _ n ih =>
      cases s with
      | nil => exact ⟨[], rfl⟩
      | cons b s =>
        obtain ⟨c, r, e, hr⟩ := valid_head b s h
        have hl := congrArg List.length e
        rw [List.length_append] at hl
        have := encode_length_pos c
        obtain ⟨cs, rfl⟩ := ih r.length (by omega) r hr rfl
        exact ⟨c :: cs, by rw [e, List.flatMap_cons]⟩
  · rintro ⟨cs, rfl⟩
    induction cs with
    | nil => rfl
    | cons c cs ih => rw [List.flatMap_cons, valid_encode]; exact ih

/-! ## Strings -/

theorem parses_vecByte : Parses (parseUnwrappingVec (fun b : Byte => b) parseByte) (GVec .code GByte) := by
  rw [unwrappingVec_id]; exact parses_vec parses_byte

theorem good_vecByte : Good (parseUnwrappingVec (fun b : Byte => b) parseByte) := by
  rw [unwrappingVec_id]; exact good_vec good_byte

theorem noFuel_vecByte : NoFuel (parseUnwrappingVec (fun b : Byte => b) parseByte) := by
  rw [unwrappingVec_id]; exact noFuel_vec noFuel_byte

theorem parses_string : Parses parseString (GName .code) := by
  unfold parseString
  refine (Parses.bind (H := fun raw b n => b = [] ∧ n = raw ∧ IsUtf8 raw) parses_vecByte fun raw => ?_).congr fun b n => ?_
  · split
    next h =>
      refine (parses_pure raw).congr fun b y => ?_
      have := (validUtf8_iff raw).mp h
      simp [this]
    next h =>
      refine (parses_fail _).congr fun b y => ?_
      have : ¬ IsUtf8 raw := fun hu => h ((validUtf8_iff raw).mpr hu)
      simp [this]
  · constructor
    · rintro ⟨b1, raw, b2, h1, ⟨rfl, rfl, h2⟩, rfl⟩; rw [List.append_nil]; exact .mk h1 h2
    · rintro ⟨h1, h2⟩; exact ⟨_, _, [], h1, ⟨rfl, rfl, h2⟩, by simp⟩

theorem good_string : Good parseString :=
  good_vecByte.bind fun raw => by split; exact good_pure _; exact good_fail (by decide)

theorem noFuel_string : NoFuel parseString :=
  noFuel_vecByte.bind fun raw => by split; exact noFuel_pure _; exact noFuel_fail (by decide)

end Whasm
