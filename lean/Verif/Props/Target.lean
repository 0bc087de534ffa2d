import Verif.Lemmas.Width
import Verif.Props.Core
import Verif.Props.Validity
import Verif.Spec.Float

/-!
# Properties C57, C58, C69: targets and memory
-/

namespace Whasm
open Spec

/-! ## C57 -/

/-- **C57, partial: labels.** With `usize` of more than 32 bits the width does not matter; with 32 bits it matters for one label only.
Missing for C57: that label, see `C57_label_negation`. -/
theorem C57_label_partial (build : Build) (i : Idx) (c : Ctx) :
    (∀ w, 32 < w → validateLabelOn w build i c = validateLabel i c) ∧
    (i ≠ 0xFFFFFFFF → validateLabelOn 32 build i c = validateLabel i c) := by
  refine ⟨fun w hw => label_agree ?_, fun hne => label_agree ?_⟩
  · have := i.isLt
    have : 2 ^ 33 ≤ 2 ^ w := Nat.pow_le_pow_right (by decide) hw
    omega
  · have := i.isLt
    have : i.toNat ≠ 0xFFFFFFFF := fun h => hne (BitVec.eq_of_toNat_eq h)
    omega

/-- **C57 is false of the code: labels.** On a 32-bit target, validating the label 0xFFFFFFFF panics in every function body, in debug
and in release builds. On a 64-bit target it is an error. -/
theorem C57_label_negation (build : Build) {c : Ctx} (h0 : 0 < c.frames.length) (h1 : c.frames.length < 2 ^ 32) :
    validateLabelOn 32 build 0xFFFFFFFF c = .error .panic ∧ validateLabelOn 64 build 0xFFFFFFFF c = .error .invalid := by
  refine ⟨label_overflow (by decide) h0 h1, ?_⟩
  rw [label_agree (by decide)]
  have e : (0xFFFFFFFF : Idx).toNat + 1 = 2 ^ 32 := by decide
  unfold validateLabel
  exact if_pos (by omega)

-- two frames, as at the top level of a body: one label
example : let c : Ctx := { frames := [⟨[.i32], [.i32], 0, false⟩, ⟨[], [], 0, false⟩] }
    (∀ b ∈ [Build.debug, .release], (validateLabelOn 32 b 0 c).map (·.1) = .ok ⟨[.i32], [.i32], 0, false⟩ ∧
      (validateLabelOn 32 b 1 c).map (·.1) = .error .invalid ∧ (validateLabelOn 32 b 0xFFFFFFFE c).map (·.1) = .error .invalid ∧
      (validateLabelOn 32 b 0xFFFFFFFF c).map (·.1) = .error .panic ∧ (validateLabelOn 64 b 0xFFFFFFFF c).map (·.1) = .error .invalid) := by
  decide +kernel

theorem vecOn_group {α : Type} (w size : Nat) (p : P α) {g : List Byte} (hg : Group g) (hv : uval g < 2 ^ 32) (r : List Byte) :
    parseVecOn w size p (g ++ r) = if 2 ^ (w - 1) ≤ uval g * size then (.error .panic, r) else parseVec p (g ++ r) := by
  obtain ⟨n, hn, h⟩ := u32_group hg hv r
  have h1 : parseVecOn w size p (g ++ r) = (if capacityOverflow w size n.toNat then P.fail .panic else parseN n.toNat p) r := bind_of_ok h
  have h2 : parseVec p (g ++ r) = parseN n.toNat p r := bind_of_ok h
  rw [h1, h2, hn]
  by_cases hc : 2 ^ (w - 1) ≤ uval g * size
  · rw [if_pos hc, if_pos (show capacityOverflow w size (uval g) from hc)]; rfl
  · rw [if_neg hc, if_neg (show ¬ capacityOverflow w size (uval g) from hc)]

/-- **C57, partial: vectors.** A vector of `n` elements of `size` bytes panics, before the first element is read, exactly if `n * size` bytes
are more than the target allows; otherwise the width does not matter. On a 64-bit target that takes elements of 2 GiB.
Missing for C57: the vectors of the first case, see `C57_vec_negation`. -/
theorem C57_vec_partial {α : Type} (w size : Nat) (p : P α) :
    (∀ g r, Group g → uval g < 2 ^ 32 →
      parseVecOn w size p (g ++ r) = if 2 ^ (w - 1) ≤ uval g * size then (.error .panic, r) else parseVec p (g ++ r)) ∧
    (∀ s e r, parseU32 s = (.error e, r) → parseVecOn w size p s = parseVec p s) ∧
    (64 ≤ w → size < 2 ^ 31 → parseVecOn w size p = parseVec p) := by
  have h2 : ∀ s e r, parseU32 s = (.error e, r) → parseVecOn w size p s = parseVec p s := fun s e r h =>
    (bind_of_error h : parseVecOn w size p s = _).trans (bind_of_error h : parseVec p s = _).symm
  refine ⟨fun g r hg hv => vecOn_group w size p hg hv r, h2, fun hw hs => funext fun s => ?_⟩
  match h : parseU32 s with
  | (.error e, r) => exact h2 s e r h
  | (.ok n, r) =>
    obtain ⟨g, rfl, hg, hv⟩ := (u32_ok _ _ _).mp h
    have hn := n.isLt
    rw [vecOn_group w size p hg (by omega) r, if_neg]
    have h3 : (2 : Nat) ^ 63 ≤ 2 ^ (w - 1) := Nat.pow_le_pow_right (by decide) (by omega)
    have h4 : uval g * size ≤ 2 ^ 32 * (2 ^ 31 - 1) := Nat.mul_le_mul (by omega) (by omega)
    omega

/-- **C57, partial: strings.** -/
theorem C57_string_partial (w : Nat) : (64 ≤ w → parseStringOn w = parseString) ∧
    (∀ g r, Group g → uval g < 2 ^ 31 → parseStringOn 32 (g ++ r) = parseString (g ++ r)) := by
  have h0 : parseString = (parseVec parseByte >>= fun raw => if validUtf8 raw then pure raw else P.fail .invalidUtf8Encoding) := by
    unfold parseString; rw [unwrappingVec_id]
  constructor
  · intro hw
    rw [h0, ← (C57_vec_partial w 1 parseByte).2.2 hw (by decide)]
    rfl
  · intro g r hg hv
    have h1 := (C57_vec_partial 32 1 parseByte).1 g r hg (by omega)
    rw [if_neg (by omega)] at h1
    rw [h0]
    show P.bind (parseVecOn 32 1 parseByte) _ _ = P.bind (parseVec parseByte) _ _
    rw [P.bind, P.bind, h1]

/-- **C57 is false of the code: vectors.** On a 32-bit target a count of 2^31 or more makes the parser panic, whatever the elements and
whatever follows; on a 64-bit target it does not, not even for a string cut after its length. -/
theorem C57_vec_negation : (∀ {α : Type} (size : Nat) (p : P α) g r, 0 < size → Group g → uval g < 2 ^ 32 → 2 ^ 31 ≤ uval g →
      parseVecOn 32 size p (g ++ r) = (.error .panic, r)) ∧
    parseStringOn 32 [0x80, 0x80, 0x80, 0x80, 0x08] = (.error .panic, []) ∧
    parseStringOn 64 [0x80, 0x80, 0x80, 0x80, 0x08] = (.error .unexpectedEndOfFile, []) := by
  have hg : Group [0x80, 0x80, 0x80, 0x80, 0x08] := by decide
  have hv : uval [0x80, 0x80, 0x80, 0x80, 0x08] = 2 ^ 31 := by decide
  have h0 : ∀ {α : Type} (size : Nat) (p : P α) g r, 0 < size → Group g → uval g < 2 ^ 32 → 2 ^ 31 ≤ uval g →
      parseVecOn 32 size p (g ++ r) = (.error .panic, r) := by
    intro α size p g r hs hg hlt hge
    rw [vecOn_group 32 size p hg hlt r]
    exact if_pos (Nat.le_trans hge (Nat.le_mul_of_pos_right _ hs))
  refine ⟨h0, ?_, ?_⟩
  · have h := h0 1 parseByte _ [] (by decide) hg (by omega) (by omega)
    exact bind_of_error h
  · rw [(C57_string_partial 64).1 (by decide)]
    decide +kernel

/-! ## C58 -/

theorem chain_length {α : Type} {p : P α} (hp : ∀ s x r, p s = (.ok x, r) → r.length < s.length) {s : List Byte} {xs : List α} {r : List Byte}
    (h : Chain p s xs r) : xs.length + r.length ≤ s.length := by
  induction h with
  | nil => simp
  | cons h1 _ ih => have := hp _ _ _ h1; simp; omega

/-- **C58, partial.** If a vector is parsed, the memory reserved at its beginning is for exactly the elements it has, and if no element is empty
these are fewer than the bytes read. In any case it is for fewer than 2^32 elements.
Missing for C58: vectors that are not parsed successfully, see `C58_negation`. -/
theorem C58_reserved_partial {α : Type} (p : P α) (s : List Byte) :
    (∀ n, reserves s = some n → n < 2 ^ 32) ∧
    (∀ xs r, parseVec p s = (.ok xs, r) → reserves s = some xs.length) ∧
    ((∀ s x r, p s = (.ok x, r) → r.length < s.length) → ∀ xs r n, parseVec p s = (.ok xs, r) → reserves s = some n → n + r.length < s.length) := by
  have h1 : ∀ xs r, parseVec p s = (.ok xs, r) → reserves s = some xs.length := by
    intro xs r h
    obtain ⟨n, s', h1, h2⟩ := bind_ok_iff.mp (h : (parseU32 >>= _) s = _)
    unfold reserves
    rw [h1, ((parseN_ok p _ _ _ _).mp h2).1]
  refine ⟨fun n h => ?_, h1, fun hp xs r n h hn => ?_⟩
  · unfold reserves at h
    split at h
    · rename_i v _ _
      cases h; exact v.isLt
    · cases h
  · rw [h1 xs r h] at hn
    cases hn
    obtain ⟨g, s', rfl, hg, _, _, hc⟩ := (C09_vec p s xs r).mp h
    have := chain_length hp hc
    have : 0 < g.length := by cases g with | nil => exact absurd hg (by decide) | cons => simp
    simp; omega

/-- **C58 is false of the code.** Five bytes make the parser of any vector reserve memory for 2^32 - 1 elements; with nothing after them it then
fails. Fifteen bytes do so in a module. -/
theorem C58_negation :
    reserves [0xFF, 0xFF, 0xFF, 0xFF, 0x0F] = some (2 ^ 32 - 1) ∧
    (∀ {α : Type} (p : P α) e r, p [] = (.error e, r) → parseVec p [0xFF, 0xFF, 0xFF, 0xFF, 0x0F] = (.error e, r)) ∧
    parseModule [0x00, 0x61, 0x73, 0x6D, 0x01, 0x00, 0x00, 0x00, 0x01, 0x05, 0xFF, 0xFF, 0xFF, 0xFF, 0x0F] = (.error .unexpectedEndOfFile, []) := by
  refine ⟨by decide +kernel, ?_, by decide +kernel⟩
  intro α p e r h
  have h0 : ([] : List α).length < uval [0xFF, 0xFF, 0xFF, 0xFF, 0x0F] := Nat.lt_of_lt_of_eq (m := 2 ^ 32 - 1) (by simp) (by decide)
  have := ((C09_vec_error p).1 [0xFF, 0xFF, 0xFF, 0xFF, 0x0F] [] e r (by decide) (by decide)).mpr ⟨[], [], h0, .nil, h⟩
  simpa using this

-- a vector of two bytes, one of two bytes cut short, and a count that does not fit
example : reserves [0x02, 0x2A, 0x2B, 0x2C] = some 2 ∧ parseVec parseByte [0x02, 0x2A, 0x2B, 0x2C] = (.ok [0x2A, 0x2B], [0x2C]) ∧
    reserves [0x02, 0x2A] = some 2 ∧ reserves [0xFF, 0xFF, 0xFF, 0xFF, 0x7F] = none := by decide +kernel

/-! ## C69 -/

theorem floatLoop_eq : ∀ (k : Nat) (pre rest : List Byte), rest.length = k → ∀ s,
    floatLoop k pre.length (pre ++ rest) s = (parseN k parseByte >>= fun bs => pure (pre ++ bs)) s
  | 0, pre, [], _, s => rfl
  | k + 1, pre, b :: rest, h, s => by
    cases s with
    | nil => rfl
    | cons c s =>
      have h1 : (pre ++ b :: rest).set pre.length c = (pre ++ [c]) ++ rest := by
        rw [List.set_append_right _ _ (Nat.le_refl _)]
        simp
      have ih := floatLoop_eq k (pre ++ [c]) rest (by simpa using h) s
      rw [List.length_append, List.length_singleton] at ih
      show floatLoop k (pre.length + 1) ((pre ++ b :: rest).set pre.length c) s = _
      rw [h1, ih]
      show _ = ((parseN k parseByte >>= fun xs => pure (c :: xs)) >>= fun bs => pure (pre ++ bs)) s
      generalize hr : parseN k parseByte s = r
      obtain ⟨x, t⟩ := r
      cases x with
      | ok bs =>
        have e : pre ++ [c] ++ bs = pre ++ c :: bs := by simp
        have h2 : (parseN k parseByte >>= fun xs => (pure (c :: xs) : P (List Byte))) s = (.ok (c :: bs), t) := bind_of_ok hr
        have h3 : (parseN k parseByte >>= fun xs => (pure (pre ++ [c] ++ xs) : P (List Byte))) s = (.ok (pre ++ [c] ++ bs), t) := bind_of_ok hr
        rw [e] at h3
        exact h3.trans (bind_of_ok (f := fun bs => (pure (pre ++ bs) : P (List Byte))) h2).symm
      | error e =>
        have h2 : (parseN k parseByte >>= fun xs => (pure (c :: xs) : P (List Byte))) s = (.error e, t) := bind_of_error hr
        exact (bind_of_error hr).trans (bind_of_error (f := fun bs => (pure (pre ++ bs) : P (List Byte))) h2).symm

theorem floatOn_eq (host : Endian) (n : Nat) (s : List Byte) :
    parseFloatOn host n s = (parseN n parseByte >>= fun bs => pure (loadBits host (8 * n) bs)) s := by
  have h := floatLoop_eq n [] (List.replicate n 0) (by simp) s
  generalize hr : parseN n parseByte s = r at h
  obtain ⟨x, t⟩ := r
  cases x with
  | ok bs =>
    rw [bind_of_ok hr] at h
    have h1 : parseFloatOn host n s = (.ok (loadBits host (8 * n) bs), t) := bind_of_ok h
    exact h1.trans (bind_of_ok (f := fun bs => (pure (loadBits host (8 * n) bs) : P (BitVec (8 * n)))) hr).symm
  | error e =>
    rw [bind_of_error hr] at h
    exact (bind_of_error h).trans (bind_of_error hr).symm

/-- The full statement of C69 for floats of `n` bytes: on either host a float is the number whose little-endian representation is the next `n`
bytes. -/
def FloatAnywhere (n : Nat) : Prop :=
  ∀ (host : Endian) (s : List Byte) (v : BitVec (8 * n)) (r : List Byte),
    parseFloatOn host n s = (.ok v, r) ↔ ∃ b, s = b ++ r ∧ b.length = n ∧ v.toNat = leVal b

/-- **C69, partial.** It holds on little-endian hosts: there the function is the one of the main model (C07). Missing: big-endian hosts, see
`C69_big` and `C69_negation`. -/
theorem C69_little_partial (n : Nat) : parseFloatOn .little n = parseFloat n :=
  funext fun s => floatOn_eq .little n s

/-- **C69, big-endian hosts.** There the value is the number whose big-endian representation is the next bytes. -/
theorem C69_big (n : Nat) (s : List Byte) (v : BitVec (8 * n)) (r : List Byte) :
    parseFloatOn .big n s = (.ok v, r) ↔ ∃ b, s = b ++ r ∧ b.length = n ∧ v.toNat = leVal b.reverse := by
  rw [floatOn_eq, bind_ok_iff]
  constructor
  · rintro ⟨bs, t, h1, h2⟩
    obtain ⟨b, rfl, h3⟩ := (parses_parseN parses_byte n _ _ _).mp h1
    cases h2
    obtain ⟨h4, h5⟩ := h3
    obtain rfl := gseq_byte.mp h5
    exact ⟨b, rfl, h4, (leBits_toNat (8 * n) b.reverse (by simp; omega)).1⟩
  · rintro ⟨b, rfl, h1, h2⟩
    refine ⟨b, r, (parses_parseN parses_byte n _ _ _).mpr ⟨b, rfl, h1, gseq_byte.mpr rfl⟩, ?_⟩
    have : v = leBits (8 * n) b.reverse := BitVec.eq_of_toNat_eq (by rw [h2, (leBits_toNat (8 * n) b.reverse (by simp; omega)).1])
    rw [this]
    rfl

theorem leVal_inj : ∀ {a b : List Byte}, a.length = b.length → leVal a = leVal b → a = b
  | [], [], _, _ => rfl
  | x :: a, y :: b, h, e => by
    have hx := x.toNat_lt
    have hy := y.toNat_lt
    rw [leVal, leVal] at e
    have h1 : x.toNat = y.toNat := by omega
    have h2 : leVal a = leVal b := by omega
    rw [leVal_inj (by simpa using h) h2, UInt8.toNat_inj.mp h1]

/-- **C69, where hosts agree.** Both kinds of host read the same float exactly from bytes that are the same backwards; the bytes consumed and the
errors are always the same. -/
theorem C69_agree (n : Nat) (s : List Byte) :
    (∀ b r, s = b ++ r → b.length = n → (parseFloatOn .big n s = parseFloatOn .little n s ↔ b.reverse = b)) ∧
    (s.length < n → parseFloatOn .big n s = (.error .unexpectedEndOfFile, []) ∧ parseFloatOn .little n s = (.error .unexpectedEndOfFile, [])) := by
  have e : ∀ b r, s = b ++ r → b.length = n → ∀ host, parseFloatOn host n s = (.ok (loadBits host (8 * n) b), r) := by
    rintro b r rfl h host
    rw [floatOn_eq]
    exact bind_of_ok ((parses_parseN parses_byte n _ _ _).mpr ⟨b, rfl, h, gseq_byte.mpr rfl⟩)
  refine ⟨fun b r hs hb => ?_, fun h => ?_⟩
  · rw [e b r hs hb, e b r hs hb]
    constructor
    · intro h
      have h1 : leBits (8 * n) b.reverse = leBits (8 * n) b := by injection h with h _; injection h
      refine leVal_inj (by simp) ?_
      rw [← (leBits_toNat (8 * n) b.reverse (by simp; omega)).1, ← (leBits_toNat (8 * n) b (by omega)).1, h1]
    · intro h
      show ((Except.ok (leBits (8 * n) b.reverse) : Except Error _), r) = (Except.ok (leBits (8 * n) b), r)
      rw [h]
  · have h1 : parseN n parseByte s = (.error .unexpectedEndOfFile, []) := by
      refine (parseN_error parseByte n s _ _).mpr ⟨s, [], h, ?_, rfl⟩
      clear e h
      induction s with
      | nil => exact .nil
      | cons b s ih => exact .cons rfl ih
    exact ⟨(floatOn_eq _ n s).trans (bind_of_error h1), (floatOn_eq _ n s).trans (bind_of_error h1)⟩

/-- **C69 is false of the code.** The bytes of π are read as a tiny number on big-endian hosts, as those of `1.0` are as a denormal one. -/
theorem C69_negation : ¬ FloatAnywhere 4 ∧ ¬ FloatAnywhere 8 := by
  constructor
  · intro h
    obtain ⟨b, h1, h2, h3⟩ := (h .big [0xDB, 0x0F, 0x49, 0x40] 0xDB0F4940 []).mp (by decide +kernel)
    rw [List.append_nil] at h1
    subst h1
    exact absurd h3 (by decide)
  · intro h
    obtain ⟨b, h1, h2, h3⟩ := (h .big [0x18, 0x2D, 0x44, 0x54, 0xFB, 0x21, 0x09, 0x40] 0x182D4454FB210940 []).mp (by decide +kernel)
    rw [List.append_nil] at h1
    subst h1
    exact absurd h3 (by decide)

-- 1.0f32: a denormal number on big-endian hosts; and 0.0, which is the same everywhere
example : (parseFloatOn .little 4 [0x00, 0x00, 0x80, 0x3F]).1.toOption.map datum32 = some (Datum.fin (2 ^ 23 * 2 ^ 126)) ∧
    (parseFloatOn .big 4 [0x00, 0x00, 0x80, 0x3F]).1.toOption.map datum32 = some (Datum.fin 0x803F) ∧
    parseFloatOn .big 4 [0, 0, 0, 0, 1] = (.ok 0, [1]) := by decide +kernel

end Whasm
