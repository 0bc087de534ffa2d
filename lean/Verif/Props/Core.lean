import Verif.Lemmas.Chain
import Verif.Lemmas.Utf8
import Verif.Lemmas.DecEq

/-!
# C06 – C12: bytes, arrays, floats, strings, vectors, sized elements

`Spec.Chain p s xs r`: running `p` repeatedly from `s` yields `xs` and leaves `r`.
-/

namespace Whasm
open Spec

section
variable {α β : Type}

/-! ## C06 -/

/-- **C06, bytes.** -/
theorem C06_byte : (∀ b r, parseByte (b :: r) = (.ok b, r)) ∧ parseByte [] = (.error .unexpectedEndOfFile, []) :=
  ⟨fun _ _ => rfl, rfl⟩

/-- **C06, arrays.** `[T; n]` is exactly `n` consecutive `T`; it fails exactly when one of these fails, with the same
error and the same rest. -/
theorem C06_array (p : P α) (n : Nat) (s : List Byte) :
    (∀ xs r, parseN n p s = (.ok xs, r) ↔ xs.length = n ∧ Chain p s xs r) ∧
    (∀ e r, parseN n p s = (.error e, r) ↔ ∃ xs mid, xs.length < n ∧ Chain p s xs mid ∧ p mid = (.error e, r)) :=
  ⟨parseN_ok p n s, parseN_error p n s⟩

example : parseN 2 parseByte [1, 2, 3] = (.ok [1, 2], [3]) ∧ Chain parseByte [1, 2, 3] [1, 2] [3] ∧
    parseN 3 parseByte [1, 2] = (.error .unexpectedEndOfFile, []) :=
  ⟨by decide, .cons rfl (.cons rfl .nil), by decide⟩

/-! ## C07 -/

/-- **C07.** A float of `n` bytes (`f32`: 4, `f64`: 8) is its next `n` bytes read as a little-endian number; with fewer
bytes the result is end of file. -/
theorem C07_float (n : Nat) (s : List Byte) :
    (∀ v r, parseFloat n s = (.ok v, r) ↔ ∃ b, s = b ++ r ∧ b.length = n ∧ v.toNat = leVal b) ∧
    (s.length < n → parseFloat n s = (.error .unexpectedEndOfFile, [])) := by
  constructor
  · intro v r
    rw [parses_float n s v r]
    exact exists_congr fun b => and_congr_right fun _ => ⟨fun ⟨h1, h2⟩ => ⟨h1, h2.symm⟩, fun ⟨h1, h2⟩ => .mk h1 h2.symm⟩
  · intro h
    obtain ⟨t, ht⟩ : ∃ t : List Byte, (s ++ t).length = n := ⟨List.replicate (n - s.length) 0, by simp; omega⟩
    refine (good_float n).truncated (b := s) (t := t) (x := leBits (8 * n) (s ++ t)) ?_ ?_
    · rintro rfl; simp at ht; omega
    · exact (parses_float n _ _ _).mpr ⟨s ++ t, by simp, .mk ht (leBits_toNat (8 * n) _ (by omega)).1.symm⟩

/-- The two instances. -/
theorem C07_f32 (b0 b1 b2 b3 : Byte) (r : List Byte) : ∃ v : F32, parseF32 (b0 :: b1 :: b2 :: b3 :: r) = (.ok v, r) ∧
    v.toNat = b0.toNat + 256 * (b1.toNat + 256 * (b2.toNat + 256 * b3.toNat)) := by
  refine ⟨leBits 32 [b0, b1, b2, b3], ?_, ?_⟩
  · exact ((C07_float 4 _).1 _ _).mpr ⟨[b0, b1, b2, b3], rfl, rfl, (leBits_toNat 32 [b0, b1, b2, b3] (by simp)).1⟩
  · exact (leBits_toNat 32 [b0, b1, b2, b3] (by simp)).1

theorem C07_f64 (b0 b1 b2 b3 b4 b5 b6 b7 : Byte) (r : List Byte) : ∃ v : F64,
    parseF64 (b0 :: b1 :: b2 :: b3 :: b4 :: b5 :: b6 :: b7 :: r) = (.ok v, r) ∧
    v.toNat = b0.toNat + 256 * (b1.toNat + 256 * (b2.toNat + 256 * (b3.toNat + 256 * (b4.toNat + 256 * (b5.toNat
      + 256 * (b6.toNat + 256 * b7.toNat)))))) := by
  refine ⟨leBits 64 [b0, b1, b2, b3, b4, b5, b6, b7], ?_, ?_⟩
  · exact ((C07_float 8 _).1 _ _).mpr
      ⟨[b0, b1, b2, b3, b4, b5, b6, b7], rfl, rfl, (leBits_toNat 64 [b0, b1, b2, b3, b4, b5, b6, b7] (by simp)).1⟩
  · exact (leBits_toNat 64 [b0, b1, b2, b3, b4, b5, b6, b7] (by simp)).1

/-- Every bit pattern, in particular every NaN, is reachable and preserved. -/
theorem C07_every_pattern (n : Nat) (v : BitVec (8 * n)) (r : List Byte) :
    ∃ b, b.length = n ∧ parseFloat n (b ++ r) = (.ok v, r) := by
  obtain ⟨h1, h2⟩ := leBytes_spec n v.toNat v.isLt
  exact ⟨leBytes n v.toNat, h1, ((C07_float n _).1 v r).mpr ⟨_, rfl, h1, h2.symm⟩⟩

-- 1.0f32, a signalling NaN with payload, and a truncated float
example : parseF32 [0x00, 0x00, 0x80, 0x3F] = (.ok 0x3F800000, []) ∧
    parseF32 [0x01, 0x00, 0xA0, 0x7F, 0x0B] = (.ok 0x7FA00001, [0x0B]) ∧
    parseF64 [1, 2, 3] = (.error .unexpectedEndOfFile, []) := by decide +kernel

/-! ## C08 -/

/-- **C08.** A string is a length below 2^32 (a LEB-128 group `g`) and that many bytes, which must be the UTF-8
encoding of some sequence of characters (Unicode scalar values). -/
theorem C08_string (s : List Byte) :
    (∀ n r, parseString s = (.ok n, r) ↔
      ∃ g, s = g ++ (n ++ r) ∧ Group g ∧ uval g = n.length ∧ n.length < 2 ^ 32 ∧ ∃ cs : List Char, n = cs.flatMap String.utf8EncodeChar) ∧
    (∀ g n r, s = g ++ (n ++ r) → Group g → uval g = n.length → n.length < 2 ^ 32 →
      (¬ ∃ cs : List Char, n = cs.flatMap String.utf8EncodeChar) → parseString s = (.error .invalidUtf8Encoding, r)) := by
  constructor
  · intro n r
    rw [parses_string s n r]
    constructor
    · rintro ⟨b, rfl, ⟨hv, hu⟩⟩
      cases hv with
      | @mk g bs len _ h1 h2 h3 =>
        obtain rfl := gseq_byte.mp h3
        exact ⟨g, by simp, h1.1, by rw [h1.2, h2], by rw [h2]; exact len.isLt, hu⟩
    · rintro ⟨g, rfl, hg, hv, hl, hu⟩
      refine ⟨g ++ n, by simp, .mk (.mk (len := BitVec.ofNat 32 n.length) ⟨hg, ?_⟩ ?_ (gseq_byte.mpr rfl)) hu⟩
      · rw [BitVec.toNat_ofNat, Nat.mod_eq_of_lt hl, hv]
      · rw [BitVec.toNat_ofNat, Nat.mod_eq_of_lt hl]
  · rintro g n r rfl hg hv hl hu
    have h1 : parseUnwrappingVec (fun b : Byte => b) parseByte (g ++ (n ++ r)) = (.ok n, r) := by
      refine (parses_vecByte _ _ _).mpr ⟨g ++ n, by simp, .mk (len := BitVec.ofNat 32 n.length) ⟨hg, ?_⟩ ?_ (gseq_byte.mpr rfl)⟩
      · rw [BitVec.toNat_ofNat, Nat.mod_eq_of_lt hl, hv]
      · rw [BitVec.toNat_ofNat, Nat.mod_eq_of_lt hl]
    unfold parseString
    rw [bind_of_ok h1, if_neg (fun h => hu ((validUtf8_iff n).mp h))]
    rfl

-- "é€😀" and overlong/surrogate forms
example : parseString [0x09, 0xC3, 0xA9, 0xE2, 0x82, 0xAC, 0xF0, 0x9F, 0x98, 0x80, 0x00]
      = (.ok ['é', '€', '😀'].utf8Encode.toList, [0x00]) ∧
    parseString [0x02, 0xC0, 0x80] = (.error .invalidUtf8Encoding, []) ∧
    parseString [0x03, 0xED, 0xA0, 0x80, 0x01] = (.error .invalidUtf8Encoding, [0x01]) := by decide +kernel

/-! ## C09 -/

/-- **C09, `Vec<T>`.** A vector is a count below 2^32 and that many consecutive elements. -/
theorem C09_vec (p : P α) (s : List Byte) (xs : List α) (r : List Byte) :
    parseVec p s = (.ok xs, r) ↔
      ∃ g s', s = g ++ s' ∧ Group g ∧ uval g = xs.length ∧ xs.length < 2 ^ 32 ∧ Chain p s' xs r := by
  show (parseU32 >>= _) s = _ ↔ _
  rw [bind_ok_iff]
  constructor
  · rintro ⟨n, s', h1, h2⟩
    obtain ⟨g, rfl, hg, hv⟩ := (u32_ok _ _ _).mp h1
    obtain ⟨h3, h4⟩ := (parseN_ok p _ _ _ _).mp h2
    exact ⟨g, s', rfl, hg, by omega, by rw [h3]; exact n.isLt, h4⟩
  · rintro ⟨g, s', rfl, hg, hv, hl, hc⟩
    obtain ⟨n, hn, h⟩ := u32_group hg (by omega) s'
    exact ⟨n, s', h, (parseN_ok p _ _ _ _).mpr ⟨by omega, hc⟩⟩

/-- **C09, errors.** A vector whose count `n` can be read fails exactly when one of its first `n` elements does, with that
element's error; if the count cannot be read its error is returned. -/
theorem C09_vec_error (p : P α) :
    (∀ g s' e r, Group g → uval g < 2 ^ 32 →
      (parseVec p (g ++ s') = (.error e, r) ↔ ∃ xs mid, xs.length < uval g ∧ Chain p s' xs mid ∧ p mid = (.error e, r))) ∧
    (∀ s e r, parseU32 s = (.error e, r) → parseVec p s = (.error e, r)) := by
  constructor
  · intro g s' e r hg hlt
    obtain ⟨n, hn, h⟩ := u32_group hg hlt s'
    show (parseU32 >>= _) _ = _ ↔ _
    rw [bind_of_ok h, parseN_error, hn]
  · intro s e r h
    exact bind_of_error h

theorem chain_map {p : P α} {f : α → β} {s : List Byte} {ys : List β} {r : List Byte} :
    Chain (p >>= fun x => pure (f x)) s ys r ↔ ∃ xs, Chain p s xs r ∧ ys = xs.map f := by
  constructor
  · intro h
    induction h with
    | nil => exact ⟨[], .nil, rfl⟩
    | cons h1 _ ih =>
      obtain ⟨x, s1, h2, h3⟩ := bind_ok_iff.mp h1
      obtain ⟨xs, h4, rfl⟩ := ih
      cases h3
      exact ⟨x :: xs, .cons h2 h4, rfl⟩
  · rintro ⟨xs, h, rfl⟩
    induction h with
    | nil => exact .nil
    | cons h1 _ ih => exact .cons (bind_ok_iff.mpr ⟨_, _, h1, rfl⟩) ih

/-- **C09, `UnwrappingVec<T>`.** As `Vec<T>`, each element unwrapped. -/
theorem C09_unwrappingVec (f : α → β) (p : P α) (s : List Byte) (ys : List β) (r : List Byte) :
    parseUnwrappingVec f p s = (.ok ys, r) ↔
      ∃ g s' xs, s = g ++ s' ∧ Group g ∧ uval g = xs.length ∧ xs.length < 2 ^ 32 ∧ Chain p s' xs r ∧ ys = xs.map f := by
  show parseVec (p >>= fun x => pure (f x)) s = _ ↔ _
  rw [C09_vec]
  constructor
  · rintro ⟨g, s', rfl, hg, hv, hl, hc⟩
    obtain ⟨xs, hc', rfl⟩ := chain_map.mp hc
    exact ⟨g, s', xs, rfl, hg, by simpa using hv, by simpa using hl, hc', rfl⟩
  · rintro ⟨g, s', xs, rfl, hg, hv, hl, hc, rfl⟩
    exact ⟨g, s', rfl, hg, by simpa using hv, by simpa using hl, chain_map.mpr ⟨xs, hc, rfl⟩⟩

example : parseVec parseI32 [0x03, 0x01, 0x7F, 0xC0, 0xBB, 0x78, 0x00] = (.ok [1, -1, BitVec.ofInt 32 (-123456)], [0x00]) ∧
    parseVec parseI32 [0x03, 0x01, 0x7F] = (.error .unexpectedEndOfFile, []) := by decide +kernel

/-! ## C10 -/

/-- **C10.** A compact vector is a count below 2^32 and that many runs (number, element); its value is the
concatenation of the runs, of length the sum of their lengths. -/
theorem C10_compactVec (p : P α) (s : List Byte) (xs : List α) (r : List Byte) :
    parseCompactVec p s = (.ok xs, r) ↔
      ∃ g s' runs, s = g ++ s' ∧ Group g ∧ uval g = runs.length ∧ runs.length < 2 ^ 32 ∧ RunChain p s' runs r ∧
        xs = runs.flatMap fun run => List.replicate run.1 run.2 := by
  show (parseU32 >>= _) s = _ ↔ _
  rw [bind_ok_iff]
  constructor
  · rintro ⟨n, s', h1, h2⟩
    obtain ⟨g, rfl, hg, hv⟩ := (u32_ok _ _ _).mp h1
    obtain ⟨runs, h3, h4, h5⟩ := (parseRuns_ok p _ _ _ _).mp h2
    exact ⟨g, s', runs, rfl, hg, by omega, by rw [h3]; exact n.isLt, h4, h5⟩
  · rintro ⟨g, s', runs, rfl, hg, hv, hl, hc, rfl⟩
    obtain ⟨n, hn, h⟩ := u32_group hg (by omega) s'
    exact ⟨n, s', h, (parseRuns_ok p _ _ _ _).mpr ⟨runs, by omega, hc, rfl⟩⟩

theorem C10_length (p : P α) (s : List Byte) (xs : List α) (r : List Byte) (h : parseCompactVec p s = (.ok xs, r)) :
    ∃ g s' runs, s = g ++ s' ∧ Group g ∧ uval g = runs.length ∧ RunChain p s' runs r ∧ xs.length = (runs.map Prod.fst).sum := by
  obtain ⟨g, s', runs, h1, h2, h3, _, h4, rfl⟩ := (C10_compactVec p s xs r).mp h
  exact ⟨g, s', runs, h1, h2, h3, h4, by simp [List.length_flatMap]⟩

example : parseCompactVec parseByte [0x03, 0x02, 0xAA, 0x00, 0xBB, 0x03, 0xCC, 0x99]
    = (.ok [0xAA, 0xAA, 0xCC, 0xCC, 0xCC], [0x99]) := by decide +kernel
example : RunChain parseByte [0x02, 0xAA, 0x00, 0xBB, 0x99] [(2, 0xAA), (0, 0xBB)] [0x99] :=
  .cons (g := [0x02]) (by decide) (by decide) rfl (.cons (g := [0x00]) (by decide) (by decide) rfl .nil)

/-! ## C11 -/

/-- **C11.** A sized element whose size `n` (a group `g` below 2^32) has been read hands only the next `n` bytes to its content
parser `p`, and leaves everything after them untouched in any case. It succeeds exactly if all `n` bytes exist and
`p` succeeds on them consuming all; an error of `p` is passed on; if `p` succeeds on less than `n` bytes the error
is `SizeMissmatch`. -/
theorem C11_sized {p : P α} (hp : Forward p) {g : List Byte} (hg : Group g) (hlt : uval g < 2 ^ 32) (t : List Byte) :
    (∀ x r, parseSized p (g ++ t) = (.ok x, r) ↔
      uval g ≤ t.length ∧ r = t.drop (uval g) ∧ p (t.take (uval g)) = (.ok x, [])) ∧
    (∃ q, (parseSized p (g ++ t)).2 = q ++ t.drop (uval g) ∧ q <:+ t.take (uval g)) ∧
    (∀ e q, p (t.take (uval g)) = (.error e, q) → parseSized p (g ++ t) = (.error e, q ++ t.drop (uval g))) ∧
    (∀ x q, p (t.take (uval g)) = (.ok x, q) → ¬ (q = [] ∧ uval g ≤ t.length) →
      parseSized p (g ++ t) = (.error .sizeMissmatch, q ++ t.drop (uval g))) := by
  obtain ⟨n, hn, h⟩ := u32_group hg hlt t
  have hs : parseSized p (g ++ t) = sizedBody p (uval g) t := by
    rw [parseSized_eq, bind_of_ok h, hn]
  rw [hs]
  have hf := hp (t.take (uval g))
  refine ⟨fun x r => ?_, ?_, ?_, ?_⟩
  · rw [sizedBody_ok hp]
    constructor
    · rintro ⟨b, rfl, hl, hb⟩
      rw [← hl]
      refine ⟨by simp, by simp, by simpa using hb⟩
    · rintro ⟨h1, rfl, h2⟩
      exact ⟨t.take (uval g), by simp, by rw [List.length_take]; omega, h2⟩
  · refine ⟨(p (t.take (uval g))).2, ?_, hf⟩
    unfold sizedBody
    rcases p (t.take (uval g)) with ⟨e | x, q⟩
    · rfl
    · simp only; split <;> rfl
  · intro e q hq
    unfold sizedBody
    rw [hq]
  · intro x q hq hne
    unfold sizedBody
    rw [hq]
    rw [hq] at hf
    have hl := hf.length_le
    simp only [List.length_take] at hl
    simp only
    rw [if_pos]
    intro he
    rw [List.length_take] at he
    apply hne
    by_cases hle : uval g ≤ t.length
    · refine ⟨List.eq_nil_of_length_eq_zero ?_, hle⟩
      rw [Nat.min_eq_left hle] at he hl; omega
    · rw [Nat.min_eq_right (by omega)] at he hl
      omega

example : parseSized (parseVec parseByte) [0x03, 0x02, 0xAA, 0xBB, 0xCC] = (.ok [0xAA, 0xBB], [0xCC]) ∧
    parseSized (parseVec parseByte) [0x04, 0x02, 0xAA, 0xBB, 0xCC] = (.error .sizeMissmatch, [0xCC]) ∧
    parseSized (parseVec parseByte) [0x02, 0x02, 0xAA, 0xBB, 0xCC] = (.error .unexpectedEndOfFile, [0xBB, 0xCC]) ∧
    parseSized (parseVec parseByte) [0x05, 0x02, 0xAA, 0xBB] = (.error .sizeMissmatch, []) := by decide +kernel
example : Forward (parseVec parseByte) := (good_vec good_byte).forward

/-! ## C12 -/

/-- **C12.** `Sized<Consume>` of size `n`. -/
theorem C12_consume {g : List Byte} (hg : Group g) (hlt : uval g < 2 ^ 32) (t : List Byte) :
    (uval g ≤ t.length → parseSized parseConsume (g ++ t) = (.ok (uval g), t.drop (uval g))) ∧
    (t.length < uval g → parseSized parseConsume (g ++ t) = (.error .sizeMissmatch, [])) := by
  have hf : Forward parseConsume := fun s => List.nil_suffix
  obtain ⟨h1, _, _, h4⟩ := C11_sized hf hg hlt t
  constructor
  · intro h
    refine (h1 _ _).mpr ⟨h, rfl, ?_⟩
    simp [parseConsume, h]
  · intro h
    have := h4 (t.take (uval g)).length [] rfl (by omega)
    rw [this, List.drop_eq_nil_of_le (by omega)]; rfl

example : parseSized parseConsume [0x03, 1, 2, 3, 4] = (.ok 3, [4]) ∧
    parseSized parseConsume [0x03, 1, 2] = (.error .sizeMissmatch, []) := by decide +kernel

end

end Whasm
