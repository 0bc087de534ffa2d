import Verif.Lemmas.Leb

/-!
# More on LEB-128: unterminated streams, encoders, the W3C grammar
-/

namespace Whasm
open Spec

/-! ## Unterminated streams -/

theorem unterminated_cons {b : Byte} {s : List Byte} (h : Unterminated (b :: s)) :
    128 ≤ b.toNat ∧ Unterminated s :=
  ⟨h b (by simp), fun c hc => h c (by simp [hc])⟩

theorem group_append {s : List Byte} (h : Unterminated s) {b : Byte} (hb : b.toNat < 128) : Group (s ++ [b]) := by
  induction s with
  | nil => exact hb
  | cons c s ih =>
    obtain ⟨h1, h2⟩ := unterminated_cons h
    cases s with
    | nil => exact ⟨h1, hb⟩
    | cons d s => exact ⟨h1, ih h2⟩

/-- On an unterminated stream the unsigned loop fails, either at the end of the input, in which case one more
byte `0x00` completes it, or as out of range, whatever follows. -/
theorem unsignedLoop_unterminated {N : Nat} (hN : 7 ≤ N) : ∀ (s : List Byte) (shift : Nat) (r : BitVec N) (a : Nat),
    (shift < N → r = BitVec.ofNat N a ∧ a < 2 ^ shift) → Unterminated s →
      (unsignedLoop shift r s = (.error .unexpectedEndOfFile, []) ∧
        ∃ v, unsignedLoop shift r (s ++ [0]) = (.ok v, [])) ∨
      (∃ mid, ∀ t, unsignedLoop shift r (s ++ t) = (.error .outOfRangeUnsignedInteger, mid ++ t))
  | [], shift, r, a, h, _ => by
    left
    refine ⟨rfl, ?_⟩
    by_cases hs : shift < N
    · obtain ⟨rfl, ha⟩ := h hs
      refine ⟨BitVec.ofNat N (a + (0 : Byte).toNat % 128 * 2 ^ shift), ?_⟩
      rw [List.nil_append, unsignedLoop_cons hN hs ha, if_pos, if_pos] <;> simp <;> exact Nat.two_pow_pos _
    · refine ⟨r, ?_⟩
      rw [List.nil_append, unsignedLoop_pad (by omega)]
      simp
  | b :: s, shift, r, a, h, hu => by
    obtain ⟨hb, hu⟩ := unterminated_cons hu
    by_cases hs : shift < N
    · obtain ⟨rfl, ha⟩ := h hs
      simp only [List.cons_append, unsignedLoop_cons hN hs ha, if_neg (by omega : ¬ b.toNat < 128)]
      have hp : 2 ^ (shift + 7) = 128 * 2 ^ shift := by rw [Nat.pow_add]; omega
      have ha' : a + b.toNat % 128 * 2 ^ shift < 2 ^ (shift + 7) := by
        have : (b.toNat % 128 + 1) * 2 ^ shift ≤ 128 * 2 ^ shift :=
          Nat.mul_le_mul_right _ (Nat.mod_lt _ (by decide))
        rw [Nat.add_mul] at this; omega
      split
      · exact unsignedLoop_unterminated hN s _ _ _ (fun _ => ⟨rfl, ha'⟩) hu
      · right; exact ⟨s, fun _ => rfl⟩
    · simp only [List.cons_append, unsignedLoop_pad (by omega : N ≤ shift), if_neg (by omega : ¬ b.toNat < 128)]
      split
      · exact unsignedLoop_unterminated hN s shift r a h hu
      · right; exact ⟨s, fun _ => rfl⟩

theorem parseUnsigned_unterminated {N : Nat} (hN : 7 ≤ N) (s : List Byte) (hu : Unterminated s) :
    (parseUnsigned N s = (.error .unexpectedEndOfFile, []) ∧ ∃ v, parseUnsigned N (s ++ [0]) = (.ok v, [])) ∨
    (∃ mid, ∀ t, parseUnsigned N (s ++ t) = (.error .outOfRangeUnsignedInteger, mid ++ t)) :=
  unsignedLoop_unterminated hN s 0 0#N 0 (fun _ => ⟨rfl, by decide⟩) hu

/-- The signed analogue; the completing byte is `0x00` or `0x7F`. -/
theorem signedLoop_unterminated {N : Nat} (hN : 7 ≤ N) : ∀ (s : List Byte) (shift : Nat) (r : BitVec N) (a : Nat)
    (pos : Bool), (shift < N → r = BitVec.ofNat N a ∧ a < 2 ^ shift) → Unterminated s →
      (signedLoop shift r pos s = (.error .unexpectedEndOfFile, []) ∧
        ∃ b : Byte, b.toNat < 128 ∧ ∃ v, signedLoop shift r pos (s ++ [b]) = (.ok v, [])) ∨
      (∃ mid, ∀ t, signedLoop shift r pos (s ++ t) = (.error .outOfRangeSignedInteger, mid ++ t))
  | [], shift, r, a, pos, h, _ => by
    left
    refine ⟨rfl, ?_⟩
    by_cases hs : shift < N
    · obtain ⟨rfl, ha⟩ := h hs
      refine ⟨0, by decide, BitVec.ofInt N (a + s7 ((0 : Byte).toNat % 128) * 2 ^ shift), ?_⟩
      rw [List.nil_append, signedLoop_cons hN hs ha, if_pos, if_pos (by decide)]
      have : (0 : Int) < 2 ^ (N - shift - 1) := Int.pow_pos (by decide)
      simp [InRange, s7]; omega
    · cases pos
      · refine ⟨0x7F, by decide, r, ?_⟩
        rw [List.nil_append, signedLoop_pad (by omega)]; simp
      · refine ⟨0, by decide, r, ?_⟩
        rw [List.nil_append, signedLoop_pad (by omega)]; simp
  | b :: s, shift, r, a, pos, h, hu => by
    obtain ⟨hb, hu⟩ := unterminated_cons hu
    by_cases hs : shift < N
    · obtain ⟨rfl, ha⟩ := h hs
      simp only [List.cons_append, signedLoop_cons hN hs ha, if_neg (by omega : ¬ b.toNat < 128)]
      have hp : 2 ^ (shift + 7) = 128 * 2 ^ shift := by rw [Nat.pow_add]; omega
      have ha' : a + b.toNat % 128 * 2 ^ shift < 2 ^ (shift + 7) := by
        have : (b.toNat % 128 + 1) * 2 ^ shift ≤ 128 * 2 ^ shift :=
          Nat.mul_le_mul_right _ (Nat.mod_lt _ (by decide))
        rw [Nat.add_mul] at this; omega
      split
      · exact signedLoop_unterminated hN s _ _ _ _ (fun _ => ⟨rfl, ha'⟩) hu
      · right; exact ⟨s, fun _ => rfl⟩
    · simp only [List.cons_append, signedLoop_pad (by omega : N ≤ shift), if_neg (by omega : ¬ b.toNat < 128)]
      by_cases hc : b.toNat % 128 = (if pos = true then 0 else 127)
      · simp only [if_pos hc]; exact signedLoop_unterminated hN s shift r a pos h hu
      · simp only [if_neg hc]; right; exact ⟨s, fun _ => rfl⟩

theorem parseSigned_unterminated {N : Nat} (hN : 7 ≤ N) (s : List Byte) (hu : Unterminated s) :
    (parseSigned N s = (.error .unexpectedEndOfFile, []) ∧
      ∃ b : Byte, b.toNat < 128 ∧ ∃ v, parseSigned N (s ++ [b]) = (.ok v, [])) ∨
    (∃ mid, ∀ t, parseSigned N (s ++ t) = (.error .outOfRangeSignedInteger, mid ++ t)) :=
  signedLoop_unterminated hN s 0 0#N 0 true (fun _ => ⟨rfl, by decide⟩) hu

/-! ## Encoders -/

theorem toNat_ofNat_lt {n : Nat} (h : n < 256) : (UInt8.ofNat n).toNat = n := by
  simp; omega

theorem group_ne_nil {bs : List Byte} (h : Group bs) : bs ≠ [] := by
  rintro rfl; exact h

theorem group_cons {b : Byte} {bs : List Byte} (hb : 128 ≤ b.toNat) (h : Group bs) : Group (b :: bs) := by
  cases bs with
  | nil => exact h.elim
  | cons c bs => exact ⟨hb, h⟩

theorem encU_spec (n : Nat) : Group (encU n) ∧ uval (encU n) = n := by
  induction n using encU.induct with
  | case1 n h => rw [encU, if_pos h]; simp only [Group, uval, toNat_ofNat_lt (by omega : n < 256)]; omega
  | case2 n h ih =>
    rw [encU, if_neg h]
    refine ⟨group_cons ?_ ih.1, ?_⟩
    · rw [toNat_ofNat_lt (by omega)]; omega
    · rw [uval, ih.2, toNat_ofNat_lt (by omega)]; omega

theorem sval_more {b : Byte} {bs : List Byte} (h : bs ≠ []) :
    sval (b :: bs) = (b.toNat % 128 : Nat) + 128 * sval bs := by
  cases bs with
  | nil => exact (h rfl).elim
  | cons c bs => rfl

theorem encS_spec (i : Int) : Group (encS i) ∧ sval (encS i) = i := by
  induction i using encS.induct with
  | case1 i h =>
    rw [encS, if_pos h]; simp only [Group, sval, toNat_ofNat_lt (by omega : (i % 128).toNat < 256)]
    refine ⟨by omega, ?_⟩; split <;> omega
  | case2 i h ih =>
    rw [encS, if_neg h]
    refine ⟨group_cons ?_ ih.1, ?_⟩
    · rw [toNat_ofNat_lt (by omega)]; omega
    · rw [sval_more (group_ne_nil ih.1), ih.2, toNat_ofNat_lt (by omega)]; omega

theorem encU_minimal (n : Nat) : ∀ bs : List Byte, Group bs → uval bs = n → (encU n).length ≤ bs.length := by
  induction n using encU.induct with
  | case1 n h =>
    intro bs hg _; rw [encU, if_pos h]
    cases bs with
    | nil => exact hg.elim
    | cons b bs => simp
  | case2 n h ih =>
    intro bs hg hv; rw [encU, if_neg h]
    match bs, hg, hv with
    | [b], hg, hv => simp only [uval] at hv; omega
    | b :: c :: bs, hg, hv =>
      have := ih (c :: bs) hg.2 (by rw [uval] at hv; omega)
      simp only [List.length_cons] at this ⊢; omega

theorem encS_minimal (i : Int) : ∀ bs : List Byte, Group bs → sval bs = i → (encS i).length ≤ bs.length := by
  induction i using encS.induct with
  | case1 n h =>
    intro bs hg _; rw [encS, if_pos h]
    cases bs with
    | nil => exact hg.elim
    | cons b bs => simp
  | case2 n h ih =>
    intro bs hg hv; rw [encS, if_neg h]
    match bs, hg, hv with
    | [b], hg, hv => simp only [sval] at hv; split at hv <;> omega
    | b :: c :: bs, hg, hv =>
      have := ih (c :: bs) hg.2 (by rw [sval] at hv; omega)
      simp only [List.length_cons] at this ⊢; omega

/-- The bytes that follow the (now non-final) last byte of a padded encoding. -/
theorem padTail_group {fill : Nat} (hf : fill < 128) (k : Nat) :
    Group (List.replicate k (UInt8.ofNat (fill + 128)) ++ [UInt8.ofNat fill]) := by
  apply group_append
  · intro b hb
    rw [(List.mem_replicate.mp hb).2, toNat_ofNat_lt (by omega)]; omega
  · rw [toNat_ofNat_lt (by omega)]; exact hf

theorem padTail_uval (k : Nat) :
    uval (List.replicate k (UInt8.ofNat (0 + 128)) ++ [UInt8.ofNat 0]) = 0 := by
  induction k with
  | zero => rfl
  | succ k ih => rw [List.replicate_succ, List.cons_append, uval, ih]; rfl

theorem padTail_sval0 (k : Nat) :
    sval (List.replicate k (UInt8.ofNat (0 + 128)) ++ [UInt8.ofNat 0]) = 0 := by
  induction k with
  | zero => rfl
  | succ k ih => rw [List.replicate_succ, List.cons_append, sval_more (by simp), ih]; rfl

theorem padTail_sval1 (k : Nat) :
    sval (List.replicate k (UInt8.ofNat (127 + 128)) ++ [UInt8.ofNat 127]) = -1 := by
  induction k with
  | zero => rfl
  | succ k ih => rw [List.replicate_succ, List.cons_append, sval_more (by simp), ih]; rfl

theorem pad_cons {fill : Nat} {b c : Byte} {bs : List Byte} {k : Nat} :
    pad fill (b :: c :: bs) k = b :: pad fill (c :: bs) k := by
  cases k with
  | zero => rfl
  | succ k => simp [pad, List.getLastD_eq_getLast?, List.getLast?_cons]

theorem pad_ne_nil {fill : Nat} {c : Byte} {bs : List Byte} {k : Nat} : pad fill (c :: bs) k ≠ [] := by
  cases k <;> simp [pad]

theorem pad_group {fill : Nat} (hf : fill < 128) (k : Nat) : ∀ bs : List Byte, Group bs → Group (pad fill bs k)
  | [], h => h.elim
  | [b], h => by
    cases k with
    | zero => exact h
    | succ k =>
      simp only [pad, List.dropLast_singleton, List.nil_append, List.getLastD_cons, List.cons_append]
      exact group_cons (by rw [toNat_ofNat_lt (by simp; omega)]; omega) (padTail_group hf k)
  | b :: c :: bs, h => by
    rw [pad_cons]; exact group_cons h.1 (pad_group hf k (c :: bs) h.2)

theorem pad_uval (k : Nat) : ∀ bs : List Byte, Group bs → uval (pad 0 bs k) = uval bs
  | [], h => h.elim
  | [b], h => by
    have hb : b.toNat < 128 := h
    cases k with
    | zero => rfl
    | succ k =>
      simp only [pad, List.dropLast_singleton, List.nil_append, List.getLastD_cons, List.cons_append]
      rw [uval, padTail_uval, toNat_ofNat_lt (by simp; omega)]; simp [uval]
  | b :: c :: bs, h => by rw [pad_cons, uval, uval, pad_uval k (c :: bs) h.2]

theorem sval_single_sign {b : Byte} (hb : b.toNat < 128) :
    sval [b] = if 0 ≤ sval [b] then (b.toNat : Int) else (b.toNat : Int) - 128 := by
  simp only [sval, Nat.mod_eq_of_lt hb]
  split <;> split <;> omega

theorem pad_sval {fill : Nat} (k : Nat) : ∀ bs : List Byte, Group bs → fill = (if 0 ≤ sval bs then 0 else 127) →
    sval (pad fill bs k) = sval bs
  | [], h, _ => h.elim
  | [b], h, hf => by
    have hb : b.toNat < 128 := h
    cases k with
    | zero => rfl
    | succ k =>
      simp only [pad, List.dropLast_singleton, List.nil_append, List.getLastD_cons, List.cons_append]
      rw [sval_more (by simp), toNat_ofNat_lt (by simp; omega), sval_single_sign hb, hf]
      have e : ((List.getLastD [] b).toNat % 128 + 128) % 128 = b.toNat := by simp; omega
      rw [e]
      split
      · rw [padTail_sval0]; omega
      · rw [padTail_sval1]; omega
  | b :: c :: bs, h, hf => by
    rw [pad_cons, sval_more pad_ne_nil, sval_more (by simp), pad_sval k (c :: bs) h.2]
    rw [hf, sval_more (by simp)]
    have : b.toNat % 128 < 128 := Nat.mod_lt _ (by decide)
    split <;> split <;> omega

/-! ## The W3C grammar -/

theorem UN_group {N n : Nat} {bs : List Byte} (h : UN N bs n) (h0 : 0 < N) :
    Group bs ∧ uval bs = n ∧ n < 2 ^ N ∧ 7 * bs.length < N + 7 := by
  induction h with
  | last h1 h2 => refine ⟨h1, ?_, h2, ?_⟩ <;> simp only [uval, List.length_singleton] <;> omega
  | @more N b bs m hb hN _ ih =>
    obtain ⟨h1, h2, h3, h4⟩ := ih (by omega)
    have hb' := b.toNat_lt
    have hp : 2 ^ N = 2 ^ (N - 7) * 2 ^ 7 := by rw [← Nat.pow_add]; congr 1; omega
    refine ⟨group_cons hb h1, ?_, ?_, ?_⟩
    · rw [uval, h2]; omega
    · omega
    · simp only [List.length_cons]; omega

theorem UN_of_group : ∀ (bs : List Byte) (N : Nat), Group bs → uval bs < 2 ^ N → 7 * bs.length < N + 7 →
    UN N bs (uval bs)
  | [], _, h, _, _ => h.elim
  | [b], N, h, hv, _ => by
    have hb : b.toNat < 128 := h
    have e : uval [b] = b.toNat := by simp only [uval]; omega
    rw [e] at hv ⊢
    exact .last hb hv
  | b :: c :: bs, N, h, hv, hl => by
    simp only [List.length_cons] at hl
    have hb' := b.toNat_lt
    have hp : 2 ^ N = 2 ^ (N - 7) * 2 ^ 7 := by rw [← Nat.pow_add]; congr 1; omega
    have e : uval (b :: c :: bs) = 2 ^ 7 * uval (c :: bs) + (b.toNat - 2 ^ 7) := by
      have := h.1
      rw [uval]; omega
    rw [e] at hv ⊢
    refine .more h.1 (by omega) (UN_of_group (c :: bs) (N - 7) h.2 (by omega) ?_)
    simp only [List.length_cons]; omega

theorem SN_group {N : Nat} {i : Int} {bs : List Byte} (h : SN N bs i) (h0 : 0 < N) :
    Group bs ∧ sval bs = i ∧ InRange N i ∧ 7 * bs.length < N + 7 := by
  induction h with
  | @pos N b h1 h2 =>
    have h3 : (b.toNat : Int) < 2 ^ (N - 1) := by exact_mod_cast h2
    refine ⟨show b.toNat < 128 by omega, ?_, ⟨?_, h3⟩, ?_⟩
    · simp only [sval]; split <;> omega
    · omega
    · simp only [List.length_singleton]; omega
  | @neg N b h1 h2 h3 =>
    have hp : (0 : Int) < 2 ^ (N - 1) := Int.pow_pos (by decide)
    refine ⟨show b.toNat < 128 by omega, ?_, ⟨?_, ?_⟩, ?_⟩
    · simp only [sval]; split <;> omega
    · omega
    · omega
    · simp only [List.length_singleton]; omega
  | @more N b bs m hb hN _ ih =>
    obtain ⟨h1, h2, h3, h4⟩ := ih (by omega)
    have hb' := b.toNat_lt
    refine ⟨group_cons hb h1, ?_, ?_, ?_⟩
    · rw [sval_more (group_ne_nil h1), h2]; omega
    · have := (inRange_scale (w := N - 7) (s := 7) (a := (b.toNat : Int) - 2 ^ 7) (x := m) (by omega)
        (by omega) (by omega)).mpr h3
      rw [show N - 7 + 7 = N by omega] at this
      rw [show (2 : Int) ^ 7 * m + ((b.toNat : Int) - 2 ^ 7) = (b.toNat : Int) - 2 ^ 7 + m * 2 ^ 7 by omega]
      exact this
    · simp only [List.length_cons]; omega

theorem SN_of_group : ∀ (bs : List Byte) (N : Nat), Group bs → InRange N (sval bs) → 7 * bs.length < N + 7 →
    SN N bs (sval bs)
  | [], _, h, _, _ => h.elim
  | [b], N, h, hv, _ => by
    have hb : b.toNat < 128 := h
    have e : sval [b] = if b.toNat < 64 then (b.toNat : Int) else (b.toNat : Int) - 2 ^ 7 := by
      simp only [sval, Nat.mod_eq_of_lt hb]; rfl
    rw [e] at hv ⊢
    by_cases h64 : b.toNat < 64
    · rw [if_pos h64] at hv ⊢
      exact .pos h64 (by exact_mod_cast hv.2)
    · rw [if_neg h64] at hv ⊢
      exact .neg (by omega) hb (by have := hv.1; omega)
  | b :: c :: bs, N, h, hv, hl => by
    simp only [List.length_cons] at hl
    have hb' := b.toNat_lt
    have hb1 := h.1
    have e : sval (b :: c :: bs) = 2 ^ 7 * sval (c :: bs) + ((b.toNat : Int) - 2 ^ 7) := by
      rw [sval]; omega
    rw [e] at hv ⊢
    refine .more h.1 (by omega) (SN_of_group (c :: bs) (N - 7) h.2 ?_ ?_)
    · have := (inRange_scale (w := N - 7) (s := 7) (a := (b.toNat : Int) - 2 ^ 7) (x := sval (c :: bs)) (by omega)
        (by omega) (by omega)).mp
      rw [show N - 7 + 7 = N by omega] at this
      apply this
      rw [show (b.toNat : Int) - 2 ^ 7 + sval (c :: bs) * 2 ^ 7 = 2 ^ 7 * sval (c :: bs) + ((b.toNat : Int) - 2 ^ 7) by omega]
      exact hv
    · simp only [List.length_cons]; omega

end Whasm
