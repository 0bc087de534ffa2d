import Verif.Lemmas.Parser

/-!
# Parsers of elements: integers, floats, vectors, sized elements
-/

namespace Whasm
open Spec

/-! ## Byte-wise loops -/

section
variable {σ α : Type}

/-- A parser that reads byte after byte, deciding after each whether to stop. -/
structure Stepping (loop : σ → P α) : Prop where
  nil : ∀ st, loop st [] = (.error .unexpectedEndOfFile, [])
  cons : ∀ st b, (∃ res, res ≠ .error .panic ∧ res ≠ .error .fuel ∧ ∀ rest, loop st (b :: rest) = (res, rest)) ∨
    (∃ st', ∀ rest, loop st (b :: rest) = loop st' rest)

theorem Stepping.good {loop : σ → P α} (h : Stepping loop) (st : σ) : Good (loop st) where
  forward s := by
    induction s generalizing st with
    | nil => rw [h.nil]; exact List.suffix_refl _
    | cons b s ih =>
      rcases h.cons st b with ⟨res, _, _, h1⟩ | ⟨st', h1⟩
      · rw [h1]; exact List.suffix_cons b s
      · rw [h1]; exact (ih st').trans (List.suffix_cons b s)
  stream s := by
    induction s generalizing st with
    | nil => left; exact h.nil st
    | cons b s ih =>
      rcases h.cons st b with ⟨res, _, _, h1⟩ | ⟨st', h1⟩
      · right; intro t; rw [h1, List.cons_append, h1]
      · rw [h1]
        rcases ih st' with h2 | h2
        · left; exact h2
        · right; intro t; rw [List.cons_append, h1, h2]
  exact c := by
    induction c generalizing st with
    | nil =>
      intro r x hx
      exfalso
      rw [List.nil_append] at hx
      cases r with
      | nil => rw [h.nil] at hx; cases hx
      | cons b r =>
        have hf : ∀ s st, ((loop st s).2).length ≤ s.length := by
          intro s
          induction s with
          | nil => intro st; rw [h.nil]; exact Nat.le_refl _
          | cons b s ih =>
            intro st
            rcases h.cons st b with ⟨res, _, _, h1⟩ | ⟨st', h1⟩
            · rw [h1]; exact Nat.le_succ _
            · rw [h1]; exact Nat.le_succ_of_le (ih st')
        rcases h.cons st b with ⟨res, _, _, h1⟩ | ⟨st', h1⟩
        · rw [h1] at hx
          have := congrArg (fun z => z.2.length) hx
          simp at this
        · rw [h1] at hx
          have := hf r st'
          rw [hx] at this
          simp at this
          omega
    | cons b c ih =>
      intro r x hx
      rw [List.cons_append] at hx
      rcases h.cons st b with ⟨res, _, _, h1⟩ | ⟨st', h1⟩
      · rw [h1] at hx
        have e1 := congrArg Prod.fst hx
        have e2 := congrArg Prod.snd hx
        simp only at e1 e2
        have : c = [] := by simpa using e2
        subst this
        rw [h1, e1]
      · rw [h1] at hx ⊢
        exact ih st' r x hx
  noPanic s := by
    induction s generalizing st with
    | nil => rw [h.nil]; intro hc; cases hc
    | cons b s ih =>
      rcases h.cons st b with ⟨res, h0, _, h1⟩ | ⟨st', h1⟩
      · rw [h1]; exact h0
      · rw [h1]; exact ih st'

theorem Stepping.noFuel {loop : σ → P α} (h : Stepping loop) (st : σ) : NoFuel (loop st) := by
  intro s
  induction s generalizing st with
  | nil => rw [h.nil]; intro hc; cases hc
  | cons b s ih =>
    rcases h.cons st b with ⟨res, _, h0, h1⟩ | ⟨st', h1⟩
    · rw [h1]; exact h0
    · rw [h1]; exact ih st'

end

theorem stepping_byte : Stepping (fun _ : Unit => parseByte) :=
  ⟨fun _ => rfl, fun _ b => .inl ⟨.ok b, (by intro h; cases h), (by intro h; cases h), fun _ => rfl⟩⟩

theorem good_byte : Good parseByte := stepping_byte.good ()
theorem noFuel_byte : NoFuel parseByte := stepping_byte.noFuel ()

theorem stepping_unsigned (N : Nat) : Stepping (fun st : Nat × BitVec N => unsignedLoop st.1 st.2) where
  nil _ := rfl
  cons st b := by
    obtain ⟨shift, r⟩ := st
    simp only [unsignedLoop]
    by_cases hs : shift ≥ N
    · simp only [hs, if_true]
      by_cases h1 : b &&& 0x7F ≠ 0
      · simp only [if_pos h1]; exact .inl ⟨_, (by intro h; cases h), (by intro h; cases h), fun _ => rfl⟩
      · simp only [if_neg h1]
        by_cases h2 : b &&& 0x80 = 0
        · simp only [h2, if_true]; exact .inl ⟨_, (by intro h; cases h), (by intro h; cases h), fun _ => rfl⟩
        · simp only [h2, if_false]; exact .inr ⟨(shift, r), fun _ => rfl⟩
    · simp only [hs, if_false, shl?, ushr?, Nat.not_le.mp hs, if_true]
      split
      · exact .inl ⟨_, (by intro h; cases h), (by intro h; cases h), fun _ => rfl⟩
      · by_cases h2 : b &&& 0x80 = 0
        · simp only [h2, if_true]; exact .inl ⟨_, (by intro h; cases h), (by intro h; cases h), fun _ => rfl⟩
        · simp only [h2, if_false]; exact .inr ⟨(_, _), fun _ => rfl⟩

theorem good_unsigned (N : Nat) : Good (parseUnsigned N) := (stepping_unsigned N).good (0, 0#N)
theorem noFuel_unsigned (N : Nat) : NoFuel (parseUnsigned N) := (stepping_unsigned N).noFuel (0, 0#N)

theorem stepping_signed (N : Nat) :
    Stepping (fun st : Nat × BitVec N × Bool => signedLoop st.1 st.2.1 st.2.2) where
  nil _ := rfl
  cons st b := by
    obtain ⟨shift, r, pos⟩ := st
    simp only [signedLoop]
    by_cases hs : shift ≥ N
    · simp only [hs, if_true]
      split
      · by_cases h2 : b &&& 0x80 = 0
        · simp only [h2, if_true]; exact .inl ⟨_, (by intro h; cases h), (by intro h; cases h), fun _ => rfl⟩
        · simp only [h2, if_false]; exact .inr ⟨(shift, r, pos), fun _ => rfl⟩
      · exact .inl ⟨_, (by intro h; cases h), (by intro h; cases h), fun _ => rfl⟩
    · simp only [hs, if_false, shl?, sshr?, Nat.not_le.mp hs, if_true]
      split
      · exact .inl ⟨_, (by intro h; cases h), (by intro h; cases h), fun _ => rfl⟩
      · by_cases h2 : b &&& 0x80 = 0
        · simp only [h2, if_true]
          split
          next h => simp only [h.1, if_true]; exact .inl ⟨_, (by intro h; cases h), (by intro h; cases h), fun _ => rfl⟩
          next => exact .inl ⟨_, (by intro h; cases h), (by intro h; cases h), fun _ => rfl⟩
        · simp only [h2, if_false]; exact .inr ⟨(_, _, _), fun _ => rfl⟩

theorem good_signed (N : Nat) : Good (parseSigned N) := (stepping_signed N).good (0, 0#N, true)
theorem noFuel_signed (N : Nat) : NoFuel (parseSigned N) := (stepping_signed N).noFuel (0, 0#N, true)

theorem parses_unsigned {N : Nat} (hN : 8 ≤ N) :
    Parses (parseUnsigned N) fun b v => Group b ∧ uval b = v.toNat := by
  intro s v r
  constructor
  · intro h
    rcases group_or_unterminated s with ⟨bs, rest, rfl, hg⟩ | hu
    · rcases parseUnsigned_group (by omega : 7 ≤ N) hg rest with ⟨h1, h2⟩ | ⟨_, _, h2⟩
      · rw [h] at h2; cases h2
        exact ⟨bs, rfl, hg, by rw [BitVec.toNat_ofNat, Nat.mod_eq_of_lt h1]⟩
      · rw [h] at h2; cases h2
    · rcases parseUnsigned_unterminated (by omega : 7 ≤ N) s hu with ⟨h2, _⟩ | ⟨mid, h2⟩
      · rw [h] at h2; cases h2
      · have := h2 []; rw [List.append_nil, h] at this; cases this
  · rintro ⟨b, rfl, hg, hv⟩
    rcases parseUnsigned_group (by omega : 7 ≤ N) hg r with ⟨_, h2⟩ | ⟨h1, _⟩
    · rw [h2, hv, BitVec.ofNat_toNat, BitVec.setWidth_eq]
    · have := v.isLt; omega

theorem parses_signed {N : Nat} (hN : 8 ≤ N) :
    Parses (parseSigned N) fun b v => Group b ∧ sval b = v.toInt := by
  intro s v r
  constructor
  · intro h
    rcases group_or_unterminated s with ⟨bs, rest, rfl, hg⟩ | hu
    · rcases parseSigned_group (by omega : 7 ≤ N) hg rest with ⟨h1, h2⟩ | ⟨_, _, h2⟩
      · rw [h] at h2; cases h2
        exact ⟨bs, rfl, hg, by rw [BitVec.toInt_ofInt, inRange_bmod (by omega) h1]⟩
      · rw [h] at h2; cases h2
    · rcases parseSigned_unterminated (by omega : 7 ≤ N) s hu with ⟨h2, _⟩ | ⟨mid, h2⟩
      · rw [h] at h2; cases h2
      · have := h2 []; rw [List.append_nil, h] at this; cases this
  · rintro ⟨b, rfl, hg, hv⟩
    rcases parseSigned_group (by omega : 7 ≤ N) hg r with ⟨_, h2⟩ | ⟨h1, _⟩
    · rw [h2, hv, BitVec.ofInt_toInt]
    · exact (h1 (by rw [hv]; exact ⟨BitVec.le_toInt v, BitVec.toInt_lt⟩)).elim

theorem parses_u32 : Parses parseU32 Dialect.code.u32 := parses_unsigned (by decide)
theorem parses_s32 : Parses parseI32 Dialect.code.s32 := parses_signed (by decide)
theorem parses_s64 : Parses parseI64 Dialect.code.s64 := parses_signed (by decide)
theorem good_u32 : Good parseU32 := good_unsigned 32
theorem noFuel_u32 : NoFuel parseU32 := noFuel_unsigned 32

/-! ## Counted sequences -/

section
variable {α β : Type}

theorem good_parseN {p : P α} (hp : Good p) (n : Nat) : Good (parseN n p) := by
  induction n with
  | zero => exact good_pure []
  | succ n ih => exact hp.bind fun x => ih.bind fun xs => good_pure _

theorem noFuel_parseN {p : P α} (hp : NoFuel p) (n : Nat) : NoFuel (parseN n p) := by
  induction n with
  | zero => exact noFuel_pure []
  | succ n ih => exact hp.bind fun x => ih.bind fun xs => noFuel_pure _

theorem parses_parseN {p : P α} {G : List Byte → α → Prop} (hp : Parses p G) (n : Nat) :
    Parses (parseN n p) fun b xs => xs.length = n ∧ GSeq G b xs := by
  induction n with
  | zero =>
    refine (parses_pure []).congr fun b y => ?_
    constructor
    · rintro ⟨rfl, rfl⟩; exact ⟨rfl, .nil⟩
    · rintro ⟨h1, h2⟩
      cases h2 with
      | nil => exact ⟨rfl, rfl⟩
      | cons _ _ => simp at h1
  | succ n ih =>
    refine (Parses.bind hp fun x => Parses.map (fun xs => x :: xs) ih).congr fun b y => ?_
    constructor
    · rintro ⟨b1, x, b2, h1, ⟨xs, ⟨h2, h3⟩, rfl⟩, rfl⟩
      exact ⟨by simp [h2], .cons h1 h3⟩
    · rintro ⟨h1, h2⟩
      cases h2 with
      | nil => simp at h1
      | cons h3 h4 => exact ⟨_, _, _, h3, ⟨_, ⟨by simpa using h1, h4⟩, rfl⟩, rfl⟩

theorem good_vec {p : P α} (hp : Good p) : Good (parseVec p) := good_u32.bind fun n => good_parseN hp n.toNat
theorem noFuel_vec {p : P α} (hp : NoFuel p) : NoFuel (parseVec p) := noFuel_u32.bind fun n => noFuel_parseN hp n.toNat

theorem parses_vec {p : P α} {G : List Byte → α → Prop} (hp : Parses p G) : Parses (parseVec p) (GVec .code G) := by
  refine (Parses.bind parses_u32 fun n => parses_parseN hp n.toNat).congr fun b y => ?_
  constructor
  · rintro ⟨b1, n, b2, h1, ⟨h2, h3⟩, rfl⟩; exact .mk h1 h2 h3
  · rintro ⟨h1, h2, h3⟩; exact ⟨_, _, _, h1, ⟨h2, h3⟩, rfl⟩

theorem bind_pure_id (p : P α) : (p >>= fun x => pure x) = p := by
  funext s
  rcases h : p s with ⟨e | x, r⟩
  · exact bind_of_error h
  · rw [bind_of_ok h]; rfl

theorem unwrappingVec_id (p : P α) : parseUnwrappingVec (fun x : α => x) p = parseVec p := by
  unfold parseUnwrappingVec parseVec
  simp only [bind_pure_id]

/-! ## Floats -/

theorem leBits_toNat (N : Nat) : ∀ bs : List Byte, 8 * bs.length ≤ N → (leBits N bs).toNat = leVal bs ∧ leVal bs < 2 ^ (8 * bs.length)
  | [], _ => by simp [leBits, leVal]
  | b :: bs, h => by
    simp only [List.length_cons] at h
    obtain ⟨ih1, ih2⟩ := leBits_toNat N bs (by omega)
    have hb := b.toNat_lt
    have hp : 2 ^ (8 * (bs.length + 1)) = 256 * 2 ^ (8 * bs.length) := by
      rw [Nat.mul_add, Nat.pow_add]; omega
    have hN : 2 ^ (8 * (bs.length + 1)) ≤ 2 ^ N := Nat.pow_le_pow_right (n := 2) (by decide) (by omega)
    refine ⟨?_, ?_⟩
    · have e : leBits N bs = BitVec.ofNat N (leVal bs) := by
        apply BitVec.eq_of_toNat_eq
        rw [ih1, BitVec.toNat_ofNat, Nat.mod_eq_of_lt]
        exact Nat.lt_of_lt_of_le ih2 (Nat.pow_le_pow_right (n := 2) (by decide) (by omega))
      rw [leBits, e, or_shift (by simpa using hb), BitVec.toNat_ofNat, leVal]
      rw [Nat.mod_eq_of_lt] <;> omega
    · rw [leVal, List.length_cons, hp]; omega

theorem gseq_byte : ∀ {b xs : List Byte}, GSeq GByte b xs ↔ b = xs := by
  intro b xs
  constructor
  · intro h
    induction h with
    | nil => rfl
    | cons h1 _ ih => cases h1; rw [ih]; rfl
  · rintro rfl
    induction b with
    | nil => exact .nil
    | cons c b ih => exact .cons (b := [c]) (.mk c) ih

theorem leBytes_spec : ∀ n v, v < 2 ^ (8 * n) → (leBytes n v).length = n ∧ leVal (leBytes n v) = v := by
  intro n
  induction n with
  | zero => intro v h; simp at h; subst h; exact ⟨rfl, rfl⟩
  | succ n ih =>
    intro v h
    have h8 : (2 : Nat) ^ (8 * (n + 1)) = 256 * 2 ^ (8 * n) := by
      rw [show 8 * (n + 1) = 8 + 8 * n by omega, Nat.pow_add]
    obtain ⟨h1, h2⟩ := ih (v / 256) (by omega)
    refine ⟨by simp [leBytes, h1], ?_⟩
    rw [leBytes, leVal, h2, toNat_ofNat_lt (by omega)]
    omega

theorem parses_float (n : Nat) : Parses (parseFloat n) (GFloat n) := by
  refine (Parses.map (leBits (8 * n)) (parses_parseN parses_byte n)).congr fun b y => ?_
  simp only [gseq_byte]
  constructor
  · rintro ⟨x, ⟨h1, rfl⟩, rfl⟩
    exact .mk h1 (leBits_toNat (8 * n) b (by omega)).1.symm
  · rintro ⟨h1, h2⟩
    refine ⟨b, ⟨h1, rfl⟩, ?_⟩
    apply BitVec.eq_of_toNat_eq
    rw [(leBits_toNat (8 * n) b (by omega)).1, h2]

theorem good_float (n : Nat) : Good (parseFloat n) := (good_parseN good_byte n).bind fun _ => good_pure _
theorem noFuel_float (n : Nat) : NoFuel (parseFloat n) := (noFuel_parseN noFuel_byte n).bind fun _ => noFuel_pure _

/-! ## Runs -/

theorem good_runs {p : P α} (hp : Good p) (k : Nat) : Good (parseRuns k p) := by
  induction k with
  | zero => exact good_pure []
  | succ k ih => exact good_u32.bind fun _ => hp.bind fun _ => ih.bind fun _ => good_pure _

theorem noFuel_runs {p : P α} (hp : NoFuel p) (k : Nat) : NoFuel (parseRuns k p) := by
  induction k with
  | zero => exact noFuel_pure []
  | succ k ih => exact noFuel_u32.bind fun _ => hp.bind fun _ => ih.bind fun _ => noFuel_pure _

theorem good_compactVec {p : P α} (hp : Good p) : Good (parseCompactVec p) :=
  good_u32.bind fun k => good_runs hp k.toNat
theorem noFuel_compactVec {p : P α} (hp : NoFuel p) : NoFuel (parseCompactVec p) :=
  noFuel_u32.bind fun k => noFuel_runs hp k.toNat

/-- Runs of arbitrary elements. -/
inductive GRun (G : List Byte → α → Prop) : List Byte → Nat × α → Prop
  | mk {b1 b2 : List Byte} {n : U32} {x : α} : Dialect.code.u32 b1 n → G b2 x → GRun G (b1 ++ b2) (n.toNat, x)

/-- Concatenation of runs. -/
def expandRuns (runs : List (Nat × α)) : List α := runs.flatMap fun r => List.replicate r.1 r.2

theorem parses_runs {p : P α} {G : List Byte → α → Prop} (hp : Parses p G) (k : Nat) :
    Parses (parseRuns k p) fun b xs => ∃ runs, runs.length = k ∧ GSeq (GRun G) b runs ∧ xs = expandRuns runs := by
  induction k with
  | zero =>
    refine (parses_pure []).congr fun b y => ?_
    constructor
    · rintro ⟨rfl, rfl⟩; exact ⟨[], rfl, .nil, rfl⟩
    · rintro ⟨runs, h1, h2, rfl⟩
      cases h2 with
      | nil => exact ⟨rfl, rfl⟩
      | cons _ _ => simp at h1
  | succ k ih =>
    refine (Parses.bind parses_u32 fun n => Parses.bind hp fun x =>
      Parses.map (fun rest => List.replicate n.toNat x ++ rest) ih).congr fun b y => ?_
    constructor
    · rintro ⟨b1, n, _, h1, ⟨b2, x, b3, h2, ⟨_, ⟨runs, h3, h4, rfl⟩, rfl⟩, rfl⟩, rfl⟩
      refine ⟨(n.toNat, x) :: runs, by simp [h3], ?_, by simp [expandRuns]⟩
      rw [← List.append_assoc]; exact .cons (.mk h1 h2) h4
    · rintro ⟨runs, h1, h2, rfl⟩
      cases h2 with
      | nil => simp at h1
      | cons h3 h4 =>
        cases h3 with
        | mk h5 h6 =>
          exact ⟨_, _, _, h5, ⟨_, _, _, h6, ⟨_, ⟨_, by simpa using h1, h4, rfl⟩, rfl⟩, rfl⟩, by
            rw [List.append_assoc]⟩

theorem parses_compactVec {p : P α} {G : List Byte → α → Prop} (hp : Parses p G) :
    Parses (parseCompactVec p) fun b xs => ∃ runs, GVec .code (GRun G) b runs ∧ xs = expandRuns runs := by
  refine (Parses.bind parses_u32 fun n => parses_runs hp n.toNat).congr fun b y => ?_
  constructor
  · rintro ⟨b1, n, b2, h1, ⟨runs, h2, h3, rfl⟩, rfl⟩; exact ⟨runs, .mk h1 h2 h3, rfl⟩
  · rintro ⟨runs, ⟨h1, h2, h3⟩, rfl⟩; exact ⟨_, _, _, h1, ⟨_, h2, h3, rfl⟩, rfl⟩

/-! ## Sized -/

/-- The part of `parseSized` after the size. -/
def sizedBody (p : P α) (n : Nat) : P α := fun s =>
  match p (s.take n) with
  | (.error e, r) => (.error e, r ++ s.drop n)
  | (.ok x, r) =>
    if n ≠ (s.take n).length - r.length then (.error .sizeMissmatch, r ++ s.drop n)
    else (.ok x, r ++ s.drop n)

theorem parseSized_eq (p : P α) : parseSized p = (parseU32 >>= fun n => sizedBody p n.toNat) := rfl

theorem sizedBody_forward {p : P α} (hp : ∀ s, (p s).2 <:+ s) (n : Nat) (s : List Byte) : (sizedBody p n s).2 <:+ s := by
  have h := hp (s.take n)
  have h2 : (p (s.take n)).2 ++ s.drop n <:+ s := by
    obtain ⟨c, hc⟩ := h
    exact ⟨c, by rw [← List.append_assoc, hc, List.take_append_drop]⟩
  unfold sizedBody
  rcases hq : p (s.take n) with ⟨e | x, r⟩ <;> rw [hq] at h2
  · exact h2
  · simp only; split <;> exact h2

theorem sizedBody_ok {p : P α} (hp : ∀ s, (p s).2 <:+ s) {n : Nat} {s r : List Byte} {x : α} :
    sizedBody p n s = (.ok x, r) ↔ ∃ b, s = b ++ r ∧ b.length = n ∧ p b = (.ok x, []) := by
  constructor
  · intro h
    unfold sizedBody at h
    have hf := hp (s.take n)
    rcases hq : p (s.take n) with ⟨e | y, q⟩ <;> rw [hq] at h hf
    · cases h
    · simp only at h
      split at h
      · cases h
      · rename_i hn
        have hl := hf.length_le
        simp only at hl
        rw [List.length_take] at hl hn
        have hq0 : q = [] := by
          apply List.eq_nil_of_length_eq_zero; omega
        subst hq0
        cases h
        refine ⟨s.take n, (List.take_append_drop n s).symm, ?_, hq⟩
        rw [List.length_take]; simp at hn; omega
  · rintro ⟨b, rfl, rfl, h⟩
    unfold sizedBody
    rw [List.take_left, List.drop_left, h]
    simp

theorem parses_sized' {p : P α} {G : List Byte → α → Prop} (hp : ∀ s, (p s).2 <:+ s)
    (hg : ∀ b x, p b = (.ok x, []) ↔ G b x) : Parses (parseSized p) (GSized .code G) := by
  rw [parseSized_eq]
  refine (Parses.bind (H := fun n b x => b.length = n.toNat ∧ G b x) parses_u32 fun n s x r => ?_).congr fun b y => ?_
  · rw [sizedBody_ok hp]
    simp only [hg]
  · constructor
    · rintro ⟨b1, n, b2, h1, ⟨h2, h3⟩, rfl⟩; exact .mk h1 h2 h3
    · rintro ⟨h1, h2, h3⟩; exact ⟨_, _, _, h1, ⟨h2, h3⟩, rfl⟩

theorem Parses.nil_iff {p : P α} {G : List Byte → α → Prop} (h : Parses p G) (b : List Byte) (x : α) :
    p b = (.ok x, []) ↔ G b x := by
  rw [h b x []]; simp

theorem parses_sized {p : P α} {G : List Byte → α → Prop} (hg : Good p) (hp : Parses p G) :
    Parses (parseSized p) (GSized .code G) := parses_sized' hg.forward hp.nil_iff

theorem good_sizedBody {p : P α} (hp : Good p) (n : Nat) : Good (sizedBody p n) where
  forward := sizedBody_forward hp.forward n
  stream s := by
    by_cases hn : n ≤ s.length
    · right; intro t
      unfold sizedBody
      rw [List.take_append_of_le_length hn, List.drop_append_of_le_length hn]
      rcases p (s.take n) with ⟨e | x, r⟩
      · simp
      · simp only; split <;> simp
    · have ht : s.take n = s := List.take_of_length_le (by omega)
      have hd : s.drop n = [] := List.drop_of_length_le (by omega)
      unfold sizedBody
      rw [ht, hd]
      rcases hp.stream s with h | h
      · left; rw [h]; rfl
      · right; intro t
        obtain ⟨k, rfl⟩ : ∃ k, n = s.length + k := ⟨n - s.length, by omega⟩
        rw [List.take_length_add_append, List.drop_length_add_append, h]
        have hl := (hp.forward s).length_le
        rcases hq : p s with ⟨e | x, r⟩
        · simp
        · rw [hq] at hl
          simp only at hl ⊢
          have e1 : s.length + k ≠ s.length - r.length := by omega
          have e2 : s.length + k ≠ (s ++ t.take k).length - (r ++ t.take k).length := by
            simp only [List.length_append]; omega
          rw [if_pos e1, if_pos e2]
          simp
  exact c r x h := by
    rw [sizedBody_ok hp.forward] at h ⊢
    obtain ⟨b, h1, h2, h3⟩ := h
    exact ⟨b, by rw [List.append_cancel_right h1, List.append_nil], h2, h3⟩
  noPanic s := by
    have h := hp.noPanic (s.take n)
    unfold sizedBody
    rcases hq : p (s.take n) with ⟨e | x, r⟩ <;> rw [hq] at h
    · intro hc; exact h hc
    · simp only; split <;> (intro hc; cases hc)

theorem good_sized {p : P α} (hp : Good p) : Good (parseSized p) := good_u32.bind fun n => good_sizedBody hp n.toNat

theorem noFuel_sized {p : P α} (hp : NoFuel p) : NoFuel (parseSized p) := by
  rw [parseSized_eq]
  refine noFuel_u32.bind fun n s => ?_
  have h := hp (s.take n.toNat)
  unfold sizedBody
  rcases hq : p (s.take n.toNat) with ⟨e | x, r⟩ <;> rw [hq] at h
  · intro hc; exact h hc
  · simp only; split <;> (intro hc; cases hc)

end

end Whasm
