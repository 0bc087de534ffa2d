import Verif.Lemmas.Cut
import Verif.Spec.Blame

/-!
# Every error of the parser says something true about the bytes read
-/

namespace Whasm
open Spec

section
variable {α β : Type} {K : Nat → Prop}

theorem blame_prepend {a read rest : List Byte} {e : Error} (h : Blame K read rest e) : Blame K (a ++ read) rest e := by
  cases h with
  | endOfInput => exact .endOfInput _
  | endOfPart h0 h1 h2 h3 => simpa using Blame.endOfPart (pre := a ++ _) h0 h1 h2 h3
  | size h0 h1 h2 h3 => simpa using Blame.size (pre := a ++ _) h0 h1 h2 h3
  | variant h => simpa using Blame.variant (pre := a ++ _) h
  | unsigned h => simpa using Blame.unsigned (pre := a ++ _) h
  | signed32 h => simpa using Blame.signed32 (pre := a ++ _) h
  | signed64 h => simpa using Blame.signed64 (pre := a ++ _) h
  | name h1 h2 h3 => simpa using Blame.name (pre := a ++ _) h1 h2 h3
  | strayElse h1 h2 => simpa using Blame.strayElse (pre := a ++ _) h1 h2
  | secondElse h1 h2 => simpa using Blame.secondElse (pre := a ++ _) h1 h2

/-- Only the end of the input depends on what follows. -/
theorem blame_rest {read rest : List Byte} {e : Error} (h : Blame K read rest e) :
    (e = .unexpectedEndOfFile ∧ rest = []) ∨ ∀ rest', Blame K read rest' e := by
  cases h with
  | endOfInput => exact .inl ⟨rfl, rfl⟩
  | endOfPart h0 h1 h2 h3 => exact .inr fun _ => .endOfPart h0 h1 h2 h3
  | size h0 h1 h2 h3 => exact .inr fun _ => .size h0 h1 h2 h3
  | variant h => exact .inr fun _ => .variant h
  | unsigned h => exact .inr fun _ => .unsigned h
  | signed32 h => exact .inr fun _ => .signed32 h
  | signed64 h => exact .inr fun _ => .signed64 h
  | name h1 h2 h3 => exact .inr fun _ => .name h1 h2 h3
  | strayElse h1 h2 => exact .inr fun _ => .strayElse h1 h2
  | secondElse h1 h2 => exact .inr fun _ => .secondElse h1 h2

variable (K)

/-- The errors of `p`, run after the bytes `pre`, are true statements. -/
def Tells (pre : List Byte) (p : P α) : Prop := ∀ s e r, p s = (.error e, r) → e ≠ .fuel → e ≠ .panic →
  ∃ read, s = read ++ r ∧ Blame K (pre ++ read) r e

variable {K}

theorem Tells.prepend {p : P α} (h : Tells K [] p) (pre : List Byte) : Tells K pre p := by
  intro s e r hs h1 h2
  obtain ⟨read, rfl, hb⟩ := h s e r hs h1 h2
  exact ⟨read, rfl, blame_prepend hb⟩

theorem tells_pure (pre : List Byte) (x : α) : Tells K pre (pure x : P α) := by
  intro s e r h; cases h

theorem tells_fail {pre : List Byte} {e : Error} (h : ∀ r, Blame K pre r e) : Tells K pre (P.fail e : P α) := by
  intro s e r hs _ _; cases hs
  exact ⟨[], rfl, by simpa using h s⟩

theorem Tells.bind {pre : List Byte} {p : P α} {f : α → P β} (hp : Tells K pre p) (hw : ∀ s, (p s).2 <:+ s)
    (hf : ∀ c s x, p (c ++ s) = (.ok x, s) → Tells K (pre ++ c) (f x)) : Tells K pre (p >>= f) := by
  intro s e r hs h1 h2
  rcases bind_cases p f s with ⟨x, s', k1, k2⟩ | ⟨e', s', k1, k2⟩
  · obtain ⟨c, hc⟩ := hw s
    rw [k1] at hc
    subst hc
    obtain ⟨read, rfl, hb⟩ := hf c s' x k1 s' e r (k2 ▸ hs) h1 h2
    exact ⟨c ++ read, by simp, by simpa using hb⟩
  · rw [k2] at hs
    cases hs
    exact hp s e r k1 h1 h2

/-- The continuation without a memory of what was read. -/
theorem Tells.then {pre : List Byte} {p : P α} {f : α → P β} (hp : Tells K pre p) (hw : ∀ s, (p s).2 <:+ s)
    (hf : ∀ x, Tells K [] (f x)) : Tells K pre (p >>= f) := hp.bind hw fun _ _ x _ => (hf x).prepend _

theorem tells_byte : Tells K [] parseByte := by
  intro s e r h _ _
  cases s with
  | nil => cases h; exact ⟨[], rfl, .endOfInput _⟩
  | cons b s => cases h

/-- A parser that starts by switching on a byte. -/
theorem tells_byte_bind {f : Byte → P β} (hf : ∀ c, Tells K [c] (f c)) : Tells K [] (parseByte >>= f) := by
  refine tells_byte.bind good_byte.forward fun c s x h => ?_
  obtain ⟨b, hb, ⟨⟩⟩ := (parses_byte _ _ _).mp h
  rw [List.append_cancel_right hb]
  exact hf x

theorem tells_unknown {c : Byte} {ty : String} (h : Unknown c ty) : Tells K [c] (P.fail (.invalidVariantId c ty) : P α) :=
  tells_fail fun _ => by simpa using Blame.variant (K := K) (pre := []) h

/-! ## Integers -/

/-- A byte-wise loop that fails does so at a byte, whatever follows, and needs more input before it. -/
theorem Stepping.split {σ : Type} {loop : σ → P α} (h : Stepping loop) : ∀ s st e r, loop st s = (.error e, r) →
    (e = .unexpectedEndOfFile ∧ r = []) ∨ ∃ enc b, s = enc ++ b :: r ∧ loop st enc = (.error .unexpectedEndOfFile, []) ∧
      ∀ t, loop st (enc ++ b :: t) = (.error e, t) := by
  intro s
  induction s with
  | nil => intro st e r hs; rw [h.nil] at hs; cases hs; exact .inl ⟨rfl, rfl⟩
  | cons b s ih =>
    intro st e r hs
    rcases h.cons st b with ⟨res, _, _, h1⟩ | ⟨st', h1⟩
    · have h2 := (h1 s).symm.trans hs
      cases h2
      exact .inr ⟨[], b, rfl, h.nil st, h1⟩
    · rcases ih st' e r ((h1 s).symm.trans hs) with h2 | ⟨enc, c, rfl, h3, h4⟩
      · exact .inl h2
      · exact .inr ⟨b :: enc, c, rfl, by rw [h1]; exact h3, fun t => by rw [List.cons_append, h1]; exact h4 t⟩

theorem excludes_of_fails {p : P α} {G : List Byte → α → Prop} (hp : Parses p G) {enc : List Byte} {e : Error}
    (h : ∀ t, ∃ r, p (enc ++ t) = (.error e, r)) : Excludes G enc := by
  intro more x hx
  have h1 := (hp (enc ++ more) x []).mpr ⟨_, (List.append_nil _).symm, hx⟩
  obtain ⟨r, h2⟩ := h more
  rw [h2] at h1; cases h1

theorem extends_of_ok {p : P α} {G : List Byte → α → Prop} (hp : Parses p G) {enc : List Byte} {x : α}
    (h : p enc = (.ok x, [])) : G enc x := by
  obtain ⟨b, hb, hg⟩ := (hp _ _ _).mp h
  rw [List.append_nil] at hb; rwa [hb]

theorem unsigned_split {N : Nat} (hN : 7 ≤ N) {G : List Byte → BitVec N → Prop} (hp : Parses (parseUnsigned N) G) {s r : List Byte} {e : Error}
    (h : parseUnsigned N s = (.error e, r)) : (e = .unexpectedEndOfFile ∧ r = []) ∨
      ∃ enc b, s = enc ++ b :: r ∧ FirstBad G enc b ∧ e = .outOfRangeUnsignedInteger := by
  rcases (stepping_unsigned N).split s (0, 0#N) e r h with h1 | ⟨enc, b, rfl, h2, h3⟩
  · exact .inl h1
  · right
    have h2 : parseUnsigned N enc = (.error .unexpectedEndOfFile, []) := h2
    have h3 : ∀ t, parseUnsigned N (enc ++ b :: t) = (.error e, t) := h3
    refine ⟨enc, b, rfl, ⟨?_, excludes_of_fails hp (e := e) fun t => ⟨t, by simpa using h3 t⟩⟩, ?_⟩
    · rcases group_or_unterminated enc with ⟨g, z, rfl, hg⟩ | hu
      · rcases parseUnsigned_group hN hg z with ⟨_, k⟩ | ⟨_, _, k⟩ <;> rw [h2] at k <;> cases k
      · rcases parseUnsigned_unterminated hN enc hu with ⟨_, v, k⟩ | ⟨mid, k⟩
        · exact ⟨[0], v, List.cons_ne_nil _ _, extends_of_ok hp k⟩
        · have := k []
          rw [List.append_nil, h2] at this; cases this
    · rcases group_or_unterminated (enc ++ [b]) with ⟨g, z, hs, hg⟩ | hu
      · have h4 := h3 []
        rw [hs] at h4
        rcases parseUnsigned_group hN hg z with ⟨_, k⟩ | ⟨_, _, k⟩ <;> rw [h4] at k
        · cases k
        · exact Except.error.inj (congrArg Prod.fst k)
      · rcases parseUnsigned_unterminated hN _ hu with ⟨_, v, k⟩ | ⟨mid, k⟩
        · have h4 := h3 [0]
          simp only [List.append_assoc, List.singleton_append] at k
          rw [h4] at k; cases k
        · have h4 := k []
          rw [List.append_nil, h3 []] at h4
          exact Except.error.inj (congrArg Prod.fst h4)

theorem signed_split {N : Nat} (hN : 7 ≤ N) {G : List Byte → BitVec N → Prop} (hp : Parses (parseSigned N) G) {s r : List Byte} {e : Error}
    (h : parseSigned N s = (.error e, r)) : (e = .unexpectedEndOfFile ∧ r = []) ∨
      ∃ enc b, s = enc ++ b :: r ∧ FirstBad G enc b ∧ e = .outOfRangeSignedInteger := by
  rcases (stepping_signed N).split s (0, 0#N, true) e r h with h1 | ⟨enc, b, rfl, h2, h3⟩
  · exact .inl h1
  · right
    have h2 : parseSigned N enc = (.error .unexpectedEndOfFile, []) := h2
    have h3 : ∀ t, parseSigned N (enc ++ b :: t) = (.error e, t) := h3
    refine ⟨enc, b, rfl, ⟨?_, excludes_of_fails hp (e := e) fun t => ⟨t, by simpa using h3 t⟩⟩, ?_⟩
    · rcases group_or_unterminated enc with ⟨g, z, rfl, hg⟩ | hu
      · rcases parseSigned_group hN hg z with ⟨_, k⟩ | ⟨_, _, k⟩ <;> rw [h2] at k <;> cases k
      · rcases parseSigned_unterminated hN enc hu with ⟨_, c, _, v, k⟩ | ⟨mid, k⟩
        · exact ⟨[c], v, List.cons_ne_nil _ _, extends_of_ok hp k⟩
        · have := k []
          rw [List.append_nil, h2] at this; cases this
    · rcases group_or_unterminated (enc ++ [b]) with ⟨g, z, hs, hg⟩ | hu
      · have h4 := h3 []
        rw [hs] at h4
        rcases parseSigned_group hN hg z with ⟨_, k⟩ | ⟨_, _, k⟩ <;> rw [h4] at k
        · cases k
        · exact Except.error.inj (congrArg Prod.fst k)
      · rcases parseSigned_unterminated hN _ hu with ⟨_, c, _, v, k⟩ | ⟨mid, k⟩
        · have h4 := h3 [c]
          simp only [List.append_assoc, List.singleton_append] at k
          rw [h4] at k; cases k
        · have h4 := k []
          rw [List.append_nil, h3 []] at h4
          exact Except.error.inj (congrArg Prod.fst h4)

theorem tells_u32 : Tells K [] parseU32 := by
  intro s e r h _ _
  rcases unsigned_split (by decide) parses_u32 h with ⟨rfl, rfl⟩ | ⟨enc, b, rfl, h1, rfl⟩
  · exact ⟨s, by simp, .endOfInput _⟩
  · exact ⟨enc ++ [b], by simp, by simpa using Blame.unsigned (K := K) (pre := []) h1⟩

theorem tells_i32 : Tells K [] parseI32 := by
  intro s e r h _ _
  rcases signed_split (by decide) parses_s32 h with ⟨rfl, rfl⟩ | ⟨enc, b, rfl, h1, rfl⟩
  · exact ⟨s, by simp, .endOfInput _⟩
  · exact ⟨enc ++ [b], by simp, by simpa using Blame.signed32 (K := K) (pre := []) h1⟩

theorem tells_i64 : Tells K [] parseI64 := by
  intro s e r h _ _
  rcases signed_split (by decide) parses_s64 h with ⟨rfl, rfl⟩ | ⟨enc, b, rfl, h1, rfl⟩
  · exact ⟨s, by simp, .endOfInput _⟩
  · exact ⟨enc ++ [b], by simp, by simpa using Blame.signed64 (K := K) (pre := []) h1⟩

theorem tells_idx : Tells K [] parseIdx := tells_u32

/-! ## Vectors, names, sized elements -/

theorem tells_parseN {p : P α} (hp : Tells K [] p) (hg : Good p) (n : Nat) : Tells K [] (parseN n p) := by
  induction n with
  | zero => exact tells_pure _ _
  | succ n ih => exact hp.then hg.forward fun x => ih.then (good_parseN hg n).forward fun _ => tells_pure _ _

theorem tells_vec {p : P α} (hp : Tells K [] p) (hg : Good p) : Tells K [] (parseVec p) :=
  tells_u32.then good_u32.forward fun n => tells_parseN hp hg n.toNat

theorem tells_float (n : Nat) : Tells K [] (parseFloat n) :=
  (tells_parseN tells_byte good_byte n).then (good_parseN good_byte n).forward fun _ => tells_pure _ _

theorem tells_runs {p : P α} (hp : Tells K [] p) (hg : Good p) (k : Nat) : Tells K [] (parseRuns k p) := by
  induction k with
  | zero => exact tells_pure _ _
  | succ k ih =>
    exact tells_u32.then good_u32.forward fun n => hp.then hg.forward fun x =>
      ih.then (good_runs hg k).forward fun _ => tells_pure _ _

theorem tells_compactVec {p : P α} (hp : Tells K [] p) (hg : Good p) : Tells K [] (parseCompactVec p) :=
  tells_u32.then good_u32.forward fun n => tells_runs hp hg n.toNat

theorem tells_vecByte : Tells K [] (parseUnwrappingVec (fun b : Byte => b) parseByte) := by
  rw [unwrappingVec_id]; exact tells_vec tells_byte good_byte

theorem tells_string : Tells K [] parseString := by
  unfold parseString
  refine tells_vecByte.bind good_vecByte.forward fun c s raw h => ?_
  rw [unwrappingVec_id] at h
  obtain ⟨b, hb, hv⟩ := (parses_vec parses_byte _ _ _).mp h
  have hb := List.append_cancel_right hb
  subst hb
  split
  · exact tells_pure _ _
  · rename_i hu
    refine tells_fail fun r => ?_
    cases hv with
    | @mk n bs len xs h1 h2 h3 =>
      obtain rfl := gseq_byte.mp h3
      have := Blame.name (K := K) (pre := []) (rest := r) h1 h2.symm (fun h => hu ((validUtf8_iff _).mpr h))
      simpa using this

/-- Sized elements; `k` is the kind of the content. -/
theorem sized_error {p : P α} {k : Nat} (hp : Tells K [] p)
    (hok : ∀ s x r, p s = (.ok x, r) → ∃ b, s = b ++ r ∧ Content k b)
    (hmore : ∀ b, Content k b → ∀ more, ∃ x r, p (b ++ more) = (.ok x, r)) {s r : List Byte} {e : Error}
    (hs : parseSized p s = (.error e, r)) (h1 : e ≠ .fuel) (h2 : e ≠ .panic) : ∃ read, s = read ++ r ∧ SizedBlame K k read r e := by
  rw [parseSized_eq] at hs
  rcases bind_cases parseU32 (fun n => sizedBody p n.toNat) s with ⟨n, s', k1, k2⟩ | ⟨e', s', k1, k2⟩
  · rw [k2] at hs
    obtain ⟨g, rfl, hgr⟩ := (parses_u32 _ _ _).mp k1
    clear k1 k2
    unfold sizedBody at hs
    rcases hq : p (s'.take n.toNat) with ⟨e' | x, q⟩ <;> rw [hq] at hs
    · cases hs
      obtain ⟨read, hr, hb⟩ := hp _ _ _ hq h1 h2
      have hle : read.length ≤ n.toNat := by
        have := congrArg List.length hr
        rw [List.length_take, List.length_append] at this
        omega
      refine ⟨g ++ read, ?_, ?_⟩
      · rw [List.append_assoc, ← List.append_assoc read, ← hr, List.take_append_drop]
      · rcases blame_rest hb with ⟨rfl, rfl⟩ | hb
        · by_cases hd : s'.drop n.toNat = []
          · rw [hd]; exact .endOfInput _
          · rw [List.append_nil] at hr
            have hl : read.length = n.toNat := by
              rw [← hr, List.length_take]
              have : ¬ s'.length ≤ n.toNat := fun h => hd (List.drop_eq_nil_iff.mpr h)
              omega
            refine .endOfPart hgr hl.symm ?_
            rintro b more rfl hc
            obtain ⟨x, r, hx⟩ := hmore b hc more
            rw [hr, hx] at hq; cases hq
        · exact .content hgr hle (hb _)
    · simp only at hs
      split at hs
      · rename_i hne
        cases hs
        obtain ⟨b, hb, hc⟩ := hok _ _ _ hq
        refine ⟨g ++ b, by rw [List.append_assoc, ← List.append_assoc b, ← hb, List.take_append_drop], ?_⟩
        refine .size hgr ?_ hc
        have h3 := congrArg List.length hb
        simp only [List.length_append, List.length_take] at h3 hne
        omega
      · cases hs
  · rw [k2] at hs
    cases hs
    rcases unsigned_split (by decide) parses_u32 k1 with ⟨rfl, rfl⟩ | ⟨enc, b, rfl, h3, rfl⟩
    · exact ⟨s, by simp, .endOfInput _⟩
    · exact ⟨enc ++ [b], by simp, .unsigned h3⟩

theorem blame_sized {k : Nat} (hk : K k) {read rest : List Byte} {e : Error} (h : SizedBlame K k read rest e) : Blame K read rest e := by
  cases h with
  | endOfInput => exact .endOfInput _
  | unsigned h => exact .unsigned (pre := []) h
  | endOfPart h1 h2 h3 => exact .endOfPart (pre := []) hk h1 h2 h3
  | size h1 h2 h3 => exact .size (pre := []) hk h1 h2 h3
  | content h1 h2 h3 => exact blame_prepend h3

theorem sized_error_good {p : P α} {G : List Byte → α → Prop} {k : Nat} (hp : Tells K [] p) (hG : Parses p G)
    (hc : ∀ b, Content k b ↔ ∃ x, G b x) {s r : List Byte} {e : Error}
    (hs : parseSized p s = (.error e, r)) (h1 : e ≠ .fuel) (h2 : e ≠ .panic) : ∃ read, s = read ++ r ∧ SizedBlame K k read r e := by
  refine sized_error hp (fun s x r h => ?_) (fun b h more => ?_) hs h1 h2
  · obtain ⟨b, h1, h2⟩ := (hG _ _ _).mp h
    exact ⟨b, h1, (hc b).mpr ⟨x, h2⟩⟩
  · obtain ⟨x, hx⟩ := (hc b).mp h
    exact ⟨x, more, (hG _ _ _).mpr ⟨b, rfl, hx⟩⟩

theorem tells_sized {p : P α} {G : List Byte → α → Prop} {k : Nat} (hk : K k) (hp : Tells K [] p) (hG : Parses p G)
    (hc : ∀ b, Content k b ↔ ∃ x, G b x) : Tells K [] (parseSized p) := by
  intro s e r hs h1 h2
  obtain ⟨read, e1, hb⟩ := sized_error_good hp hG hc hs h1 h2
  exact ⟨read, e1, blame_sized hk hb⟩

/-! ## Types -/

theorem tells_limits : Tells K [] parseLimits := by
  refine tells_byte_bind fun c => ?_
  split
  · exact (tells_u32.prepend _).then good_u32.forward fun _ => tells_pure _ _
  · exact (tells_u32.prepend _).then good_u32.forward fun _ => tells_u32.then good_u32.forward fun _ => tells_pure _ _
  · refine tells_unknown (.limits ?_)
    rintro more x h
    cases h <;> simp_all

theorem val_excludes {c : Byte} (h1 : c.toNat ≠ 0x7F) (h2 : c.toNat ≠ 0x7E) (h3 : c.toNat ≠ 0x7D) (h4 : c.toNat ≠ 0x7C) : Excludes GVal [c] := by
  rintro more x h
  cases h <;> simp_all

theorem tells_val : Tells K [] parseVal := by
  refine tells_byte_bind fun c => ?_
  split
  · exact tells_pure _ _
  · exact tells_pure _ _
  · exact tells_pure _ _
  · exact tells_pure _ _
  · rename_i h1 h2 h3 h4
    exact tells_unknown (.val (val_excludes h1 h2 h3 h4))

theorem tells_elemTy : Tells K [] parseElemTy := by
  refine tells_byte_bind fun c => ?_
  split
  · exact tells_pure _ _
  · refine tells_unknown (.elem ?_)
    rintro more x ⟨⟩; simp_all

theorem val_one (c : Byte) : (∃ v, parseVal [c] = (.ok v, [])) ∨
    (parseVal [c] = (.error (.invalidVariantId c "ty::Val"), []) ∧ Excludes GVal [c]) := by
  by_cases h1 : c.toNat = 0x7F
  · rw [byte_of_toNat h1]; exact .inl ⟨_, rfl⟩
  by_cases h2 : c.toNat = 0x7E
  · rw [byte_of_toNat h2]; exact .inl ⟨_, rfl⟩
  by_cases h3 : c.toNat = 0x7D
  · rw [byte_of_toNat h3]; exact .inl ⟨_, rfl⟩
  by_cases h4 : c.toNat = 0x7C
  · rw [byte_of_toNat h4]; exact .inl ⟨_, rfl⟩
  refine .inr ⟨?_, val_excludes h1 h2 h3 h4⟩
  have : (match c.toNat with
    | 0x7F => pure .i32
    | 0x7E => pure .i64
    | 0x7D => pure .f32
    | 0x7C => pure .f64
    | _ => P.fail (.invalidVariantId c "ty::Val") : P Val) = P.fail (.invalidVariantId c "ty::Val") := by
    split <;> first | contradiction | rfl
  exact congrFun this []

theorem tells_retVal : Tells K [] parseRetVal := by
  refine tells_byte_bind fun c => ?_
  split
  · exact tells_pure _ _
  · rcases val_one c with ⟨v, h⟩ | ⟨h, hx⟩
    · rw [h]; exact tells_pure _ _
    · rw [h]; exact tells_unknown (.val hx)

theorem tells_funcTy : Tells K [] parseFuncTy := by
  refine tells_byte_bind fun c => ?_
  have hv := tells_vec (tells_val (K := K)) good_val
  split
  · exact (hv.prepend _).then (good_vec good_val).forward fun _ => hv.then (good_vec good_val).forward fun _ => tells_pure _ _
  · refine tells_unknown (.func ?_)
    rintro more x ⟨⟩; simp_all

theorem tells_tableTy : Tells K [] parseTableTy :=
  tells_elemTy.then good_elemTy.forward fun _ => tells_limits.then good_limits.forward fun _ => tells_pure _ _

theorem tells_memTy : Tells K [] parseMemTy := tells_limits.then good_limits.forward fun _ => tells_pure _ _

theorem tells_mut : Tells K [] parseMut := by
  refine tells_byte_bind fun c => ?_
  split
  · exact tells_pure _ _
  · exact tells_pure _ _
  · refine tells_unknown (.mt ?_)
    rintro more x h
    cases h <;> simp_all

theorem tells_globalTy : Tells K [] parseGlobalTy :=
  tells_val.then good_val.forward fun _ => tells_mut.then good_mut.forward fun _ => tells_pure _ _

/-! ## Instructions -/

theorem else_excludes {b : List Byte} {is : List Instr} (h : GInstrs .code b is) : Excludes (GExpr .code) (b ++ [0x05]) := by
  intro more x hx
  have h1 := (parses_expr (b ++ [0x05] ++ more) x []).mpr ⟨_, (List.append_nil _).symm, hx⟩
  unfold parseExpr exprOf at h1
  rw [List.append_assoc, List.singleton_append, bind_of_ok (instrs_complete h _ (by simp; omega) _ _ .els more)] at h1
  cases h1

theorem tells_exprOf {sub : P SubExpr} (h : Tells K [] sub) (hg : Good sub) (hs : Sound sub GSub) : Tells K [] (exprOf sub) := by
  refine h.bind hg.forward fun c s se h1 => ?_
  obtain ⟨b, hb, b', hi, ⟨rfl, hn⟩ | ⟨rfl, hn⟩⟩ := hs _ _ _ h1
  · rw [hn]; exact tells_pure _ _
  · rw [hn, List.append_cancel_right hb]
    refine tells_fail fun r => ?_
    simpa using Blame.strayElse (K := K) (pre := []) (GExpr.mk hi) (else_excludes hi)

theorem if_excludes {b1 b2 b3 : List Byte} {t : RetVal} {is js : List Instr} (h1 : GRetVal b1 t) (h2 : GInstrs .code b2 is)
    (h3 : GInstrs .code b3 js) : Excludes (GInstr .code) (0x04 :: (b1 ++ b2 ++ [0x05] ++ b3) ++ [0x05]) := by
  intro more x hx
  have k := instr_complete hx _ (Nat.le_succ _) []
  rw [List.append_nil] at k
  have e : (0x04 : Byte) :: (b1 ++ b2 ++ [0x05] ++ b3) ++ [0x05] ++ more = 0x04 :: (b1 ++ (b2 ++ 0x05 :: (b3 ++ 0x05 :: more))) := by simp
  rw [e, instrOf_cons] at k
  generalize hn : (0x04 :: (b1 ++ (b2 ++ (0x05 : Byte) :: (b3 ++ 0x05 :: more)))).length.succ = n at k
  simp only [List.length_cons, List.length_append] at hn
  change ifOf _ _ = _ at k
  unfold ifOf at k
  rw [bind_of_ok (retVal_complete h1 _), bind_of_ok (instrs_complete h2 n (by omega) _ _ .els _)] at k
  change ((parseSubExpr n >>= fun s2 => pure (s2.body, s2.next)) >>= _) _ = _ at k
  rw [bind_of_ok (map_complete (instrs_complete h3 n (by omega) _ _ .els _) fun s2 : SubExpr => (s2.body, s2.next))] at k
  cases k

theorem tells_ifOf {sub : P SubExpr} (h : Tells K [] sub) (hg : Good sub) (hs : Sound sub GSub) : Tells K [0x04] (ifOf sub) := by
  refine (tells_retVal.prepend _).bind good_retVal.forward fun b1 s1 ret h1 => ?_
  obtain ⟨_, e, g1⟩ := (parses_retVal _ _ _).mp h1
  rw [← List.append_cancel_right e] at g1
  clear h1 e
  refine (h.prepend _).bind hg.forward fun b2 s2 se1 h2 => ?_
  obtain ⟨_, e, g2⟩ := hs _ _ _ h2
  rw [← List.append_cancel_right e] at g2
  clear h2 e
  refine Tells.bind (p := elsePart sub se1) ?_ (good_elsePart hg se1).forward fun b3 s3 bn h3 => ?_
  · unfold elsePart
    split
    · exact (h.prepend _).then hg.forward fun _ => tells_pure _ _
    · exact tells_pure _ _
  · obtain ⟨c2, hi2, ⟨rfl, hn2⟩ | ⟨rfl, hn2⟩⟩ := g2
    · unfold elsePart at h3
      rw [hn2, if_neg (by simp [Instr.isElse])] at h3
      rw [pure_apply] at h3
      obtain ⟨rfl⟩ := Except.ok.inj (congrArg Prod.fst h3)
      rw [if_pos (show Instr.isEnd .endMark = true from rfl)]
      exact tells_pure _ _
    · unfold elsePart at h3
      rw [hn2, if_pos (show Instr.isElse .elseMark = true from rfl)] at h3
      obtain ⟨se2, s', k1, k2⟩ := bind_ok_iff.mp h3
      rw [pure_apply] at k2
      obtain rfl := congrArg Prod.snd k2
      obtain rfl := Except.ok.inj (congrArg Prod.fst k2)
      obtain ⟨_, e, c3, hi3, ⟨rfl, hn3⟩ | ⟨rfl, hn3⟩⟩ := hs _ _ _ k1
      · simp only
        rw [hn3, if_pos (show Instr.isEnd .endMark = true from rfl)]
        exact tells_pure _ _
      · simp only
        rw [hn3, if_neg (by simp [Instr.isEnd])]
        refine tells_fail fun r => ?_
        rw [List.append_cancel_right e]
        have := Blame.secondElse (K := K) (pre := []) (rest := r) (enc := b1 ++ c2 ++ [0x05] ++ c3)
          (by simpa using GInstr.ifElse g1 hi2 hi3) (if_excludes g1 hi2 hi3)
        simpa using this

theorem tail_excludes {c : Byte} (h0 : ∀ sub, instrAt sub c = instrTail c) {e : Error} (h : instrTail c = P.fail e) :
    Excludes (GInstr .code) [c] := by
  intro more x hx
  have k := instr_complete hx _ (Nat.le_succ _) []
  rw [List.append_nil, List.singleton_append, instrOf_cons, h0, h] at k
  cases k

theorem tells_instrTail {c : Byte} (h0 : ∀ sub, instrAt sub c = instrTail c) : Tells K [c] (instrTail c) := by
  have hb : ∀ f : U32 → U32 → Instr, Tells K [c] (parseU32 >>= fun a => parseU32 >>= fun b => pure (f a b)) := fun f =>
    (tells_u32.prepend _).then good_u32.forward fun _ => tells_u32.then good_u32.forward fun _ => tells_pure _ _
  have ht := fun e => tail_excludes (e := e) h0
  unfold instrTail at ht ⊢
  split
  · exact hb _
  · rename_i h1
    rw [h1] at ht
    split
    · exact hb _
    · rename_i h2
      rw [h2] at ht
      split
      · exact tells_pure _ _
      · rename_i h3
        rw [h3] at ht
        exact tells_unknown (.instr (ht _ rfl))

theorem tells_instrAt {sub : P SubExpr} (h : Tells K [] sub) (hg : Good sub) (hs : Sound sub GSub) (c : Byte) :
    Tells K [c] (instrAt sub c) := by
  have he := tells_exprOf h hg hs
  have hge := good_exprOf hg
  have hidx : ∀ f : Idx → Instr, Tells K [c] (parseIdx >>= fun i => pure (f i)) := fun f =>
    (tells_idx.prepend _).then good_idx.forward fun _ => tells_pure _ _
  have hblock : ∀ f : RetVal → Expr → Instr, Tells K [c] (parseRetVal >>= fun r => exprOf sub >>= fun b => pure (f r b)) := fun f =>
    (tells_retVal.prepend _).then good_retVal.forward fun _ => he.then hge.forward fun _ => tells_pure _ _
  by_cases h4 : c.toNat = 4
  · have : c = 4 := byte_of_toNat h4
    subst this
    exact tells_ifOf h hg hs
  have h0 : (∀ sub, instrAt sub c = instrTail c) → Tells K [c] (instrTail c) := tells_instrTail
  unfold instrAt at h0 ⊢
  split
  all_goals first
    | exact tells_pure _ _
    | exact hblock _
    | exact hidx _
    | contradiction
    | exact ((tells_vec tells_idx good_idx).prepend _).then (good_vec good_idx).forward fun _ =>
        tells_idx.then good_idx.forward fun _ => tells_pure _ _
    | exact (tells_idx.prepend _).then good_idx.forward fun _ => tells_idx.then good_idx.forward fun _ => tells_pure _ _
    | exact (tells_i32.prepend _).then (good_signed 32).forward fun _ => tells_pure _ _
    | exact (tells_i64.prepend _).then (good_signed 64).forward fun _ => tells_pure _ _
    | exact ((tells_float 4).prepend _).then (good_float 4).forward fun _ => tells_pure _ _
    | exact ((tells_float 8).prepend _).then (good_float 8).forward fun _ => tells_pure _ _
    | skip
  refine h0 fun sub' => ?_
  split <;> first | rfl | contradiction

theorem tells_instrOf {sub : P SubExpr} (h : Tells K [] sub) (hg : Good sub) (hs : Sound sub GSub) : Tells K [] (instrOf sub) :=
  tells_byte_bind fun c => tells_instrAt h hg hs c

theorem tells_subStep {sub : P SubExpr} (h : Tells K [] sub) (hg : Good sub) (next : Instr) : Tells K [] (subStep sub next) := by
  unfold subStep
  split
  · exact tells_pure _ _
  · exact tells_pure _ _
  · exact h.then hg.forward fun _ => tells_pure _ _

theorem tells_subExpr (fuel : Nat) : Tells K [] (parseSubExpr fuel) := by
  induction fuel with
  | zero => intro s e r h h1; cases h; exact (h1 rfl).elim
  | succ fuel ih =>
    rw [parseSubExpr_succ]
    exact (tells_instrOf ih (good_subExpr fuel) (sound_subExpr fuel)).then (good_instrOf (good_subExpr fuel)).forward
      fun next => tells_subStep ih (good_subExpr fuel) next

theorem tells_expr : Tells K [] parseExpr := fun s =>
  tells_exprOf (tells_subExpr (s.length + 1)) (good_subExpr _) (sound_subExpr _) s

theorem tells_constExpr : Tells K [] parseConstExpr := constExpr_eq ▸ tells_expr

/-! ## The parts of a module -/

theorem tells_func : Tells K [] parseFunc :=
  (tells_compactVec tells_val good_val).then (good_compactVec good_val).forward fun _ =>
    tells_expr.then good_expr.forward fun _ => tells_pure _ _

theorem tells_table : Tells K [] parseTable := tells_tableTy.then good_tableTy.forward fun _ => tells_pure _ _
theorem tells_mem : Tells K [] parseMem := tells_memTy.then good_memTy.forward fun _ => tells_pure _ _
theorem tells_global : Tells K [] parseGlobal :=
  tells_globalTy.then good_globalTy.forward fun _ => tells_constExpr.then good_constExpr.forward fun _ => tells_pure _ _
theorem tells_elem : Tells K [] parseElem :=
  tells_idx.then good_idx.forward fun _ => tells_constExpr.then good_constExpr.forward fun _ =>
    (tells_vec tells_idx good_idx).then (good_vec good_idx).forward fun _ => tells_pure _ _
theorem tells_data : Tells K [] parseData :=
  tells_idx.then good_idx.forward fun _ => tells_constExpr.then good_constExpr.forward fun _ =>
    tells_vecByte.then good_vecByte.forward fun _ => tells_pure _ _
theorem tells_start : Tells K [] parseStart := tells_idx.then good_idx.forward fun _ => tells_pure _ _

theorem tells_importDesc : Tells K [] parseImportDesc := by
  refine tells_byte_bind fun c => ?_
  split
  · exact (tells_idx.prepend _).then good_idx.forward fun _ => tells_pure _ _
  · exact (tells_tableTy.prepend _).then good_tableTy.forward fun _ => tells_pure _ _
  · exact (tells_memTy.prepend _).then good_memTy.forward fun _ => tells_pure _ _
  · exact (tells_globalTy.prepend _).then good_globalTy.forward fun _ => tells_pure _ _
  · refine tells_unknown (.import ?_)
    rintro more x h
    cases h <;> simp_all

theorem tells_exportDesc : Tells K [] parseExportDesc := by
  refine tells_byte_bind fun c => ?_
  split
  · exact (tells_idx.prepend _).then good_idx.forward fun _ => tells_pure _ _
  · exact (tells_idx.prepend _).then good_idx.forward fun _ => tells_pure _ _
  · exact (tells_idx.prepend _).then good_idx.forward fun _ => tells_pure _ _
  · exact (tells_idx.prepend _).then good_idx.forward fun _ => tells_pure _ _
  · refine tells_unknown (.export ?_)
    rintro more x h
    cases h <;> simp_all

theorem tells_import : Tells K [] parseImport :=
  tells_string.then good_string.forward fun _ => tells_string.then good_string.forward fun _ =>
    tells_importDesc.then good_importDesc.forward fun _ => tells_pure _ _
theorem tells_export : Tells K [] parseExport :=
  tells_string.then good_string.forward fun _ => tells_exportDesc.then good_exportDesc.forward fun _ => tells_pure _ _

theorem tells_custom : Tells K [] parseCustom :=
  tells_string.then good_string.forward fun _ s e r h => by cases h

/-! ## Sections -/

/-- The errors of a section with number `k`. -/
def SizedTells (k : Nat) (p : P α) : Prop := ∀ s e r, p s = (.error e, r) → e ≠ .fuel → e ≠ .panic →
  ∃ read, s = read ++ r ∧ SizedBlame (Parts k) k read r e

theorem SizedTells.map {p : P α} {k : Nat} (h : SizedTells k p) (f : α → β) : SizedTells k (p >>= fun x => pure (f x)) := by
  intro s e r hs h1 h2
  rcases bind_cases p (fun x => (pure (f x) : P β)) s with ⟨x, s', k1, k2⟩ | ⟨e', s', k1, k2⟩
  · rw [k2] at hs; cases hs
  · rw [k2] at hs; cases hs; exact h s e r k1 h1 h2

theorem tells_field {p : P α} {G : List Byte → α → Prop} {k : Nat} (hp : Tells (Parts k) [] p) (hG : Parses p G)
    (hc : ∀ b, Content k b ↔ ∃ x, G b x) (f : α → LoopState) : SizedTells k (parseSized p >>= fun x => pure (f x)) :=
  SizedTells.map (fun _ _ _ h h1 h2 => sized_error_good hp hG hc h h1 h2) f

theorem content_func (b : List Byte) : Content 12 b ↔ ∃ f : Func, ∃ c, GFunc .code b c ∧ f = { ty := 0, locals := c.1, body := c.2 } :=
  ⟨fun ⟨c, h⟩ => ⟨_, c, h, rfl⟩, fun ⟨_, c, h, _⟩ => ⟨c, h⟩⟩

theorem content_code (b : List Byte) : Content 10 b ↔ ∃ fs : List Func, GVec .code (GSized .code fun b f => ∃ c, GFunc .code b c ∧
    f = { ty := 0, locals := c.1, body := c.2 }) b fs := by
  have : GSized Dialect.code (fun b f => ∃ c, GFunc .code b c ∧ f = { ty := 0, locals := c.1, body := c.2 }) =
      fun b y => ∃ x, GSized .code (GFunc .code) b x ∧ y = preFunc x := by
    funext b x; exact propext (gsized_map preFunc)
  rw [this]
  constructor
  · rintro ⟨xs, h⟩; exact ⟨_, (gvec_map preFunc).mpr ⟨xs, h, rfl⟩⟩
  · rintro ⟨fs, h⟩; obtain ⟨xs, h, _⟩ := (gvec_map preFunc).mp h; exact ⟨xs, h⟩

theorem tells_code : SizedTells 10 (parseSized (parseUnwrappingVec (fun f : Func => f) (parseSized parseFunc))) := by
  rw [unwrappingVec_id]
  have h := tells_sized (K := Parts 10) (k := 12) ⟨rfl, rfl⟩ tells_func parses_func content_func
  exact fun _ _ _ hs h1 h2 => sized_error_good (tells_vec h (good_sized good_func))
    (parses_vec (parses_sized good_func parses_func)) content_code hs h1 h2

theorem tells_customSection : SizedTells 0 (parseSized parseCustom) := by
  refine fun _ _ _ hs h1 h2 => sized_error tells_custom (fun s x r h => ?_) (fun b h more => ?_) hs h1 h2
  · have hr : r = [] := by
      rcases custom_outcome s with ⟨y, hy⟩ | ⟨e, r', _, hy⟩ <;> rw [hy] at h <;> cases h; rfl
    subst hr
    obtain ⟨c, rest, rfl, h1, _⟩ := (custom_nil_iff _ _).mp h
    exact ⟨c ++ rest, by simp, .mk rest h1⟩
  · cases h with
    | @mk c n rest h =>
      exact ⟨(n, (rest ++ more).length), [], (custom_nil_iff _ _).mpr ⟨c, rest ++ more, by simp, h, rfl⟩⟩

end

theorem section_error {id : Byte} {st : LoopState} {s r : List Byte} {e : Error} (h : parseSection id st s = (.error e, r))
    (h1 : e ≠ .fuel) (h2 : e ≠ .panic) : (11 < id.toNat ∧ e = .invalidSectionId id ∧ r = s) ∨
      (id.toNat ≤ 11 ∧ ∃ read, s = read ++ r ∧ SizedBlame (Parts id.toNat) id.toNat read r e) ∨
      (id = 0x0A ∧ e = .unexpectedEndOfFile ∧ ∃ sec codes, s = sec ++ r ∧
        GSized .code (GVec .code (GSized .code (GFunc .code))) sec codes ∧ codes.length ≠ st.funcTypes.length) := by
  have key : ∀ k, id.toNat = k → k ≤ 11 → SizedTells k (parseSection id st) → (id.toNat ≤ 11 ∧ ∃ read, s = read ++ r ∧
      SizedBlame (Parts id.toNat) id.toNat read r e) := by
    rintro k rfl hk ht
    obtain ⟨read, e1, hb⟩ := ht s e r h h1 h2
    exact ⟨hk, read, e1, hb⟩
  by_cases h10 : id.toNat = 10
  · have h10 : id = 0x0A := byte_of_toNat h10
    subst h10
    right
    change (parseSized (parseUnwrappingVec (fun f : Func => f) (parseSized parseFunc)) >>= fun x => _) s = _ at h
    rcases bind_cases (parseSized (parseUnwrappingVec (fun f : Func => f) (parseSized parseFunc))) _ s with ⟨x, s', k1, k2⟩ | ⟨e', s', k1, k2⟩
    · right
      rw [k2] at h
      obtain ⟨b, rfl, codes, hc, rfl⟩ := (parses_codeContent _ _ _).mp k1
      simp only [List.length_map] at h
      split at h
      · rename_i hne
        cases h
        exact ⟨rfl, rfl, b, codes, rfl, hc, hne⟩
      · rename_i hne
        rw [assignTys_eq _ _ (by rw [List.length_map]; exact (Decidable.not_not.mp hne).symm)] at h
        cases h
    · left
      rw [k2] at h
      cases h
      obtain ⟨read, e1, hb⟩ := tells_code s e r k1 h1 h2
      exact ⟨by decide, read, e1, hb⟩
  · by_cases h11 : 11 < id.toNat
    · left
      have : parseSection id st = P.fail (.invalidSectionId id) := by
        unfold parseSection
        split <;> first | omega | rfl
      rw [this] at h
      cases h
      exact ⟨h11, rfl, rfl⟩
    · refine .inr (.inl ?_)
      have hid : id = 0 ∨ id = 1 ∨ id = 2 ∨ id = 3 ∨ id = 4 ∨ id = 5 ∨ id = 6 ∨ id = 7 ∨ id = 8 ∨ id = 9 ∨ id = 11 := by
        simp only [← UInt8.toNat_inj]
        simp only [UInt8.reduceToNat]
        omega
      rcases hid with rfl | rfl | rfl | rfl | rfl | rfl | rfl | rfl | rfl | rfl | rfl <;> refine key _ rfl (by decide) ?_
      · exact tells_customSection.map _
      · exact tells_field (tells_vec tells_funcTy good_funcTy) (parses_vec parses_funcTy) (fun _ => Iff.rfl) _
      · exact tells_field (tells_vec tells_import good_import) (parses_vec parses_import) (fun _ => Iff.rfl) _
      · exact tells_field (tells_vec tells_idx good_idx) (parses_vec parses_idx) (fun _ => Iff.rfl) _
      · exact tells_field (tells_vec tells_table good_table) (parses_vec parses_table) (fun _ => Iff.rfl) _
      · exact tells_field (tells_vec tells_mem good_mem) (parses_vec parses_mem) (fun _ => Iff.rfl) _
      · exact tells_field (tells_vec tells_global good_global) (parses_vec parses_global) (fun _ => Iff.rfl) _
      · exact tells_field (tells_vec tells_export good_export) (parses_vec parses_export) (fun _ => Iff.rfl) _
      · exact tells_field tells_start parses_start (fun _ => Iff.rfl) _
      · exact tells_field (tells_vec tells_elem good_elem) (parses_vec parses_elem) (fun _ => Iff.rfl) _
      · exact tells_field (tells_vec tells_data good_data) (parses_vec parses_data) (fun _ => Iff.rfl) _

/-! ## Modules -/

/-- A section that is not a custom section is there once at most. -/
theorem section_unique {secs : List (Byte × List Byte)} (h : (secIds secs).Pairwise (· < ·)) {id : Byte} {c c' : List Byte} (hid : id.toNat ≠ 0)
    (h1 : (id, c) ∈ secs) (h2 : (id, c') ∈ secs) : c = c' := by
  have hm : ∀ {l : List (Byte × List Byte)} {c : List Byte}, (id, c) ∈ l → id.toNat ∈ secIds l := fun h => by
    simp only [secIds, List.mem_filter, List.mem_map]
    exact ⟨⟨_, h, rfl⟩, by simpa using hid⟩
  induction secs with
  | nil => cases h1
  | cons x secs ih =>
    have hx : x.1 = id → secIds (x :: secs) = id.toNat :: secIds secs := by rintro rfl; simp [secIds, hid]
    have hno : x.1 = id → ∀ c, (id, c) ∉ secs := fun e c hc => by
      rw [hx e] at h
      have := (List.pairwise_cons.mp h).1 _ (hm hc)
      omega
    rcases List.mem_cons.mp h1 with rfl | k1 <;> rcases List.mem_cons.mp h2 with e | k2
    · cases e; rfl
    · exact (hno rfl _ k2).elim
    · subst e; exact (hno rfl _ k1).elim
    · refine ih ?_ k1 k2
      unfold secIds at h ⊢
      rw [List.map_cons, List.filter_cons] at h
      split at h
      · exact (List.pairwise_cons.mp h).2
      · exact h

/-- What the loop knows of the sections `secs` read so far. -/
structure Knows (st0 st : LoopState) (secs : List (Byte × List Byte)) : Prop where
  above : ∀ k ∈ st0.lastId.toNat :: secIds secs, k ≤ st.lastId.toNat
  among : st.lastId.toNat ∈ st0.lastId.toNat :: secIds secs
  types : (st.funcTypes = st0.funcTypes ∧ ∀ c3, (0x03, c3) ∉ secs) ∨ ∃ c3, (0x03, c3) ∈ secs ∧ GVec .code Dialect.code.u32 c3 st.funcTypes

/-- One more section in front of those that are known. -/
theorem knows_step {st st1 st' : LoopState} {s b t : List Byte} {secs : List (Byte × List Byte)} (k1 : parseIteration st s = (.ok st1, b ++ t)) (h1 : RawSecs b secs)
    (h2 : Loop st1.lastId.toNat (st1.funcTypes, st1.result) b st'.result) (h3 : Knows st1 st' secs) :
    ∃ b' secs', s = b' ++ t ∧ RawSecs b' secs' ∧ Loop st.lastId.toNat (st.funcTypes, st.result) b' st'.result ∧ Knows st st' secs' := by
  obtain ⟨b1, hb1, hit⟩ := (parses_iteration st _ _ _).mp k1
  rcases hit with ⟨b', rfl, hc, rfl⟩ | ⟨id, b', s', rfl, hlt, hsec, rfl⟩
  · obtain ⟨g, c, rfl, hg, hu⟩ := gsized_shape hc
    have he : secIds ((0, c) :: secs) = secIds secs := by simp [secIds]
    refine ⟨0x00 :: (g ++ c) ++ b, (0, c) :: secs, by rw [hb1]; simp, ?_, .custom hc h2, ⟨?_, ?_, ?_⟩⟩
    · have := RawSecs.cons (id := 0) hg hu h1; simpa using this
    · rw [he]; exact h3.above
    · rw [he]; exact h3.among
    · rcases h3.types with ⟨e, k⟩ | ⟨c3, k, k'⟩
      · exact .inl ⟨e, fun c3 hc3 => k c3 (by simpa using hc3)⟩
      · exact .inr ⟨c3, List.mem_cons_of_mem _ k, k'⟩
  · obtain ⟨g, c, rfl, hg, hu⟩ := sec_shape hsec
    have hid : id.toNat ≠ 0 := by omega
    have he : secIds ((id, c) :: secs) = id.toNat :: secIds secs := by simp [secIds, hid]
    refine ⟨id :: (g ++ c) ++ b, (id, c) :: secs, by rw [hb1]; simp, ?_, .sec hlt hsec h2, ⟨?_, ?_, ?_⟩⟩
    · have := RawSecs.cons (id := id) hg hu h1; simpa using this
    · rw [he]
      intro k hk
      rcases List.mem_cons.mp hk with rfl | hk
      · have := h3.above _ (List.mem_cons_self ..)
        simp only at this; omega
      · exact h3.above k hk
    · rw [he]; exact List.mem_cons_of_mem _ h3.among
    · by_cases hid3 : id = 0x03
      · subst hid3
        obtain ⟨x, hx, rfl⟩ := (hsec : Sec 3 (st.funcTypes, st.result) (g ++ c) s')
        rcases h3.types with ⟨e, _⟩ | ⟨c3, k, k'⟩
        · refine .inr ⟨c, List.mem_cons_self .., ?_⟩
          rw [e]; exact gsized_raw hg hx
        · exact .inr ⟨c3, List.mem_cons_of_mem _ k, k'⟩
      · rcases h3.types with ⟨e, k⟩ | ⟨c3, k, k'⟩
        · refine .inl ⟨?_, fun c3 hc3 => ?_⟩
          · rw [e]; exact (sec_funcs hsec).1 fun hid => hid3 (byte_of_toNat hid)
          · rcases List.mem_cons.mp hc3 with e | e
            · cases e; exact hid3 rfl
            · exact k c3 e
        · exact .inr ⟨c3, List.mem_cons_of_mem _ k, k'⟩

/-- A loop that fails does so in one iteration after complete sections. -/
theorem loop_error : ∀ (fuel : Nat) (st : LoopState) (s : List Byte) (e : Error) (r : List Byte), e ≠ .fuel →
    sectionLoop fuel st s = (.error e, r) → ∃ b t secs st', s = b ++ t ∧ t ≠ [] ∧ RawSecs b secs ∧
      Loop st.lastId.toNat (st.funcTypes, st.result) b st'.result ∧ Knows st st' secs ∧ parseIteration st' t = (.error e, r) := by
  intro fuel
  induction fuel with
  | zero => intro st s e r he h; cases h; exact (he rfl).elim
  | succ fuel ih =>
    intro st s e r he h
    cases s with
    | nil => cases h
    | cons a s =>
      change (parseIteration st >>= sectionLoop fuel) (a :: s) = _ at h
      rcases bind_cases (parseIteration st) (sectionLoop fuel) (a :: s) with ⟨st1, s1, k1, k2⟩ | ⟨e', s1, k1, k2⟩
      · rw [k2] at h
        obtain ⟨b, t, secs, st', rfl, h0, h1, h2, h3, h4⟩ := ih st1 s1 e r he h
        obtain ⟨b', secs', h5, h6, h7, h8⟩ := knows_step k1 h1 h2 h3
        exact ⟨b', t, secs', st', h5, h0, h6, h7, h8, h4⟩
      · rw [k2] at h
        cases h
        exact ⟨[], a :: s, [], st, rfl, List.cons_ne_nil _ _, .nil, .done, ⟨by simp [secIds], by simp, .inl ⟨rfl, by simp⟩⟩, k1⟩

theorem parseSections_error {s r : List Byte} {e : Error} (h : parseSections s = (.error e, r)) (h1 : e ≠ .fuel) (h2 : e ≠ .panic) :
    ∃ read, s = read ++ r ∧ (ModuleBlame (preamble ++ read) r e ∨ e = .unexpectedEndOfFile ∧ BodyCount (preamble ++ read)) := by
  obtain ⟨b, t, secs, st, rfl, hne, hraw, hloop, hk, hit⟩ := loop_error _ _ _ _ _ h1 h
  have hcomp : Complete b secs := by
    have := (parseModule_loop b st.result []).mpr ⟨rfl, hloop⟩
    exact ⟨hraw, _, ((parseModule_iff _ _ _).mp this).2⟩
  have hab : ∀ k ∈ secIds secs, k ≤ st.lastId.toNat := fun k hk' => hk.above k (List.mem_cons_of_mem _ hk')
  have ham : st.lastId.toNat = 0 ∨ st.lastId.toNat ∈ secIds secs := List.mem_cons.mp hk.among
  cases t with
  | nil => exact (hne rfl).elim
  | cons id t =>
    change (if id ≠ 0x00 then if id ≤ st.lastId then P.fail (.unexpectedSectionId id) else parseSection id { st with lastId := id }
      else parseSection id st) t = _ at hit
    by_cases hid : id = 0x00
    · rw [if_neg (by simpa using hid)] at hit
      rcases section_error hit h1 h2 with ⟨k, _⟩ | ⟨k, read, rfl, hb⟩ | ⟨k, _⟩
      · rw [hid] at k; simp at k
      · exact ⟨b ++ id :: read, by simp, .inl (by simpa using ModuleBlame.content hcomp k (fun h => (h hid).elim) hb)⟩
      · rw [hid] at k; cases k
    · rw [if_pos hid] at hit
      by_cases hle : id ≤ st.lastId
      · rw [if_pos hle] at hit
        cases hit
        have hle := UInt8.le_iff_toNat_le.mp hle
        have h0 : id.toNat ≠ 0 := fun h => hid (byte_of_toNat h)
        have hm : st.lastId.toNat ∈ secIds secs := ham.resolve_left (by omega)
        exact ⟨b ++ [id], by simp, .inl (by simpa using ModuleBlame.sectionOrder hcomp hid hm hle)⟩
      · rw [if_neg hle] at hit
        have hlt : ∀ k ∈ secIds secs, k < id.toNat := fun k hk' => by
          have := hab k hk'
          have := mt UInt8.le_iff_toNat_le.mpr hle
          omega
        rcases section_error hit h1 h2 with ⟨k, rfl, rfl⟩ | ⟨k, read, rfl, hb⟩ | ⟨rfl, rfl, sec, codes, rfl, hv, hne⟩
        · exact ⟨b ++ [id], by simp, .inl (by simpa using ModuleBlame.sectionId hcomp k)⟩
        · exact ⟨b ++ id :: read, by simp, .inl (by simpa using ModuleBlame.content hcomp k (fun _ => hlt) hb)⟩
        · exact ⟨b ++ 0x0A :: sec, by simp, .inr ⟨rfl, by simpa using BodyCount.mk hcomp hlt hk.types (.mk hv) hne⟩⟩

theorem parse4_error {s r : List Byte} {e : Error} (h : parseN 4 parseByte s = (.error e, r)) :
    e = .unexpectedEndOfFile ∧ r = [] ∧ s.length < 4 := by
  rcases s with _ | ⟨a, _ | ⟨b, _ | ⟨c, _ | ⟨d, s⟩⟩⟩⟩ <;> cases h <;> exact ⟨rfl, rfl, by simp⟩

theorem parseModule_error {s r : List Byte} {e : Error} (h : parseModule s = (.error e, r)) (h1 : e ≠ .fuel) (h2 : e ≠ .panic) :
    ∃ read, s = read ++ r ∧ (ModuleBlame read r e ∨ e = .unexpectedEndOfFile ∧ BodyCount read) := by
  unfold parseModule at h
  rcases bind_cases (parseN 4 parseByte) _ s with ⟨m, s1, k1, k2⟩ | ⟨e', s1, k1, k2⟩
  · rw [k2] at h
    obtain ⟨m, rfl, hl, rfl⟩ := (parses4 _ _ _).mp k1
    clear k1 k2
    by_cases hm : m = [0x00, 0x61, 0x73, 0x6D]
    · rw [if_neg (by rw [Decidable.not_not, magic_iff]; exact hm)] at h
      subst hm
      rcases bind_cases (parseN 4 parseByte) _ s1 with ⟨v, s2, k1, k2⟩ | ⟨e', s2, k1, k2⟩
      · rw [k2] at h
        obtain ⟨v, rfl, hv, rfl⟩ := (parses4 _ _ _).mp k1
        by_cases h1000 : v = [1, 0, 0, 0]
        · rw [if_neg (by rw [Decidable.not_not]; exact h1000)] at h
          subst h1000
          obtain ⟨read, rfl, hb⟩ := parseSections_error h h1 h2
          exact ⟨_, rfl, hb⟩
        · rw [if_pos h1000] at h
          cases h
          refine ⟨magic ++ v, by simp [magic], .inl (.version hv fun hc => h1000 ?_)⟩
          exact List.append_cancel_left (as := magic) hc
      · rw [k2] at h
        cases h
        obtain ⟨rfl, rfl, hl⟩ := parse4_error k1
        exact ⟨magic ++ s1, by simp [magic], .inl (.shortVersion hl)⟩
    · rw [if_pos (by rw [ne_eq, magic_iff]; exact hm)] at h
      cases h
      exact ⟨m, rfl, .inl (.magic hl hm)⟩
  · rw [k2] at h
    cases h
    obtain ⟨rfl, rfl, hl⟩ := parse4_error k1
    exact ⟨s, by simp, .inl (.shortMagic hl)⟩

end Whasm
