import Verif.Lemmas.Blame
import Verif.Spec.Fault

/-!
# The parser reports the fault of the grammar

`Faults p F`: `p` fails exactly with the faults `F`. The lemmas follow the parsers; `Parses` is used for the parts that are complete.
-/

namespace Whasm
open Spec

section
variable {α β : Type}

/-- `p` fails with `e` after the bytes `read` exactly if these have the fault `e`. -/
def Faults (p : P α) (F : Fault) : Prop := ∀ s e r, p s = (.error e, r) ↔ ∃ read, s = read ++ r ∧ F read r e

theorem Faults.congr {p : P α} {F H : Fault} (h : Faults p F) (e : ∀ read rest err, F read rest err ↔ H read rest err) : Faults p H := by
  intro s err r; rw [h s err r]
  exact exists_congr fun b => and_congr_right fun _ => e b r err

theorem faults_pure (x : α) : Faults (pure x : P α) fun _ _ _ => False := by
  intro s e r
  constructor
  · intro h; cases h
  · rintro ⟨_, _, h⟩; exact h.elim

theorem faults_fail (e : Error) : Faults (P.fail e : P α) fun read _ e' => read = [] ∧ e' = e := by
  intro s e' r
  rw [fail_apply]
  constructor
  · intro h; cases h; exact ⟨[], rfl, rfl, rfl⟩
  · rintro ⟨_, rfl, rfl, rfl⟩; rfl

theorem Faults.bind {p : P α} {f : α → P β} {F : Fault} {G : List Byte → α → Prop} {H : α → Fault} (hp : Faults p F) (hG : Parses p G)
    (hf : ∀ x, Faults (f x) (H x)) :
    Faults (p >>= f) fun read rest e => F read rest e ∨ ∃ b x c, read = b ++ c ∧ G b x ∧ H x c rest e := by
  intro s e r
  rcases bind_cases p f s with ⟨x, s', h1, h2⟩ | ⟨e', s', h1, h2⟩
  · rw [h2, hf x s' e r]
    obtain ⟨b, rfl, hb⟩ := (hG _ _ _).mp h1
    constructor
    · rintro ⟨c, rfl, hc⟩; exact ⟨b ++ c, by simp, .inr ⟨b, x, c, rfl, hb, hc⟩⟩
    · rintro ⟨read, hs, h | ⟨b', x', c, rfl, hb', hc⟩⟩
      · rw [(hp _ _ _).mpr ⟨read, hs, h⟩] at h1; cases h1
      · have h3 : p (b ++ s') = (.ok x', c ++ r) := (hG _ _ _).mpr ⟨b', by rw [hs, List.append_assoc], hb'⟩
        rw [h1] at h3; cases h3
        exact ⟨c, rfl, hc⟩
  · rw [h2]
    rw [show ((Except.error e', s') = ((Except.error e, r) : Except Error β × List Byte)) ↔ p s = (.error e, r) by rw [h1]; constructor <;> (intro h; cases h; rfl), hp s e r]
    constructor
    · rintro ⟨read, hs, h⟩; exact ⟨read, hs, .inl h⟩
    · rintro ⟨read, hs, h | ⟨b', x', c, rfl, hb', _⟩⟩
      · exact ⟨read, hs, h⟩
      · rw [(hG _ _ _).mpr ⟨b', by rw [hs, List.append_assoc], hb'⟩] at h1; cases h1

theorem Faults.then {p : P α} {f : α → P β} {F : Fault} {G : List Byte → α → Prop} {H : Fault} (hp : Faults p F) (hG : Parses p G)
    (hf : ∀ x, Faults (f x) H) : Faults (p >>= f) (Then F G H) := by
  refine (hp.bind hG hf).congr fun read rest e => ⟨?_, ?_⟩
  · rintro (h | ⟨b, x, c, rfl, h1, h2⟩)
    · exact .first h
    · exact .second h1 h2
  · rintro (h | ⟨h1, h2⟩)
    · exact .inl h
    · exact .inr ⟨_, _, _, rfl, h1, h2⟩

theorem Faults.map {p : P α} {F : Fault} (f : α → β) (hp : Faults p F) : Faults (p >>= fun x => pure (f x)) F := by
  intro s e r
  rcases bind_cases p (fun x => (pure (f x) : P β)) s with ⟨x, s', h1, h2⟩ | ⟨e', s', h1, h2⟩
  · rw [h2]
    constructor
    · intro h; cases h
    · intro h; rw [(hp _ _ _).mpr h] at h1; cases h1
  · rw [h2, ← hp s e r, h1]
    constructor <;> (intro h; cases h; rfl)

theorem faults_byte : Faults parseByte (BytesFault 1) := by
  intro s e r
  cases s with
  | nil =>
    constructor
    · intro h; cases h; exact ⟨[], rfl, .short (by decide)⟩
    · rintro ⟨read, hs, ⟨h⟩⟩; rfl
  | cons b s =>
    constructor
    · intro h; cases h
    · rintro ⟨read, hs, ⟨h⟩⟩
      rw [List.append_nil] at hs
      rw [← hs] at h; simp at h

/-- A parser that starts by switching on a byte. -/
theorem faults_byte_bind {f : Byte → P β} {H : Byte → Fault} (hf : ∀ c, Faults (f c) (H c)) :
    Faults (parseByte >>= f) fun read rest e => (read = [] ∧ rest = [] ∧ e = .unexpectedEndOfFile) ∨ ∃ c b, read = c :: b ∧ H c b rest e := by
  refine (faults_byte.bind parses_byte hf).congr fun read rest e => ⟨?_, ?_⟩
  · rintro (⟨⟨h⟩⟩ | ⟨b, x, c, rfl, ⟨⟩, h⟩)
    · exact .inl ⟨List.eq_nil_of_length_eq_zero (by omega), rfl, rfl⟩
    · exact .inr ⟨_, _, rfl, h⟩
  · rintro (⟨rfl, rfl, rfl⟩ | ⟨c, b, rfl, h⟩)
    · exact .inl (.short (by decide))
    · exact .inr ⟨[c], c, b, rfl, .mk c, h⟩

/-- After complete elements another one is read. -/
def Items (n : Nat) (G : List Byte → α → Prop) (F : Fault) : Fault := fun read rest e =>
  ∃ bs xs f, read = bs ++ f ∧ GSeq G bs xs ∧ xs.length < n ∧ F f rest e

theorem items_succ {n : Nat} {G : List Byte → α → Prop} {F : Fault} {read rest : List Byte} {e : Error} :
    Items (n + 1) G F read rest e ↔ F read rest e ∨ ∃ b x c, read = b ++ c ∧ G b x ∧ Items n G F c rest e := by
  constructor
  · rintro ⟨bs, xs, f, rfl, h1, h2, h3⟩
    cases h1 with
    | nil => exact .inl h3
    | cons h4 h5 => exact .inr ⟨_, _, _, List.append_assoc .., h4, _, _, f, rfl, h5, by simpa using h2, h3⟩
  · rintro (h | ⟨b, x, c, rfl, h1, bs, xs, f, rfl, h2, h3, h4⟩)
    · exact ⟨[], [], read, rfl, .nil, Nat.succ_pos _, h⟩
    · exact ⟨b ++ bs, x :: xs, f, by simp, .cons h1 h2, by simpa using h3, h4⟩

theorem items_zero {G : List Byte → α → Prop} {F : Fault} {read rest : List Byte} {e : Error} : ¬ Items 0 G F read rest e := by
  rintro ⟨_, _, _, _, _, h, _⟩; omega

theorem faults_parseN {p : P α} {G : List Byte → α → Prop} {F : Fault} (hp : Faults p F) (hG : Parses p G) (n : Nat) :
    Faults (parseN n p) (Items n G F) := by
  induction n with
  | zero => exact (faults_pure _).congr fun _ _ _ => ⟨False.elim, items_zero⟩
  | succ n ih => exact (hp.bind hG fun x => ih.map (List.cons x)).congr fun _ _ _ => items_succ.symm

theorem faults_short {n : Nat} : Faults (parseN n parseByte) (BytesFault n) := by
  refine (faults_parseN faults_byte parses_byte n).congr fun read rest e => ⟨?_, ?_⟩
  · rintro ⟨bs, xs, f, rfl, h1, h2, ⟨h3⟩⟩
    obtain rfl := gseq_byte.mp h1
    exact .short (by simp; omega)
  · rintro ⟨h⟩
    exact ⟨read, read, [], by simp, gseq_byte.mpr rfl, h, .short (by decide)⟩

theorem faults_float (n : Nat) : Faults (parseFloat n) (BytesFault n) := faults_short.map _

/-! ## Numbers -/

/-- A parser of numbers, of which the two kinds of errors are known. -/
theorem faults_num {p : P α} {G : List Byte → α → Prop} {err : Error} (hG : Parses p G)
    (h1 : ∀ s e r, p s = (.error e, r) → (e = .unexpectedEndOfFile ∧ r = []) ∨ ∃ enc b, s = enc ++ b :: r ∧ FirstBad G enc b ∧ e = err)
    (h2 : ∀ s r, p s = (.error .unexpectedEndOfFile, r) → ∃ more x, G (s ++ more) x) : Faults p (NumFault G err) := by
  -- nothing follows a complete number
  have hpre : ∀ {b c : List Byte} {x y : α}, G b x → G (b ++ c) y → c = [] := by
    intro b c x y hb hc
    have k1 := hG.complete hb c
    rw [(hG.nil_iff _ _).mpr hc] at k1
    exact (congrArg Prod.snd k1).symm
  intro s e r
  constructor
  · intro h
    rcases h1 s e r h with ⟨rfl, rfl⟩ | ⟨enc, b, rfl, hb, rfl⟩
    · obtain ⟨more, x, hx⟩ := h2 _ _ h
      refine ⟨s, by simp, .short (fun hm => ?_) hx⟩
      subst hm
      rw [List.append_nil] at hx
      rw [(hG.nil_iff _ _).mpr hx] at h; cases h
    · exact ⟨enc ++ [b], by simp, .range hb⟩
  · rintro ⟨read, rfl, h⟩
    cases h with
    | @short _ more x hne hx =>
      rw [List.append_nil]
      rcases hp : p read with ⟨e | y, r⟩
      · rcases h1 _ _ _ hp with ⟨rfl, rfl⟩ | ⟨enc, b, rfl, hb, rfl⟩
        · rfl
        · exact (hb.2 (r ++ more) x (by simpa using hx)).elim
      · obtain ⟨b, rfl, hb⟩ := (hG _ _ _).mp hp
        rw [List.append_assoc] at hx
        exact (hne (List.append_eq_nil_iff.mp (hpre hb hx)).2).elim
    | @range enc _ b hb =>
      obtain ⟨⟨more, x, hne, hx⟩, hex⟩ := hb
      rcases hp : p (enc ++ [b] ++ r) with ⟨e | y, r'⟩
      · rcases h1 _ _ _ hp with ⟨rfl, rfl⟩ | ⟨enc', b', hs, ⟨⟨more', x', _, hx'⟩, hex'⟩, rfl⟩
        · obtain ⟨m, y, hy⟩ := h2 _ _ hp
          exact (hex (r ++ m) y (by simpa using hy)).elim
        · rw [List.append_assoc, List.singleton_append] at hs
          rcases List.append_eq_append_iff.mp hs with ⟨z, hz1, hz2⟩ | ⟨z, hz1, hz2⟩
          · cases z with
            | nil => cases hz2; rfl
            | cons a z =>
              obtain ⟨rfl, rfl⟩ := List.cons.inj hz2
              subst hz1
              exact (hex (z ++ more') x' (by simpa using hx')).elim
          · cases z with
            | nil => cases hz2; rfl
            | cons a z =>
              obtain ⟨rfl, rfl⟩ := List.cons.inj hz2
              subst hz1
              exact (hex' (z ++ more) x (by simpa using hx)).elim
      · obtain ⟨c, hs, hc⟩ := (hG _ _ _).mp hp
        rw [List.append_assoc, List.singleton_append] at hs
        rcases List.append_eq_append_iff.mp hs with ⟨z, rfl, hz2⟩ | ⟨z, rfl, hz2⟩
        · cases z with
          | nil =>
            rw [List.append_nil] at hc
            exact (hne (hpre hc hx)).elim
          | cons a z =>
            obtain ⟨rfl, rfl⟩ := List.cons.inj hz2
            exact (hex z y (by simpa using hc)).elim
        · have := hpre hc (by rw [← List.append_assoc]; exact hx)
          exact (hne (List.append_eq_nil_iff.mp this).2).elim

theorem faults_unsigned {N : Nat} (hN : 7 ≤ N) {G : List Byte → BitVec N → Prop} (hp : Parses (parseUnsigned N) G) :
    Faults (parseUnsigned N) (NumFault G .outOfRangeUnsignedInteger) := by
  refine faults_num hp (fun s e r h => unsigned_split hN hp h) fun s r h => ?_
  rcases group_or_unterminated s with ⟨g, z, rfl, hg⟩ | hu
  · rcases parseUnsigned_group hN hg z with ⟨_, k⟩ | ⟨_, _, k⟩ <;> rw [h] at k <;> cases k
  · rcases parseUnsigned_unterminated hN s hu with ⟨_, v, k⟩ | ⟨mid, k⟩
    · exact ⟨[0], v, extends_of_ok hp k⟩
    · have := k []
      rw [List.append_nil, h] at this; cases this

theorem faults_signed {N : Nat} (hN : 7 ≤ N) {G : List Byte → BitVec N → Prop} (hp : Parses (parseSigned N) G) :
    Faults (parseSigned N) (NumFault G .outOfRangeSignedInteger) := by
  refine faults_num hp (fun s e r h => signed_split hN hp h) fun s r h => ?_
  rcases group_or_unterminated s with ⟨g, z, rfl, hg⟩ | hu
  · rcases parseSigned_group hN hg z with ⟨_, k⟩ | ⟨_, _, k⟩ <;> rw [h] at k <;> cases k
  · rcases parseSigned_unterminated hN s hu with ⟨_, c, _, v, k⟩ | ⟨mid, k⟩
    · exact ⟨[c], v, extends_of_ok hp k⟩
    · have := k []
      rw [List.append_nil, h] at this; cases this

theorem faults_u32 : Faults parseU32 U32Fault := faults_unsigned (by decide) parses_u32
theorem faults_idx : Faults parseIdx U32Fault := faults_u32
theorem faults_i32 : Faults parseI32 S32Fault := faults_signed (by decide) parses_s32
theorem faults_i64 : Faults parseI64 S64Fault := faults_signed (by decide) parses_s64

/-! ## Vectors, names, sized elements -/

theorem vecFault_iff {G : List Byte → α → Prop} {F : Fault} {read rest : List Byte} {e : Error} : VecFault G F read rest e ↔
    U32Fault read rest e ∨ ∃ b n c, read = b ++ c ∧ Dialect.code.u32 b n ∧ Items n.toNat G F c rest e := by
  constructor
  · rintro (h | ⟨h1, h2, h3, h4⟩)
    · exact .inl h
    · exact .inr ⟨_, _, _, List.append_assoc .., h1, _, _, _, rfl, h2, h3, h4⟩
  · rintro (h | ⟨b, n, c, rfl, h1, bs, xs, f, rfl, h2, h3, h4⟩)
    · exact .count h
    · rw [← List.append_assoc]; exact .element h1 h2 h3 h4

theorem faults_vec {p : P α} {G : List Byte → α → Prop} {F : Fault} (hp : Faults p F) (hG : Parses p G) : Faults (parseVec p) (VecFault G F) :=
  (faults_u32.bind parses_u32 fun n => faults_parseN hp hG n.toNat).congr fun _ _ _ => vecFault_iff.symm

theorem faults_runs {p : P α} {G : List Byte → α → Prop} {F : Fault} (hp : Faults p F) (hG : Parses p G) (k : Nat) :
    Faults (parseRuns k p) (Items k (GRun G) (Then U32Fault Dialect.code.u32 F)) := by
  induction k with
  | zero => exact (faults_pure _).congr fun _ _ _ => ⟨False.elim, items_zero⟩
  | succ k ih =>
    refine (faults_u32.bind parses_u32 fun n => hp.bind hG fun x => ih.map fun rest => List.replicate n.toNat x ++ rest).congr fun read rest e => ?_
    rw [items_succ]
    constructor
    · rintro (h | ⟨b, n, c, rfl, h1, h | ⟨b2, x, c, rfl, h2, h3⟩⟩)
      · exact .inl (.first h)
      · exact .inl (.second h1 h)
      · exact .inr ⟨_, _, _, (List.append_assoc ..).symm, .mk h1 h2, h3⟩
    · rintro ((h | ⟨h1, h⟩) | ⟨_, _, c, rfl, ⟨h1, h2⟩, h3⟩)
      · exact .inl h
      · exact .inr ⟨_, _, _, rfl, h1, .inl h⟩
      · exact .inr ⟨_, _, _, List.append_assoc .., h1, .inr ⟨_, _, _, rfl, h2, h3⟩⟩

theorem faults_compactVec {p : P α} {G : List Byte → α → Prop} {F : Fault} (hp : Faults p F) (hG : Parses p G) :
    Faults (parseCompactVec p) (VecFault (GRun G) (Then U32Fault Dialect.code.u32 F)) :=
  (faults_u32.bind parses_u32 fun n => faults_runs hp hG n.toNat).congr fun _ _ _ => vecFault_iff.symm

theorem faults_vecByte : Faults (parseUnwrappingVec (fun b : Byte => b) parseByte) (VecFault GByte (BytesFault 1)) := by
  rw [unwrappingVec_id]; exact faults_vec faults_byte parses_byte

theorem parses_vecBytes : Parses (parseUnwrappingVec (fun b : Byte => b) parseByte) (GVec .code GByte) := by
  rw [unwrappingVec_id]; exact parses_vec parses_byte

theorem faults_string : Faults parseString NameFault := by
  refine (faults_vecByte.bind (H := fun raw read _ e => read = [] ∧ e = .invalidUtf8Encoding ∧ ¬ IsUtf8 raw) parses_vecBytes fun raw => ?_).congr
    fun read rest e => ⟨?_, ?_⟩
  · rw [← validUtf8_iff]
    split
    · rename_i h
      exact (faults_pure _).congr fun _ _ _ => ⟨False.elim, fun k => k.2.2 h⟩
    · rename_i h
      exact (faults_fail _).congr fun _ _ _ => ⟨fun k => ⟨k.1, k.2, h⟩, fun k => ⟨k.1, k.2.1⟩⟩
  · rintro (h | ⟨b, x, c, rfl, h1, rfl, rfl, h2⟩)
    · exact .bytes h
    · rw [List.append_nil]; exact .utf8 h1 h2
  · rintro (h | ⟨h1, h2⟩)
    · exact .inl h
    · exact .inr ⟨_, _, [], by simp, h1, rfl, rfl, h2⟩

theorem window_take {n : Nat} {part r after : List Byte} (h : Window n part r after) :
    (part ++ (r ++ after)).take n = part ++ r ∧ (part ++ (r ++ after)).drop n = after := by
  rw [← List.append_assoc]
  rcases h with rfl | ⟨h, rfl⟩
  · exact ⟨List.take_left, List.drop_left⟩
  · rw [List.append_nil]
    exact ⟨List.take_of_length_le (by omega), List.drop_of_length_le (by omega)⟩

theorem take_window {n : Nat} {s part r : List Byte} (h : s.take n = part ++ r) : Window n part r (s.drop n) := by
  have hl := congrArg List.length h
  rw [List.length_take] at hl
  by_cases hs : n ≤ s.length
  · exact .inl (by omega)
  · exact .inr ⟨by omega, List.drop_of_length_le (by omega)⟩

/-- The content of something with a size; `C part r` says that it is complete after `part` and leaves `r`. -/
theorem faults_sizedBody {p : P α} {F : Fault} {C : List Byte → List Byte → Prop} (hp : Faults p F)
    (hC : ∀ s r, (∃ x, p s = (.ok x, r)) ↔ ∃ b, s = b ++ r ∧ C b r) (n : Nat) : Faults (sizedBody p n) fun read rest e =>
      (∃ r after, rest = r ++ after ∧ Window n read r after ∧ F read r e) ∨
      (e = .sizeMissmatch ∧ ∃ r after, rest = r ++ after ∧ Window n read r after ∧ C read r ∧ read.length < n) := by
  intro s e r
  unfold sizedBody
  constructor
  · intro h
    rcases hq : p (s.take n) with ⟨e' | x, q⟩ <;> rw [hq] at h
    · cases h
      obtain ⟨read, hr, hf⟩ := (hp _ _ _).mp hq
      exact ⟨read, by rw [← List.append_assoc, ← hr, List.take_append_drop], .inl ⟨q, _, rfl, take_window hr, hf⟩⟩
    · simp only at h
      split at h
      · rename_i hne
        cases h
        obtain ⟨b, hb, hc⟩ := (hC _ _).mp ⟨x, hq⟩
        refine ⟨b, by rw [← List.append_assoc, ← hb, List.take_append_drop], .inr ⟨rfl, q, _, rfl, take_window hb, hc, ?_⟩⟩
        have h3 := congrArg List.length hb
        simp only [List.length_append, List.length_take] at h3 hne
        omega
      · cases h
  · rintro ⟨read, rfl, ⟨r, after, rfl, hw, hf⟩ | ⟨rfl, r, after, rfl, hw, hc, hlt⟩⟩
    · obtain ⟨k1, k2⟩ := window_take hw
      rw [k1, k2, (hp _ _ _).mpr ⟨read, rfl, hf⟩]
    · obtain ⟨k1, k2⟩ := window_take hw
      obtain ⟨x, hx⟩ := (hC _ _).mpr ⟨read, rfl, hc⟩
      rw [k1, k2, hx]
      simp only
      rw [if_pos (by simp only [List.length_append]; omega)]

theorem faults_sized {p : P α} {G : List Byte → α → Prop} {F : Fault} {C : List Byte → Prop} (hp : Faults p F) (hG : Parses p G)
    (hC : ∀ b, C b ↔ ∃ x, G b x) : Faults (parseSized p) (SizedFault C F) := by
  rw [parseSized_eq]
  refine (faults_u32.bind parses_u32 fun n => faults_sizedBody (C := fun b _ => C b) hp (fun s r => ?_) n.toNat).congr fun read rest e => ⟨?_, ?_⟩
  · constructor
    · rintro ⟨x, h⟩
      obtain ⟨b, hb, hg⟩ := (hG _ _ _).mp h
      exact ⟨b, hb, (hC b).mpr ⟨x, hg⟩⟩
    · rintro ⟨b, rfl, h⟩
      obtain ⟨x, hx⟩ := (hC b).mp h
      exact ⟨x, hG.complete hx r⟩
  · rintro (h | ⟨b, n, c, rfl, h1, ⟨r, after, rfl, hw, hf⟩ | ⟨rfl, r, after, rfl, hw, hc, hlt⟩⟩)
    · exact .size h
    · exact .content h1 hw hf
    · exact .early h1 hc hlt
  · rintro (h | ⟨h1, hw, hf⟩ | @⟨n, part, _, len, h1, hc, hlt⟩)
    · exact .inl h
    · exact .inr ⟨_, _, _, rfl, h1, .inl ⟨_, _, rfl, hw, hf⟩⟩
    · refine .inr ⟨n, len, part, rfl, h1, .inr ⟨rfl, rest.take (len.toNat - part.length), rest.drop (len.toNat - part.length), (List.take_append_drop ..).symm, ?_, hc, hlt⟩⟩
      have hm : (part ++ rest).take len.toNat = part ++ rest.take (len.toNat - part.length) := by
        rw [List.take_append]; rw [List.take_of_length_le (by omega)]
      have := take_window hm
      rwa [show (part ++ rest).drop len.toNat = rest.drop (len.toNat - part.length) by rw [List.drop_append, List.drop_of_length_le (by omega), List.nil_append]] at this

theorem faults_custom : Faults parseCustom NameFault := by
  intro s e r
  rw [← faults_string s e r]
  unfold parseCustom
  rcases bind_cases parseString (fun name => parseConsume >>= fun n => pure (name, n)) s with ⟨x, s', h1, h2⟩ | ⟨e', s', h1, h2⟩
  · rw [h2, h1]
    constructor <;> (intro h; cases h)
  · rw [h2, h1]
    constructor <;> (intro h; cases h; rfl)

theorem faults_customSection : Faults (parseSized parseCustom) CustomFault := by
  rw [parseSized_eq]
  refine (faults_u32.bind parses_u32 fun n => faults_sizedBody (C := fun b r => GCustom .code b () ∧ r = []) faults_custom (fun s r => ?_) n.toNat).congr
    fun read rest e => ⟨?_, ?_⟩
  · constructor
    · rintro ⟨x, h⟩
      have hr : r = [] := by
        rcases custom_outcome s with ⟨y, hy⟩ | ⟨e, r', _, hy⟩ <;> rw [hy] at h <;> cases h; rfl
      subst hr
      obtain ⟨c, rest, rfl, h1, _⟩ := (custom_nil_iff _ _).mp h
      exact ⟨c ++ rest, by simp, .mk rest h1, rfl⟩
    · rintro ⟨b, rfl, ⟨rest, h⟩, rfl⟩
      exact ⟨(_, rest.length), (custom_nil_iff _ _).mpr ⟨_, rest, by simp, h, rfl⟩⟩
  · rintro (h | ⟨b, n, c, rfl, h1, ⟨r, after, rfl, hw, hf⟩ | ⟨rfl, r, after, rfl, hw, ⟨hc, rfl⟩, hlt⟩⟩)
    · exact .size h
    · exact .name h1 hw hf
    · rcases hw with hw | ⟨_, rfl⟩
      · simp at hw; omega
      · exact .early h1 hc hlt
  · rintro (h | ⟨h1, hw, hf⟩ | ⟨h1, hc, hlt⟩)
    · exact .inl h
    · exact .inr ⟨_, _, _, rfl, h1, .inl ⟨_, _, rfl, hw, hf⟩⟩
    · exact .inr ⟨_, _, _, rfl, h1, .inr ⟨rfl, [], [], rfl, .inr ⟨by simpa using hlt, rfl⟩, ⟨hc, rfl⟩, hlt⟩⟩

/-! ## Types -/

/-- A parser that starts with a byte that tells the alternative. -/
theorem faults_tag {f : Byte → P β} {G : List Byte → β → Prop} {ty : String} {H : Byte → Fault}
    (h : ∀ c, (Excludes G [c] ∧ f c = P.fail (.invalidVariantId c ty)) ∨ (¬ Excludes G [c] ∧ Faults (f c) (H c))) :
    Faults (parseByte >>= f) fun read rest e => TagFault G ty read rest e ∨ ∃ c b, read = c :: b ∧ ¬ Excludes G [c] ∧ H c b rest e := by
  refine (faults_byte_bind (H := fun c read rest e => (Excludes G [c] ∧ read = [] ∧ e = .invalidVariantId c ty) ∨ (¬ Excludes G [c] ∧ H c read rest e))
    fun c => ?_).congr fun read rest e => ⟨?_, ?_⟩
  · rcases h c with ⟨h1, h2⟩ | ⟨h1, h2⟩
    · rw [h2]
      exact (faults_fail _).congr fun _ _ _ => ⟨fun k => .inl ⟨h1, k⟩, fun k => k.elim And.right fun k => (k.1 h1).elim⟩
    · exact h2.congr fun _ _ _ => ⟨fun k => .inr ⟨h1, k⟩, fun k => k.elim (fun k => (h1 k.1).elim) And.right⟩
  · rintro (⟨rfl, rfl, rfl⟩ | ⟨c, b, rfl, ⟨h1, rfl, rfl⟩ | h1⟩)
    · exact .inl .short
    · exact .inl (.unknown h1)
    · exact .inr ⟨c, b, rfl, h1⟩
  · rintro (⟨_ | h1⟩ | ⟨c, b, rfl, h1⟩)
    · exact .inl ⟨rfl, rfl, rfl⟩
    · exact .inr ⟨_, _, rfl, .inl ⟨‹_›, rfl, rfl⟩⟩
    · exact .inr ⟨c, b, rfl, .inr h1⟩

/-- There is an alternative with this byte. -/
theorem included {G : List Byte → α → Prop} {c : Byte} (more : List Byte) {x : α} (h : G (c :: more) x) : ¬ Excludes G [c] := fun k => k more x h

theorem u32_zero : Dialect.code.u32 [0x00] 0 := ⟨by decide, by decide⟩

/-- Parsers of a single byte. -/
theorem faults_single {f : Byte → P β} {G : List Byte → β → Prop} {ty : String}
    (h : ∀ c, (Excludes G [c] ∧ f c = P.fail (.invalidVariantId c ty)) ∨ (¬ Excludes G [c] ∧ ∃ x, f c = pure x)) :
    Faults (parseByte >>= f) (TagFault G ty) := by
  refine (faults_tag (ty := ty) (G := G) (H := fun _ _ _ _ => False) fun c => ?_).congr fun read rest e => ⟨?_, .inl⟩
  · rcases h c with h | ⟨h, x, hx⟩
    · exact .inl h
    · rw [hx]; exact .inr ⟨h, faults_pure x⟩
  · rintro (h | ⟨_, _, _, _, h⟩)
    · exact h
    · exact h.elim

theorem faults_val : Faults parseVal ValFault := by
  refine faults_single fun c => ?_
  by_cases h1 : c.toNat = 0x7F
  · obtain rfl : c = 0x7F := byte_of_toNat h1; exact .inr ⟨included [] .i32, _, rfl⟩
  by_cases h2 : c.toNat = 0x7E
  · obtain rfl : c = 0x7E := byte_of_toNat h2; exact .inr ⟨included [] .i64, _, rfl⟩
  by_cases h3 : c.toNat = 0x7D
  · obtain rfl : c = 0x7D := byte_of_toNat h3; exact .inr ⟨included [] .f32, _, rfl⟩
  by_cases h4 : c.toNat = 0x7C
  · obtain rfl : c = 0x7C := byte_of_toNat h4; exact .inr ⟨included [] .f64, _, rfl⟩
  refine .inl ⟨val_excludes h1 h2 h3 h4, ?_⟩
  split <;> first | contradiction | rfl

theorem faults_retVal : Faults parseRetVal RetValFault := by
  refine faults_single fun c => ?_
  by_cases h0 : c.toNat = 0x40
  · obtain rfl : c = 0x40 := byte_of_toNat h0; exact .inr ⟨included [] .empty, _, rfl⟩
  rcases val_one c with ⟨v, h⟩ | ⟨h, hx⟩
  · refine .inr ⟨included [] (.val (extends_of_ok parses_val h)), [v], ?_⟩
    split
    · contradiction
    · rw [h]
  · refine .inl ⟨?_, ?_⟩
    · rintro more x k
      generalize hb : [c] ++ more = b at k
      cases k with
      | empty => obtain ⟨rfl, _⟩ := List.cons.inj hb; exact h0 rfl
      | val k => subst hb; exact hx more _ k
    · split
      · contradiction
      · rw [h]

theorem faults_elemTy : Faults parseElemTy (TagFault GElemTy "ty::Elem") := by
  refine faults_single fun c => ?_
  by_cases h0 : c.toNat = 0x70
  · obtain rfl : c = 0x70 := byte_of_toNat h0; exact .inr ⟨included [] .funcRef, _, rfl⟩
  refine .inl ⟨?_, ?_⟩
  · rintro more x ⟨⟩; exact h0 rfl
  · split <;> first | contradiction | rfl

theorem faults_mut : Faults parseMut (TagFault GMut "ty::Mut") := by
  refine faults_single fun c => ?_
  by_cases h0 : c.toNat = 0x00
  · obtain rfl : c = 0x00 := byte_of_toNat h0; exact .inr ⟨included [] .const, _, rfl⟩
  by_cases h1 : c.toNat = 0x01
  · obtain rfl : c = 0x01 := byte_of_toNat h1; exact .inr ⟨included [] .var, _, rfl⟩
  refine .inl ⟨?_, ?_⟩
  · rintro more x k
    cases k <;> simp_all
  · split <;> first | contradiction | rfl

theorem faults_limits : Faults parseLimits LimitsFault := by
  refine (faults_tag (G := GLimits .code) (ty := "ty::Limits") (H := fun c read rest e => (c = 0x00 ∧ U32Fault read rest e) ∨
    (c = 0x01 ∧ Then U32Fault Dialect.code.u32 U32Fault read rest e)) fun c => ?_).congr fun read rest e => ⟨?_, ?_⟩
  · by_cases h0 : c.toNat = 0x00
    · obtain rfl : c = 0x00 := byte_of_toNat h0
      refine .inr ⟨included [0] (.min u32_zero), ?_⟩
      exact (faults_u32.map _).congr fun _ _ _ => by simp
    by_cases h1 : c.toNat = 0x01
    · obtain rfl : c = 0x01 := byte_of_toNat h1
      refine .inr ⟨included [0, 0] (.minMax u32_zero u32_zero), ?_⟩
      exact (faults_u32.then parses_u32 fun _ => faults_u32.map _).congr fun _ _ _ => by simp
    refine .inl ⟨?_, ?_⟩
    · rintro more x k
      cases k <;> simp_all
    · split <;> first | contradiction | rfl
  · rintro (h | ⟨c, b, rfl, _, ⟨rfl, h⟩ | ⟨rfl, h⟩⟩)
    · exact .tag h
    · exact .min h
    · exact .minMax h
  · rintro (h | h | h)
    · exact .inl h
    · exact .inr ⟨_, _, rfl, included [0] (.min u32_zero), .inl ⟨rfl, h⟩⟩
    · exact .inr ⟨_, _, rfl, included [0, 0] (.minMax u32_zero u32_zero), .inr ⟨rfl, h⟩⟩

theorem gvec_empty {G : List Byte → α → Prop} : GVec .code G [0x00] [] := .mk (n := [0x00]) u32_zero rfl .nil

theorem faults_funcTy : Faults parseFuncTy FuncTyFault := by
  have hi : ¬ Excludes (GFuncTy .code) [0x60] := included [0, 0] (.mk (b1 := [0]) gvec_empty gvec_empty)
  refine (faults_tag (G := GFuncTy .code) (ty := "ty::Func") (H := fun c read rest e => c = 0x60 ∧
    Then (VecFault GVal ValFault) (GVec .code GVal) (VecFault GVal ValFault) read rest e) fun c => ?_).congr fun read rest e => ⟨?_, ?_⟩
  · by_cases h0 : c.toNat = 0x60
    · obtain rfl : c = 0x60 := byte_of_toNat h0
      refine .inr ⟨hi, ?_⟩
      exact ((faults_vec faults_val parses_val).then (parses_vec parses_val) fun _ => (faults_vec faults_val parses_val).map _).congr fun _ _ _ => by simp
    refine .inl ⟨?_, ?_⟩
    · rintro more x ⟨⟩; exact h0 rfl
    · split <;> first | contradiction | rfl
  · rintro (h | ⟨c, b, rfl, _, rfl, h⟩)
    · exact .tag h
    · exact .vals h
  · rintro (h | h)
    · exact .inl h
    · exact .inr ⟨_, _, rfl, hi, rfl, h⟩

theorem faults_tableTy : Faults parseTableTy TableTyFault := faults_elemTy.then parses_elemTy fun _ => faults_limits.map _
theorem faults_memTy : Faults parseMemTy LimitsFault := faults_limits.map _
theorem faults_globalTy : Faults parseGlobalTy GlobalTyFault := faults_val.then parses_val fun _ => faults_mut.map _

/-! ## Instructions

The parsers with fuel: one direction for each amount of fuel, the other one for enough of it. -/

/-- The errors of `p`, but for missing fuel, are the faults `F`. -/
def Stops (p : P α) (F : Fault) : Prop := ∀ s e r, p s = (.error e, r) → e ≠ .fuel → ∃ read, s = read ++ r ∧ F read r e

theorem Faults.stops {p : P α} {F : Fault} (h : Faults p F) : Stops p F := fun s e r hs _ => (h s e r).mp hs

theorem Stops.mono {p : P α} {F H : Fault} (h : Stops p F) (k : ∀ read rest e, F read rest e → H read rest e) : Stops p H := by
  intro s e r hs he
  obtain ⟨read, h1, h2⟩ := h s e r hs he
  exact ⟨read, h1, k _ _ _ h2⟩

theorem stops_pure (x : α) (F : Fault) : Stops (pure x : P α) F := by intro s e r h; cases h

theorem Stops.bind {p : P α} {f : α → P β} {F H : Fault} {G : List Byte → α → Prop} (hp : Stops p F) (hG : Sound p G) (hF : ∀ read rest e, F read rest e → H read rest e)
    (hf : ∀ b x, G b x → Stops (f x) fun read rest e => H (b ++ read) rest e) : Stops (p >>= f) H := by
  intro s e r hs he
  rcases bind_cases p f s with ⟨x, s', k1, k2⟩ | ⟨e', s', k1, k2⟩
  · obtain ⟨b, rfl, hb⟩ := hG _ _ _ k1
    obtain ⟨read, rfl, h⟩ := hf b x hb s' e r (k2 ▸ hs) he
    exact ⟨b ++ read, by simp, h⟩
  · rw [k2] at hs
    cases hs
    obtain ⟨read, rfl, h⟩ := hp s e r k1 he
    exact ⟨read, rfl, hF _ _ _ h⟩

theorem stops_fail {e : Error} {F : Fault} (h : ∀ r, F [] r e) : Stops (P.fail e : P α) F := by
  intro s e' r hs _; cases hs; exact ⟨[], rfl, h s⟩

theorem stops_exprOf {sub : P SubExpr} (h : Stops sub InstrsFault) (hs : Sound sub GSub) : Stops (exprOf sub) ExprFault := by
  refine h.bind hs (fun _ _ _ => .instrs) fun b se hb => ?_
  obtain ⟨b', hi, ⟨rfl, hn⟩ | ⟨rfl, hn⟩⟩ := hb
  · rw [hn]; exact stops_pure _ _
  · rw [hn]
    exact stops_fail fun r => by rw [List.append_nil]; exact .strayElse hi

theorem stops_block {sub : P SubExpr} (h : Stops sub InstrsFault) (hs : Sound sub GSub) {c : Byte} (hc : c = 0x02 ∨ c = 0x03) (f : RetVal → Expr → Instr) :
    Stops (parseRetVal >>= fun r => exprOf sub >>= fun b => pure (f r b)) fun read rest e => InstrFault (c :: read) rest e := by
  have hb : c ∈ blockOpcodes := by rcases hc with rfl | rfl <;> decide
  refine faults_retVal.stops.bind parses_retVal.sound (fun _ _ _ k => .operand (.block hb k)) fun b1 t h1 => ?_
  refine (stops_exprOf h hs).bind (sound_exprOf hs) (fun read rest e k => ?_) fun _ _ _ => stops_pure _ _
  rcases k with ⟨⟨h2, h3⟩⟩ | h2
  · rw [← List.append_assoc]; exact .inner hb h1 h2 h3
  · rw [← List.append_assoc]; exact .strayElse hc h1 h2

theorem stops_ifOf {sub : P SubExpr} (h : Stops sub InstrsFault) (hs : Sound sub GSub) : Stops (ifOf sub) fun read rest e => InstrFault (0x04 :: read) rest e := by
  refine faults_retVal.stops.bind parses_retVal.sound (fun _ _ _ k => .operand (.block (by decide) k)) fun b1 t h1 => ?_
  refine h.bind hs (fun _ _ _ ⟨h2, h3⟩ => by rw [← List.append_assoc]; exact .inner (by decide) h1 h2 h3) fun b2 se1 h2 => ?_
  obtain ⟨c2, hi2, ⟨rfl, hn2⟩ | ⟨rfl, hn2⟩⟩ := h2
  · unfold elsePart
    rw [hn2, if_neg (by simp [Instr.isElse])]
    exact stops_pure _ _
  · unfold elsePart
    rw [if_pos (by rw [hn2]; rfl)]
    have e : ∀ f : Expr × Instr → P Instr, ((sub >>= fun s2 => pure (s2.body, s2.next)) >>= f) = (sub >>= fun s2 => f (s2.body, s2.next)) := by
      intro f; funext s
      rcases hq : sub s with ⟨e | x, r⟩
      · rw [bind_of_error (bind_of_error hq), bind_of_error hq]
      · rw [bind_of_ok (map_complete hq _), bind_of_ok hq]
    rw [e]
    refine h.bind hs (fun _ _ _ ⟨h2, h3⟩ => ?_) fun b3 se2 h3 => ?_
    · have := InstrFault.innerElse h1 hi2 h2 h3
      simpa using this
    · obtain ⟨c3, hi3, ⟨rfl, hn3⟩ | ⟨rfl, hn3⟩⟩ := h3
      · simp only
        rw [hn3, if_pos (show Instr.isEnd .endMark = true from rfl)]
        exact stops_pure _ _
      · simp only
        rw [hn3, if_neg (by simp [Instr.isEnd])]
        exact stops_fail fun r => by simpa using InstrFault.secondElse h1 hi2 hi3

theorem faults_two (f : U32 → U32 → Instr) : Faults (parseU32 >>= fun a => parseU32 >>= fun b => pure (f a b)) (Then U32Fault Dialect.code.u32 U32Fault) :=
  faults_u32.then parses_u32 fun _ => faults_u32.map _

theorem stops_instrTail {c : Byte} (h0 : ∀ sub, instrAt sub c = instrTail c) (h5 : c ≠ 0x05) (hB : c ≠ 0x0B) :
    Stops (instrTail c) fun read rest e => InstrFault (c :: read) rest e := by
  have ht := fun e => tail_excludes (e := e) h0
  unfold instrTail at ht ⊢
  split
  · rename_i op h1
    exact (faults_two _).stops.mono fun _ _ _ k => .operand (.two (.inr (.inl ⟨op, loadTable_opcode h1⟩)) k)
  · rename_i h1
    rw [h1] at ht
    split
    · rename_i op h2
      exact (faults_two _).stops.mono fun _ _ _ k => .operand (.two (.inr (.inr ⟨op, storeTable_opcode h2⟩)) k)
    · rename_i h2
      rw [h2] at ht
      split
      · exact stops_pure _ _
      · rename_i h3
        rw [h3] at ht
        exact stops_fail fun r => .unknown (ht _ rfl) hB h5

theorem stops_instrAt {sub : P SubExpr} (h : Stops sub InstrsFault) (hs : Sound sub GSub) (c : Byte) :
    Stops (instrAt sub c) fun read rest e => InstrFault (c :: read) rest e := by
  have hidx : c ∈ indexOpcodes → ∀ f : Idx → Instr, Stops (parseIdx >>= fun i => pure (f i)) fun read rest e => InstrFault (c :: read) rest e :=
    fun hc f => (faults_idx.map f).stops.mono fun _ _ _ k => .operand (.index hc k)
  have h0 : (∀ sub, instrAt sub c = instrTail c) → c ≠ 0x05 → c ≠ 0x0B → Stops (instrTail c) fun read rest e => InstrFault (c :: read) rest e := stops_instrTail
  have h5 : c = 0x05 → c.toNat = 0x05 := by rintro rfl; rfl
  have hB : c = 0x0B → c.toNat = 0x0B := by rintro rfl; rfl
  unfold instrAt at h0 ⊢
  split
  case h_27 => 
    refine h0 (fun sub' => ?_) (fun k => ?_) (fun k => ?_)
    · split <;> first | rfl | contradiction
    · have := h5 k; contradiction
    · have := hB k; contradiction
  all_goals
    rename_i hc
    obtain rfl := byte_of_toNat hc
  all_goals first
    | exact stops_pure _ _
    | exact hidx (by decide) _
    | exact stops_block h hs (.inl rfl) _
    | exact stops_block h hs (.inr rfl) _
    | exact stops_ifOf h hs
    | exact ((faults_vec faults_idx parses_idx).then (parses_vec parses_idx) fun _ => faults_idx.map _).stops.mono fun _ _ _ k => .operand (.table k)
    | exact (faults_two _).stops.mono fun _ _ _ k => .operand (.two (.inl rfl) k)
    | exact (faults_i32.map _).stops.mono fun _ _ _ k => .operand (.i32 k)
    | exact (faults_i64.map _).stops.mono fun _ _ _ k => .operand (.i64 k)
    | exact ((faults_float 4).map _).stops.mono fun _ _ _ k => .operand (.f32 k)
    | exact ((faults_float 8).map _).stops.mono fun _ _ _ k => .operand (.f64 k)

theorem stops_instrOf {sub : P SubExpr} (h : Stops sub InstrsFault) (hs : Sound sub GSub) : Stops (instrOf sub) InstrFault := by
  refine faults_byte.stops.bind parses_byte.sound (fun read rest e ⟨k⟩ => ?_) fun b c hb => ?_
  · rw [List.eq_nil_of_length_eq_zero (show read.length = 0 by omega)]; exact .short
  · cases hb; exact stops_instrAt h hs c

theorem stops_subExpr (fuel : Nat) : Stops (parseSubExpr fuel) InstrsFault := by
  induction fuel with
  | zero => intro s e r h h1; cases h; exact (h1 rfl).elim
  | succ fuel ih =>
    rw [parseSubExpr_succ]
    refine (stops_instrOf ih (sound_subExpr fuel)).bind (sound_instrOf (sound_subExpr fuel)) (fun _ _ _ k => .mk .nil k) fun b i hb => ?_
    unfold subStep
    split
    · exact stops_pure _ _
    · exact stops_pure _ _
    · rename_i h1 h2
      refine Stops.bind (G := fun _ _ => True) ih ?_ (fun read rest e ⟨k1, k2⟩ => ?_) fun _ _ _ => stops_pure _ _
      · intro s x r h
        obtain ⟨b, hb, _⟩ := sound_subExpr fuel s x r h
        exact ⟨b, hb, trivial⟩
      · rcases hb with hb | ⟨_, hb⟩ | ⟨_, hb⟩
        · rw [← List.append_assoc]; exact .mk (.cons hb k1) k2
        · exact (h1 hb).elim
        · exact (h2 hb).elim

/-! ### The other direction -/

theorem operand_fault {c : Byte} {read rest : List Byte} {e : Error} (h : OperandFault c read rest e) (sub : P SubExpr) :
    instrAt sub c (read ++ rest) = (.error e, rest) := by
  cases h with
  | index hc h =>
    have k : ∀ f : Idx → Instr, (parseIdx >>= fun i => pure (f i)) (read ++ rest) = (.error e, rest) := fun f => (faults_idx.map f _ _ _).mpr ⟨read, rfl, h⟩
    simp only [indexOpcodes, List.mem_cons, List.not_mem_nil, or_false] at hc
    rcases hc with rfl | rfl | rfl | rfl | rfl | rfl | rfl | rfl | rfl | rfl <;> exact k _
  | two hc h =>
    have k : ∀ f : U32 → U32 → Instr, (parseU32 >>= fun a => parseU32 >>= fun b => pure (f a b)) (read ++ rest) = (.error e, rest) := fun f =>
      (faults_two f _ _ _).mpr ⟨read, rfl, h⟩
    rcases hc with rfl | ⟨op, rfl⟩ | ⟨op, rfl⟩
    · exact k _
    · rw [instrAt_load]; exact k _
    · rw [instrAt_store]; exact k _
  | table h => exact (((faults_vec faults_idx parses_idx).then (parses_vec parses_idx) fun _ => faults_idx.map _) _ _ _).mpr ⟨read, rfl, h⟩
  | i32 h => exact (faults_i32.map _ _ _ _).mpr ⟨read, rfl, h⟩
  | i64 h => exact (faults_i64.map _ _ _ _).mpr ⟨read, rfl, h⟩
  | f32 h => exact ((faults_float 4).map _ _ _ _).mpr ⟨read, rfl, h⟩
  | f64 h => exact ((faults_float 8).map _ _ _ _).mpr ⟨read, rfl, h⟩
  | block hc h =>
    have k := (faults_retVal _ _ _).mpr ⟨read, rfl, h⟩
    simp only [blockOpcodes, List.mem_cons, List.not_mem_nil, or_false] at hc
    rcases hc with rfl | rfl | rfl <;> exact bind_of_error k

/-- Operands that make an instruction of each opcode. -/
def someOperands : List (List Byte) := [[], [0], [0, 0], [0, 0, 0, 0], [0, 0, 0, 0, 0, 0, 0, 0], [0x40, 0x0B]]

theorem opcodes_all : ∀ n : Fin 256, n = 0x05 ∨ n = 0x0B ∨
    (n.val ∉ [0x00, 0x01, 0x02, 0x03, 0x04, 0x05, 0x0B, 0x0C, 0x0D, 0x0E, 0x0F, 0x10, 0x11, 0x1A, 0x1B, 0x20, 0x21, 0x22, 0x23, 0x24, 0x3F, 0x40, 0x41, 0x42, 0x43, 0x44] ∧
      loadTable.lookup n.val = none ∧ storeTable.lookup n.val = none ∧ numTable.lookup n.val = none) ∨
    ∃ more ∈ someOperands, (match parseInstr (UInt8.ofNat n.val :: more) with | (.ok _, []) => true | _ => false) = true := by decide +kernel

theorem unknown_fault {b : Byte} (h : Excludes (GInstr .code) [b]) (hB : b ≠ 0x0B) (h5 : b ≠ 0x05) (sub : P SubExpr) :
    instrAt sub b = P.fail (.invalidVariantId b "instr::Instr") := by
  rcases opcodes_all ⟨b.toNat, b.toNat_lt⟩ with k | k | ⟨k0, k1, k2, k3⟩ | ⟨more, _, k⟩
  · exact (h5 (byte_of_toNat (congrArg Fin.val k))).elim
  · exact (hB (byte_of_toNat (congrArg Fin.val k))).elim
  · simp only [List.mem_cons, List.not_mem_nil, or_false, not_or] at k0
    simp only at k1 k2 k3
    unfold instrAt
    split
    case h_27 => unfold instrTail; rw [k1, k2, k3]
    all_goals omega
  · simp only [UInt8.ofNat_toNat] at k
    split at k
    · rename_i i heq
      obtain ⟨c, hc, hi | ⟨rfl, _⟩ | ⟨rfl, _⟩⟩ := (parses_instr _ _ _).mp heq
      · rw [List.append_nil] at hc
        subst hc
        exact (h more i hi).elim
      · cases hc; exact (hB rfl).elim
      · cases hc; exact (h5 rfl).elim
    · cases k

theorem instrs_fault {b read rest : List Byte} {is : List Instr} {e : Error} (h : GInstrs .code b is)
    (hi : ∀ fuel, read.length ≤ fuel → instrOf (parseSubExpr fuel) (read ++ rest) = (.error e, rest)) :
    ∀ fuel, (b ++ read).length < fuel → parseSubExpr fuel (b ++ (read ++ rest)) = (.error e, rest) := by
  intro fuel
  induction fuel generalizing b is with
  | zero => intro hf; omega
  | succ fuel ih =>
    intro hf
    rw [List.length_append] at hf
    cases h with
    | nil =>
      rw [parseSubExpr_succ]
      exact bind_of_error (hi fuel (by simp at hf; omega))
    | @cons b bs i is h1 h2 =>
      have hb : 0 < b.length := List.length_pos_iff.mpr (ginstr_ne_nil h1)
      simp only [List.length_append] at hf
      rw [parseSubExpr_succ, List.append_assoc, bind_of_ok (instr_complete h1 fuel (by omega) _),
        subStep_other (ginstr_not_mark h1), bind_of_error (ih h2 (by simp; omega))]

theorem instr_fault {read rest : List Byte} {e : Error} (h : InstrFault read rest e) :
    ∀ fuel, read.length ≤ fuel → instrOf (parseSubExpr fuel) (read ++ rest) = (.error e, rest) := by
  induction h with
  | short => intros; rfl
  | unknown h1 h2 h3 =>
    intro fuel _
    rw [List.singleton_append, instrOf_cons, unknown_fault h1 h2 h3]; rfl
  | operand h => intro fuel _; exact operand_fault h _
  | @inner c b1 b2 read rest t is e hc h1 h2 _ ih =>
    intro fuel hf
    have k := instrs_fault h2 ih fuel (by simp at hf ⊢; omega)
    have e1 : c :: b1 ++ b2 ++ read ++ rest = c :: (b1 ++ (b2 ++ (read ++ rest))) := by simp
    rw [e1, instrOf_cons]
    simp only [blockOpcodes, List.mem_cons, List.not_mem_nil, or_false] at hc
    rcases hc with rfl | rfl | rfl
    · change (parseRetVal >>= fun r => exprOf (parseSubExpr fuel) >>= fun b => pure (Instr.block r b)) _ = _
      rw [bind_of_ok (retVal_complete h1 _)]; exact bind_of_error (bind_of_error k)
    · change (parseRetVal >>= fun r => exprOf (parseSubExpr fuel) >>= fun b => pure (Instr.loop r b)) _ = _
      rw [bind_of_ok (retVal_complete h1 _)]; exact bind_of_error (bind_of_error k)
    · change ifOf _ _ = _
      unfold ifOf
      rw [bind_of_ok (retVal_complete h1 _)]; exact bind_of_error k
  | @innerElse b1 b2 b3 read rest t is js e h1 h2 h3 _ ih =>
    intro fuel hf
    simp only [List.length_cons, List.length_append, List.cons_append] at hf
    have k := instrs_fault h3 ih fuel (by simp; omega)
    have e1 : 0x04 :: b1 ++ b2 ++ [0x05] ++ b3 ++ read ++ rest = 0x04 :: (b1 ++ (b2 ++ 0x05 :: (b3 ++ (read ++ rest)))) := by simp
    rw [e1, instrOf_cons]
    change ifOf _ _ = _
    unfold ifOf
    rw [bind_of_ok (retVal_complete h1 _), bind_of_ok (instrs_complete h2 fuel (by omega) _ _ .els _)]
    exact bind_of_error (bind_of_error k)
  | @strayElse c b1 b2 rest t is hc h1 h2 =>
    intro fuel hf
    simp only [List.length_cons, List.length_append, List.cons_append] at hf
    have e1 : c :: b1 ++ b2 ++ [0x05] ++ rest = c :: (b1 ++ (b2 ++ 0x05 :: rest)) := by simp
    have k : exprOf (parseSubExpr fuel) (b2 ++ 0x05 :: rest) = (.error (.unexpectedOpcode "Else"), rest) := by
      unfold exprOf
      rw [bind_of_ok (instrs_complete h2 fuel (by omega) _ _ .els _)]; rfl
    rw [e1, instrOf_cons]
    rcases hc with rfl | rfl
    · change (parseRetVal >>= fun r => exprOf (parseSubExpr fuel) >>= fun b => pure (Instr.block r b)) _ = _
      rw [bind_of_ok (retVal_complete h1 _)]; exact bind_of_error k
    · change (parseRetVal >>= fun r => exprOf (parseSubExpr fuel) >>= fun b => pure (Instr.loop r b)) _ = _
      rw [bind_of_ok (retVal_complete h1 _)]; exact bind_of_error k
  | @secondElse b1 b2 b3 rest t is js h1 h2 h3 =>
    intro fuel hf
    simp only [List.length_cons, List.length_append, List.cons_append] at hf
    have e1 : 0x04 :: b1 ++ b2 ++ [0x05] ++ b3 ++ [0x05] ++ rest = 0x04 :: (b1 ++ (b2 ++ 0x05 :: (b3 ++ 0x05 :: rest))) := by simp
    rw [e1, instrOf_cons]
    change ifOf _ _ = _
    unfold ifOf
    rw [bind_of_ok (retVal_complete h1 _), bind_of_ok (instrs_complete h2 fuel (by omega) _ _ .els _)]
    change ((parseSubExpr fuel >>= fun s2 => pure (s2.body, s2.next)) >>= _) _ = _
    rw [bind_of_ok (map_complete (instrs_complete h3 fuel (by omega) _ _ .els _) fun s2 : SubExpr => (s2.body, s2.next))]
    rfl

theorem faults_expr : Faults parseExpr ExprFault := by
  intro s e r
  constructor
  · intro h
    refine stops_exprOf (stops_subExpr (s.length + 1)) (sound_subExpr _) s e r h fun he => ?_
    exact noFuel_expr s (by rw [h, he])
  · rintro ⟨read, rfl, ⟨h1, h2⟩ | h1⟩
    · rw [List.append_assoc]
      exact bind_of_error (instrs_fault h1 (instr_fault h2) _ (by simp; omega))
    · unfold parseExpr exprOf
      rw [List.append_assoc, List.singleton_append, bind_of_ok (instrs_complete h1 _ (by simp; omega) _ _ .els r)]
      rfl

theorem faults_constExpr : Faults parseConstExpr ExprFault := constExpr_eq ▸ faults_expr

/-! ## The parts of a module -/

theorem faults_func : Faults parseFunc FuncFault := by
  have e : GRun GVal = GLocals .code := by funext b x; exact propext (glocals_grun b x)
  have h := faults_compactVec faults_val parses_val
  have g := parses_compactVec parses_val
  rw [e] at h g
  refine (h.then g fun _ => faults_expr.map _).congr fun read rest err => ⟨?_, ?_⟩
  · rintro (k | ⟨⟨runs, k1, _⟩, k2⟩)
    · exact .first k
    · exact .second k1 k2
  · rintro (k | ⟨k1, k2⟩)
    · exact .first k
    · exact .second ⟨_, k1, rfl⟩ k2

theorem faults_table : Faults parseTable TableTyFault := faults_tableTy.map _
theorem faults_mem : Faults parseMem LimitsFault := faults_memTy.map _
theorem faults_global : Faults parseGlobal GlobalFault := faults_globalTy.then parses_globalTy fun _ => faults_constExpr.map _
theorem faults_elem : Faults parseElem ElemFault :=
  faults_idx.then parses_idx fun _ => faults_constExpr.then parses_constExpr fun _ => (faults_vec faults_idx parses_idx).map _
theorem faults_data : Faults parseData DataFault :=
  faults_idx.then parses_idx fun _ => faults_constExpr.then parses_constExpr fun _ => faults_vecByte.map _
theorem faults_start : Faults parseStart U32Fault := faults_idx.map _

theorem faults_importDesc : Faults parseImportDesc ImportDescFault := by
  refine (faults_tag (G := GImportDesc .code) (ty := "module::desc::Import") (H := fun c read rest e => (c = 0x00 ∧ U32Fault read rest e) ∨
    (c = 0x01 ∧ TableTyFault read rest e) ∨ (c = 0x02 ∧ LimitsFault read rest e) ∨ (c = 0x03 ∧ GlobalTyFault read rest e)) fun c => ?_).congr
      fun read rest e => ⟨?_, ?_⟩
  · by_cases h0 : c.toNat = 0x00
    · obtain rfl : c = 0x00 := byte_of_toNat h0
      exact .inr ⟨included [0] (.func u32_zero), (faults_idx.map _).congr fun _ _ _ => by simp⟩
    by_cases h1 : c.toNat = 0x01
    · obtain rfl : c = 0x01 := byte_of_toNat h1
      exact .inr ⟨included [0x70, 0x00, 0x00] (.table (.mk (b1 := [0x70]) .funcRef (.min u32_zero))), (faults_tableTy.map _).congr fun _ _ _ => by simp⟩
    by_cases h2 : c.toNat = 0x02
    · obtain rfl : c = 0x02 := byte_of_toNat h2
      exact .inr ⟨included [0x00, 0x00] (.mem (.mk (.min u32_zero))), (faults_memTy.map _).congr fun _ _ _ => by simp⟩
    by_cases h3 : c.toNat = 0x03
    · obtain rfl : c = 0x03 := byte_of_toNat h3
      exact .inr ⟨included [0x7F, 0x00] (.global (.mk (b1 := [0x7F]) .i32 .const)), (faults_globalTy.map _).congr fun _ _ _ => by simp⟩
    left
    constructor
    · intro more x h; have := gimportDesc_inv h; omega
    · split <;> first | omega | rfl
  · rintro (h | ⟨c, b, rfl, _, ⟨rfl, h⟩ | ⟨rfl, h⟩ | ⟨rfl, h⟩ | ⟨rfl, h⟩⟩)
    · exact .tag h
    · exact .func h
    · exact .table h
    · exact .mem h
    · exact .global h
  · rintro (h | h | h | h | h)
    · exact .inl h
    · exact .inr ⟨_, _, rfl, included [0] (.func u32_zero), .inl ⟨rfl, h⟩⟩
    · exact .inr ⟨_, _, rfl, included [0x70, 0x00, 0x00] (.table (.mk (b1 := [0x70]) .funcRef (.min u32_zero))), .inr (.inl ⟨rfl, h⟩)⟩
    · exact .inr ⟨_, _, rfl, included [0x00, 0x00] (.mem (.mk (.min u32_zero))), .inr (.inr (.inl ⟨rfl, h⟩))⟩
    · exact .inr ⟨_, _, rfl, included [0x7F, 0x00] (.global (.mk (b1 := [0x7F]) .i32 .const)), .inr (.inr (.inr ⟨rfl, h⟩))⟩

theorem byte_le_three {c : Byte} (h : c.toNat ≤ 3) : c = 0 ∨ c = 1 ∨ c = 2 ∨ c = 3 := by
  simp only [← UInt8.toNat_inj]
  simp only [UInt8.reduceToNat]
  omega

theorem exportDesc_included {c : Byte} (h : c.toNat ≤ 3) : ¬ Excludes (GExportDesc .code) [c] := by
  rcases byte_le_three h with rfl | rfl | rfl | rfl
  · exact included [0] (.func u32_zero)
  · exact included [0] (.table u32_zero)
  · exact included [0] (.mem u32_zero)
  · exact included [0] (.global u32_zero)

theorem faults_exportDesc : Faults parseExportDesc ExportDescFault := by
  refine (faults_tag (G := GExportDesc .code) (ty := "module::desc::Export") (H := fun c read rest e => c.toNat ≤ 3 ∧ U32Fault read rest e) fun c => ?_).congr
      fun read rest e => ⟨?_, ?_⟩
  · by_cases hc : c.toNat ≤ 3
    · refine .inr ⟨exportDesc_included hc, ?_⟩
      have k : ∀ f : Idx → ExportDesc, Faults (parseIdx >>= fun i => pure (f i)) fun read rest e => c.toNat ≤ 3 ∧ U32Fault read rest e :=
        fun f => (faults_idx.map f).congr fun _ _ _ => ⟨fun h => ⟨hc, h⟩, And.right⟩
      rcases byte_le_three hc with rfl | rfl | rfl | rfl <;> exact k _
    · left
      constructor
      · intro more x h; have := gexportDesc_inv h; omega
      · split <;> first | omega | rfl
  · rintro (h | ⟨c, b, rfl, _, h1, h2⟩)
    · exact .tag h
    · exact .index h1 h2
  · rintro (h | ⟨h1, h2⟩)
    · exact .inl h
    · exact .inr ⟨_, _, rfl, exportDesc_included h1, h1, h2⟩

theorem faults_import : Faults parseImport ImportFault :=
  faults_string.then parses_string fun _ => faults_string.then parses_string fun _ => faults_importDesc.map _
theorem faults_export : Faults parseExport ExportFault := faults_string.then parses_string fun _ => faults_exportDesc.map _

/-! ## Sections -/

theorem vecFault_map {G : List Byte → α → Prop} (f : α → β) {F : Fault} {read rest : List Byte} {e : Error} :
    VecFault (fun b y => ∃ x, G b x ∧ y = f x) F read rest e ↔ VecFault G F read rest e := by
  constructor
  · rintro (h | ⟨h1, h2, h3, h4⟩)
    · exact .count h
    · obtain ⟨xs, h5, rfl⟩ := (gseq_map f).mp h2
      exact .element h1 h5 (by simpa using h3) h4
  · rintro (h | ⟨h1, h2, h3, h4⟩)
    · exact .count h
    · exact .element h1 ((gseq_map f).mpr ⟨_, h2, rfl⟩) (by simpa using h3) h4

theorem faults_code : Faults (parseSized (parseUnwrappingVec (fun f : Func => f) (parseSized parseFunc))) (SectionFault 10) := by
  rw [unwrappingVec_id]
  have h := faults_vec (faults_sized (C := Content 12) faults_func parses_func content_func) (parses_sized good_func parses_func)
  have g := parses_vec (parses_sized good_func parses_func)
  refine faults_sized (h.congr fun read rest e => ?_) g content_code
  have : GSized Dialect.code (fun b f => ∃ c, GFunc .code b c ∧ f = { ty := 0, locals := c.1, body := c.2 }) =
      fun b y => ∃ x, GSized .code (GFunc .code) b x ∧ y = preFunc x := by
    funext b x; exact propext (gsized_map preFunc)
  rw [this]
  exact vecFault_map preFunc

/-- A section after its number: the fault is in it, or there is no such section, or it has the wrong number of bodies. -/
theorem faults_section (id : Byte) (st : LoopState) : Faults (parseSection id st) fun read rest e =>
    (11 < id.toNat ∧ read = [] ∧ e = .invalidSectionId id) ∨ (id.toNat ≤ 11 ∧ SectionFault id.toNat read rest e) ∨
      (id = 0x0A ∧ e = .unexpectedEndOfFile ∧ ∃ codes, GSized .code (GVec .code (GSized .code (GFunc .code))) read codes ∧
        codes.length ≠ st.funcTypes.length) := by
  have key : ∀ k, id.toNat = k → k ≤ 11 → k ≠ 10 → Faults (parseSection id st) (SectionFault k) → Faults (parseSection id st) fun read rest e =>
      (11 < id.toNat ∧ read = [] ∧ e = .invalidSectionId id) ∨ (id.toNat ≤ 11 ∧ SectionFault id.toNat read rest e) ∨
      (id = 0x0A ∧ e = .unexpectedEndOfFile ∧ ∃ codes, GSized .code (GVec .code (GSized .code (GFunc .code))) read codes ∧
        codes.length ≠ st.funcTypes.length) := by
    rintro k rfl hk h10 h
    refine h.congr fun read rest e => ⟨fun h => .inr (.inl ⟨hk, h⟩), ?_⟩
    rintro (⟨h, _⟩ | ⟨_, h⟩ | ⟨rfl, _⟩)
    · omega
    · exact h
    · exact (h10 rfl).elim
  by_cases h10 : id.toNat = 10
  · obtain rfl : id = 0x0A := byte_of_toNat h10
    change Faults (parseSized (parseUnwrappingVec (fun f : Func => f) (parseSized parseFunc)) >>= fun x => _) _
    refine (faults_code.bind parses_codeContent (H := fun x read _ e => read = [] ∧ e = .unexpectedEndOfFile ∧ x.length ≠ st.funcTypes.length)
      fun x => ?_).congr fun read rest e => ⟨?_, ?_⟩
    · simp only
      split
      · rename_i hne
        exact (faults_fail _).congr fun read rest e => by simp [hne]
      · rename_i hne
        rw [assignTys_eq _ _ (Decidable.not_not.mp hne).symm]
        exact (faults_pure _).congr fun read rest e => by simp [Decidable.not_not.mp hne]
    · rintro (h | ⟨b, x, c, rfl, ⟨codes, h1, rfl⟩, rfl, rfl, h4⟩)
      · exact .inr (.inl ⟨by decide, h⟩)
      · exact .inr (.inr ⟨rfl, rfl, codes, by simpa using h1, by simpa using h4⟩)
    · rintro (⟨h, _⟩ | ⟨_, h⟩ | ⟨_, rfl, codes, h1, h2⟩)
      · simp at h
      · exact .inl h
      · exact .inr ⟨_, _, [], by simp, ⟨codes, h1, rfl⟩, rfl, rfl, by simpa using h2⟩
  · by_cases h11 : 11 < id.toNat
    · have : parseSection id st = P.fail (.invalidSectionId id) := by
        unfold parseSection
        split <;> first | omega | rfl
      rw [this]
      refine (faults_fail _).congr fun read rest e => ⟨fun h => .inl ⟨h11, h⟩, ?_⟩
      rintro (⟨_, h⟩ | ⟨h, _⟩ | ⟨h, _⟩)
      · exact h
      · omega
      · exact (h10 (congrArg UInt8.toNat h)).elim
    · have hid : id = 0 ∨ id = 1 ∨ id = 2 ∨ id = 3 ∨ id = 4 ∨ id = 5 ∨ id = 6 ∨ id = 7 ∨ id = 8 ∨ id = 9 ∨ id = 11 := by
        simp only [← UInt8.toNat_inj]
        simp only [UInt8.reduceToNat]
        omega
      rcases hid with rfl | rfl | rfl | rfl | rfl | rfl | rfl | rfl | rfl | rfl | rfl <;> refine key _ rfl (by decide) (by decide) ?_
      · exact faults_customSection.map _
      · exact (faults_sized (faults_vec faults_funcTy parses_funcTy) (parses_vec parses_funcTy) fun _ => Iff.rfl).map _
      · exact (faults_sized (faults_vec faults_import parses_import) (parses_vec parses_import) fun _ => Iff.rfl).map _
      · exact (faults_sized (faults_vec faults_idx parses_idx) (parses_vec parses_idx) fun _ => Iff.rfl).map _
      · exact (faults_sized (faults_vec faults_table parses_table) (parses_vec parses_table) fun _ => Iff.rfl).map _
      · exact (faults_sized (faults_vec faults_mem parses_mem) (parses_vec parses_mem) fun _ => Iff.rfl).map _
      · exact (faults_sized (faults_vec faults_global parses_global) (parses_vec parses_global) fun _ => Iff.rfl).map _
      · exact (faults_sized (faults_vec faults_export parses_export) (parses_vec parses_export) fun _ => Iff.rfl).map _
      · exact (faults_sized faults_start parses_start fun _ => Iff.rfl).map _
      · exact (faults_sized (faults_vec faults_elem parses_elem) (parses_vec parses_elem) fun _ => Iff.rfl).map _
      · exact (faults_sized (faults_vec faults_data parses_data) (parses_vec parses_data) fun _ => Iff.rfl).map _

/-! ## Modules -/

theorem parseSections_fault {s r : List Byte} {e : Error} (h : parseSections s = (.error e, r)) (h1 : e ≠ .fuel) :
    ∃ read, s = read ++ r ∧ ModuleFault (preamble ++ read) r e := by
  obtain ⟨b, t, secs, st, rfl, hne, hraw, hloop, hk, hit⟩ := loop_error _ _ _ _ _ h1 h
  have hcomp : Complete b secs := by
    have := (parseModule_loop b st.result []).mpr ⟨rfl, hloop⟩
    exact ⟨hraw, _, ((parseModule_iff _ _ _).mp this).2⟩
  have hab : ∀ k ∈ secIds secs, k ≤ st.lastId.toNat := fun k hk' => hk.above k (List.mem_cons_of_mem _ hk')
  have ham : st.lastId.toNat = 0 ∨ st.lastId.toNat ∈ secIds secs := List.mem_cons.mp hk.among
  cases t with
  | nil => exact (hne rfl).elim
  | cons id t =>
    change (if id ≠ 0x00 then if id ≤ st.lastId then P.fail (.unexpectedSectionId id) else parseSection id { st with lastId := id }
      else parseSection id st) t = _ at hit
    by_cases hid : id = 0x00
    · rw [if_neg (by simpa using hid)] at hit
      obtain ⟨read, rfl, ⟨k, _⟩ | ⟨k, hb⟩ | ⟨k, _⟩⟩ := (faults_section _ _ _ _ _).mp hit
      · rw [hid] at k; simp at k
      · exact ⟨b ++ id :: read, by simp, by simpa using ModuleFault.section hcomp k (fun h => (h hid).elim) hb⟩
      · rw [hid] at k; cases k
    · rw [if_pos hid] at hit
      by_cases hle : id ≤ st.lastId
      · rw [if_pos hle] at hit
        cases hit
        have hle := UInt8.le_iff_toNat_le.mp hle
        have h0 : id.toNat ≠ 0 := fun h => hid (byte_of_toNat h)
        have hm : st.lastId.toNat ∈ secIds secs := ham.resolve_left (by omega)
        exact ⟨b ++ [id], by simp, by simpa using ModuleFault.sectionOrder hcomp hid hm hle⟩
      · rw [if_neg hle] at hit
        have hlt : ∀ k ∈ secIds secs, k < id.toNat := fun k hk' => by
          have := hab k hk'
          have := mt UInt8.le_iff_toNat_le.mpr hle
          omega
        obtain ⟨read, rfl, ⟨k, rfl, rfl⟩ | ⟨k, hb⟩ | ⟨rfl, rfl, codes, hv, hne⟩⟩ := (faults_section _ _ _ _ _).mp hit
        · exact ⟨b ++ [id], by simp, by simpa using ModuleFault.sectionId hcomp k⟩
        · exact ⟨b ++ id :: read, by simp, by simpa using ModuleFault.section hcomp k (fun _ => hlt) hb⟩
        · exact ⟨b ++ 0x0A :: read, by simp, .bodies (by simpa using BodyCount.mk hcomp hlt hk.types (.mk hv) hne)⟩

theorem parseModule_fault {s r : List Byte} {e : Error} (h : parseModule s = (.error e, r)) (h1 : e ≠ .fuel) :
    ∃ read, s = read ++ r ∧ ModuleFault read r e := by
  unfold parseModule at h
  rcases bind_cases (parseN 4 parseByte) _ s with ⟨m, s1, k1, k2⟩ | ⟨e', s1, k1, k2⟩
  · rw [k2] at h
    obtain ⟨m, rfl, hl, rfl⟩ := (parses4 _ _ _).mp k1
    clear k1 k2
    by_cases hm : m = [0x00, 0x61, 0x73, 0x6D]
    · rw [if_neg (by rw [Decidable.not_not, magic_iff]; exact hm)] at h
      subst hm
      rcases bind_cases (parseN 4 parseByte) _ s1 with ⟨v, s2, k1, k2⟩ | ⟨e', s2, k1, k2⟩
      · rw [k2] at h
        obtain ⟨v, rfl, hv, rfl⟩ := (parses4 _ _ _).mp k1
        by_cases h1000 : v = [1, 0, 0, 0]
        · rw [if_neg (by rw [Decidable.not_not]; exact h1000)] at h
          subst h1000
          obtain ⟨read, rfl, hb⟩ := parseSections_fault h h1
          exact ⟨_, rfl, hb⟩
        · rw [if_pos h1000] at h
          cases h
          refine ⟨magic ++ v, by simp [magic], .version hv fun hc => h1000 ?_⟩
          exact List.append_cancel_left (as := magic) hc
      · rw [k2] at h
        cases h
        obtain ⟨rfl, rfl, hl⟩ := parse4_error k1
        exact ⟨magic ++ s1, by simp [magic], .shortVersion hl⟩
    · rw [if_pos (by rw [ne_eq, magic_iff]; exact hm)] at h
      cases h
      exact ⟨m, rfl, .magic hl hm⟩
  · rw [k2] at h
    cases h
    obtain ⟨rfl, rfl, hl⟩ := parse4_error k1
    exact ⟨s, by simp, .shortMagic hl⟩

/-- After complete sections, the loop fails where the next iteration does. -/
theorem module_stop {b : List Byte} {secs : List (Byte × List Byte)} (h : Complete b secs) {id : Byte} {read rest : List Byte} {e : Error}
    (hi : ∀ st : LoopState, (∀ k ∈ secIds secs, k ≤ st.lastId.toNat) → st.lastId.toNat ∈ 0 :: secIds secs → Announced secs st.funcTypes →
      parseIteration st (id :: (read ++ rest)) = (.error e, rest)) : parseModule (preamble ++ b ++ id :: read ++ rest) = (.error e, rest) := by
  obtain ⟨hraw, m, hm⟩ := h
  obtain ⟨fuel, st, k1, _, k3, _, k5, k6⟩ := parseModule_continue hraw ((parseModule_iff _ _ _).mpr ⟨rfl, hm⟩) (id :: read ++ rest)
  have e1 : preamble ++ b ++ id :: read ++ rest = preamble ++ (b ++ (id :: read ++ rest)) := by simp
  rw [e1, k1]
  exact bind_of_error (hi st k3 k5 k6)

theorem iteration_cons (st : LoopState) (id : Byte) (t : List Byte) : parseIteration st (id :: t) =
    (if id ≠ 0x00 then if id ≤ st.lastId then P.fail (.unexpectedSectionId id) else parseSection id { st with lastId := id }
      else parseSection id st) t := rfl

theorem last_lt {secs : List (Byte × List Byte)} {st : LoopState} {id : Byte} (hid : id ≠ 0x00) (h : ∀ k ∈ secIds secs, k < id.toNat)
    (k5 : st.lastId.toNat ∈ 0 :: secIds secs) : ¬ id ≤ st.lastId := by
  intro hle
  have hle := UInt8.le_iff_toNat_le.mp hle
  rcases List.mem_cons.mp k5 with h0 | h0
  · exact hid (byte_of_toNat (show id.toNat = 0 by omega))
  · have := h _ h0; omega

theorem announced_unique {b : List Byte} {secs : List (Byte × List Byte)} (h : Complete b secs) {x y : List Idx} (hx : Announced secs x)
    (hy : Announced secs y) : x = y := by
  obtain ⟨hraw, m, hm⟩ := h
  obtain ⟨_, hl⟩ := (parseModule_loop b m []).mp ((parseModule_iff _ _ _).mpr ⟨rfl, hm⟩)
  obtain ⟨secs', hb', hpair, _⟩ := loop_raw hl
  obtain rfl := rawSecs_unique hraw hb'
  rcases hx with ⟨e1, n1⟩ | ⟨c1, m1, g1⟩ <;> rcases hy with ⟨e2, n2⟩ | ⟨c2, m2, g2⟩
  · rw [e1, e2]
  · exact (n1 _ m2).elim
  · exact (n2 _ m1).elim
  · obtain rfl := section_unique (List.pairwise_cons.mp hpair).2 (by decide) m1 m2
    have h1 := (parses_vec parses_u32).complete g1 []
    rw [(parses_vec parses_u32).complete g2 []] at h1
    exact (Except.ok.inj (congrArg Prod.fst h1)).symm

theorem module_fault {read rest : List Byte} {e : Error} (h : ModuleFault read rest e) : parseModule (read ++ rest) = (.error e, rest) := by
  have short : ∀ v : List Byte, v.length < 4 → parseN 4 parseByte v = (.error .unexpectedEndOfFile, []) := fun v hv =>
    (faults_short _ _ _).mpr ⟨v, by simp, .short hv⟩
  cases h with
  | shortMagic h => rw [List.append_nil]; exact bind_of_error (short _ h)
  | magic h1 h2 =>
    unfold parseModule
    rw [bind_of_ok ((parses4 _ _ _).mpr ⟨read, rfl, h1, rfl⟩), if_pos (by rw [ne_eq, magic_iff]; exact h2)]
    rfl
  | @shortVersion v h =>
    unfold parseModule
    rw [List.append_nil, bind_of_ok ((parses4 (magic ++ v) _ _).mpr ⟨magic, rfl, rfl, rfl⟩), if_neg (by rw [Decidable.not_not, magic_iff]; rfl)]
    exact bind_of_error (short _ h)
  | @version v _ h1 h2 =>
    unfold parseModule
    rw [List.append_assoc, bind_of_ok ((parses4 (magic ++ (v ++ rest)) _ _).mpr ⟨magic, rfl, rfl, rfl⟩), if_neg (by rw [Decidable.not_not, magic_iff]; rfl),
      bind_of_ok ((parses4 _ _ _).mpr ⟨v, rfl, h1, rfl⟩), if_pos (fun h => h2 (by rw [h]; rfl))]
    rfl
  | @sectionId b _ secs id hc h11 =>
    refine module_stop hc fun st k3 k5 _ => ?_
    have hid : id ≠ 0x00 := by rintro rfl; simp at h11
    rw [iteration_cons, if_pos hid]
    have hm : ∀ k ∈ secIds secs, k < id.toNat := by
      intro k hk
      obtain ⟨_, m, hm⟩ := hc
      have := (parseModule_continue ‹_› ((parseModule_iff _ _ _).mpr ⟨rfl, hm⟩) []).choose_spec.choose_spec
      have h1 := this.2.2.1 k hk
      have h2 := this.2.2.2.1
      omega
    rw [if_neg (last_lt hid hm k5)]
    exact (faults_section _ _ _ _ _).mpr ⟨[], rfl, .inl ⟨h11, rfl, rfl⟩⟩
  | @sectionOrder b _ secs id k hc hid hk hle =>
    refine module_stop (read := []) hc fun st k3 k5 _ => ?_
    rw [iteration_cons, if_pos hid, if_pos (UInt8.le_iff_toNat_le.mpr (Nat.le_trans hle (k3 k hk)))]
    rfl
  | @«section» b read _ secs id e hc h11 hlt hf =>
    refine module_stop hc fun st k3 k5 _ => ?_
    rw [iteration_cons]
    by_cases hid : id = 0x00
    · rw [if_neg (by simpa using hid)]
      exact (faults_section _ _ _ _ _).mpr ⟨read, rfl, .inr (.inl ⟨h11, hf⟩)⟩
    · rw [if_pos hid, if_neg (last_lt hid (hlt hid) k5)]
      exact (faults_section _ _ _ _ _).mpr ⟨read, rfl, .inr (.inl ⟨h11, hf⟩)⟩
  | bodies h =>
    obtain ⟨hc, hlt, htys, ⟨hv⟩, hne⟩ := h
    refine module_stop hc fun st k3 k5 k6 => ?_
    rw [iteration_cons, if_pos (by decide), if_neg (last_lt (by decide) hlt k5)]
    exact (faults_section _ _ _ _ _).mpr ⟨_, rfl, .inr (.inr ⟨rfl, rfl, _, hv, by rw [show ({ st with lastId := 0x0A } : LoopState).funcTypes = st.funcTypes from rfl, announced_unique hc k6 htys]; exact hne⟩)⟩

end

end Whasm
