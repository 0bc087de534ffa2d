import Verif.Model.BinaryModule
import Verif.Lemmas.LebMore
import Verif.Spec.Grammar
import Verif.Spec.Parser

/-!
# General facts about parsers

* `Parses p G`: `p` succeeds exactly on the byte strings of the relation `G`.
* `Good p`: `p` only moves forward, its decisions do not depend on bytes it has not read, it never panics.
* `NoFuel p`: `p` never runs out of fuel.
-/

namespace Whasm
open Spec

section
variable {α β : Type}

theorem pure_apply (x : α) (s : List Byte) : (pure x : P α) s = (.ok x, s) := rfl

theorem fail_apply (e : Error) (s : List Byte) : (P.fail e : P α) s = (.error e, s) := rfl

theorem bind_of_ok {p : P α} {f : α → P β} {s s' : List Byte} {x : α} (h : p s = (.ok x, s')) :
    (p >>= f) s = f x s' := by
  show P.bind p f s = _
  rw [P.bind, h]

theorem bind_of_error {p : P α} {f : α → P β} {s s' : List Byte} {e : Error} (h : p s = (.error e, s')) :
    (p >>= f) s = (.error e, s') := by
  show P.bind p f s = _
  rw [P.bind, h]

theorem bind_cases (p : P α) (f : α → P β) (s : List Byte) :
    (∃ x s', p s = (.ok x, s') ∧ (p >>= f) s = f x s') ∨
    (∃ e s', p s = (.error e, s') ∧ (p >>= f) s = (.error e, s')) := by
  rcases h : p s with ⟨x | x, r⟩
  · exact .inr ⟨x, r, rfl, bind_of_error h⟩
  · exact .inl ⟨x, r, rfl, bind_of_ok h⟩

theorem bind_ok_iff {p : P α} {f : α → P β} {s r : List Byte} {y : β} :
    (p >>= f) s = (.ok y, r) ↔ ∃ x s', p s = (.ok x, s') ∧ f x s' = (.ok y, r) := by
  rcases bind_cases p f s with ⟨x, s', h1, h2⟩ | ⟨e, s', h1, h2⟩
  · rw [h2]
    constructor
    · intro h; exact ⟨x, s', h1, h⟩
    · rintro ⟨x', s'', h, h'⟩; rw [h1] at h; cases h; exact h'
  · rw [h2]
    constructor
    · intro h; cases h
    · rintro ⟨x', s'', h, _⟩; rw [h1] at h; cases h

/-! ## `Parses` -/

/-- `p` succeeds with `x` exactly after consuming a byte string related to `x` by `G`. -/
def Parses (p : P α) (G : List Byte → α → Prop) : Prop :=
  ∀ s x r, p s = (.ok x, r) ↔ ∃ b, s = b ++ r ∧ G b x

theorem Parses.complete {p : P α} {G : List Byte → α → Prop} (h : Parses p G) {b : List Byte} {x : α} (hb : G b x)
    (r : List Byte) : p (b ++ r) = (.ok x, r) := (h _ _ _).mpr ⟨b, rfl, hb⟩

theorem Parses.congr {p : P α} {G H : List Byte → α → Prop} (h : Parses p G) (e : ∀ b x, G b x ↔ H b x) : Parses p H := by
  intro s x r; rw [h s x r]
  exact exists_congr fun b => and_congr_right fun _ => e b x

theorem parses_pure (x : α) : Parses (pure x : P α) fun b y => b = [] ∧ y = x := by
  intro s y r
  rw [pure_apply]
  constructor
  · intro h; cases h; exact ⟨[], rfl, rfl, rfl⟩
  · rintro ⟨b, rfl, rfl, rfl⟩; rfl

theorem parses_fail (e : Error) : Parses (P.fail e : P α) fun _ _ => False := by
  intro s y r
  rw [fail_apply]
  constructor
  · intro h; cases h
  · rintro ⟨b, _, h⟩; exact h.elim

theorem Parses.bind {p : P α} {f : α → P β} {G : List Byte → α → Prop} {H : α → List Byte → β → Prop}
    (hp : Parses p G) (hf : ∀ x, Parses (f x) (H x)) :
    Parses (p >>= f) fun b y => ∃ b1 x b2, G b1 x ∧ H x b2 y ∧ b = b1 ++ b2 := by
  intro s y r
  rw [bind_ok_iff]
  constructor
  · rintro ⟨x, s', h1, h2⟩
    obtain ⟨b1, rfl, hg⟩ := (hp _ _ _).mp h1
    obtain ⟨b2, rfl, hh⟩ := (hf x _ _ _).mp h2
    exact ⟨b1 ++ b2, by rw [List.append_assoc], b1, x, b2, hg, hh, rfl⟩
  · rintro ⟨b, rfl, b1, x, b2, hg, hh, rfl⟩
    exact ⟨x, b2 ++ r, (hp _ _ _).mpr ⟨b1, by rw [List.append_assoc], hg⟩, (hf x _ _ _).mpr ⟨b2, rfl, hh⟩⟩

theorem Parses.map {p : P α} {G : List Byte → α → Prop} (f : α → β) (hp : Parses p G) :
    Parses (p >>= fun x => pure (f x)) fun b y => ∃ x, G b x ∧ y = f x := by
  refine (Parses.bind hp fun x => parses_pure (f x)).congr fun b y => ?_
  constructor
  · rintro ⟨b1, x, b2, h, ⟨rfl, rfl⟩, rfl⟩; exact ⟨x, by simpa using h, rfl⟩
  · rintro ⟨x, h, rfl⟩; exact ⟨b, x, [], h, ⟨rfl, rfl⟩, by simp⟩

theorem parses_byte : Parses parseByte GByte := by
  intro s x r
  cases s with
  | nil =>
    constructor
    · intro h; cases h
    · rintro ⟨b, h, ⟨⟩⟩; cases h
  | cons c s =>
    constructor
    · intro h; cases h; exact ⟨[x], rfl, .mk x⟩
    · rintro ⟨b, h, ⟨⟩⟩; cases h; rfl

/-- A parser that starts by switching on a byte. -/
theorem Parses.byte_bind {f : Byte → P β} {H : Byte → List Byte → β → Prop} (hf : ∀ c, Parses (f c) (H c)) :
    Parses (parseByte >>= f) fun b y => ∃ c b', H c b' y ∧ b = c :: b' := by
  refine (Parses.bind parses_byte hf).congr fun b y => ?_
  constructor
  · rintro ⟨_, c, b', ⟨⟩, h, rfl⟩; exact ⟨c, b', h, rfl⟩
  · rintro ⟨c, b', h, rfl⟩; exact ⟨[c], c, b', .mk c, h, rfl⟩

/-! ## `Good` -/

theorem good_pure (x : α) : Good (pure x : P α) :=
  ⟨fun s => List.suffix_refl s, fun _ => .inr fun _ => rfl, fun c r x h => by
    rw [pure_apply] at h
    have h1 := congrArg Prod.snd h
    have h2 : c = [] := by simpa using h1
    subst h2
    have h3 := congrArg Prod.fst h
    simp only at h3
    rw [pure_apply, h3], fun _ h => by cases h⟩

theorem good_fail {e : Error} (he : e ≠ .panic) : Good (P.fail e : P α) :=
  ⟨fun s => List.suffix_refl s, fun _ => .inr fun _ => rfl, fun _ _ _ h => (by cases h),
    fun _ h => by cases h; exact he rfl⟩

theorem Good.bind {p : P α} {f : α → P β} (hp : Good p) (hf : ∀ x, Good (f x)) : Good (p >>= f) where
  forward s := by
    have h0 := hp.forward s
    rcases bind_cases p f s with ⟨x, s', h1, h2⟩ | ⟨e, s', h1, h2⟩
    · rw [h2]; rw [h1] at h0; exact ((hf x).forward s').trans h0
    · rw [h2]; rw [h1] at h0; exact h0
  stream s := by
    rcases hp.stream s with h | h
    · left; exact bind_of_error h
    · rcases bind_cases p f s with ⟨x, s', h1, h2⟩ | ⟨e, s', h1, h2⟩
      · rw [h1] at h
        rcases (hf x).stream s' with h3 | h3
        · left; rw [h2, h3]
        · right; intro t; rw [h2, bind_of_ok (h t), h3]
      · rw [h1] at h
        right; intro t; rw [h2, bind_of_error (h t)]
  exact c r y h := by
    obtain ⟨x, s', h1, h2⟩ := bind_ok_iff.mp h
    obtain ⟨c2, rfl⟩ : r <:+ s' := by have := (hf x).forward s'; rwa [h2] at this
    obtain ⟨c1, hc1⟩ : c2 ++ r <:+ c ++ r := by have := hp.forward (c ++ r); rwa [h1] at this
    have hc : c = c1 ++ c2 := by
      apply List.append_cancel_right (bs := r); rw [← hc1, List.append_assoc]
    subst hc
    rw [List.append_assoc] at h1
    have h3 := hp.exact _ _ _ h1
    rcases hp.stream c1 with h4 | h4
    · rw [h3] at h4; cases h4
    · have h5 := h4 c2
      rw [h3] at h5
      exact bind_ok_iff.mpr ⟨x, c2, h5, (hf x).exact _ _ _ h2⟩
  noPanic s := by
    have h0 := hp.noPanic s
    rcases bind_cases p f s with ⟨x, s', h1, h2⟩ | ⟨e, s', h1, h2⟩
    · rw [h2]; exact (hf x).noPanic s'
    · rw [h2]; rw [h1] at h0; intro h; apply h0; cases h; rfl

theorem noFuel_pure (x : α) : NoFuel (pure x : P α) := fun _ h => by cases h
theorem noFuel_fail {e : Error} (he : e ≠ .fuel) : NoFuel (P.fail e : P α) := fun _ h => by cases h; exact he rfl

theorem NoFuel.bind {p : P α} {f : α → P β} (hp : NoFuel p) (hf : ∀ x, NoFuel (f x)) : NoFuel (p >>= f) := by
  intro s
  have h0 := hp s
  rcases bind_cases p f s with ⟨x, s', h1, h2⟩ | ⟨e, s', h1, h2⟩
  · rw [h2]; exact hf x s'
  · rw [h2]; rw [h1] at h0; intro h; apply h0; cases h; rfl

/-- Success of a `Good` parser: a prefix was consumed and anything may follow. -/
theorem Good.local_ok {p : P α} (hp : Good p) {s r : List Byte} {x : α} (h : p s = (.ok x, r)) :
    ∃ c, s = c ++ r ∧ ∀ t, p (c ++ t) = (.ok x, t) := by
  obtain ⟨c, hc⟩ := hp.forward s
  rw [h] at hc
  have h1 := hp.exact _ _ _ (hc ▸ h)
  refine ⟨c, hc.symm, fun t => ?_⟩
  rcases hp.stream c with h2 | h2
  · rw [h1] at h2; cases h2
  · rw [h2 t, h1]; rfl

theorem Good.append_ok {p : P α} (hp : Good p) {c : List Byte} {x : α} (h : p c = (.ok x, [])) (t : List Byte) :
    p (c ++ t) = (.ok x, t) := by
  rcases hp.stream c with h2 | h2
  · rw [h] at h2; cases h2
  · rw [h2 t, h]; rfl

/-- On a proper prefix of an accepted encoding a `Good` parser reports the end of the input. -/
theorem Good.truncated {p : P α} (hp : Good p) {b t : List Byte} {x : α} (ht : t ≠ []) (h : p (b ++ t) = (.ok x, [])) :
    p b = (.error .unexpectedEndOfFile, []) := by
  rcases hp.stream b with h1 | h1
  · exact h1
  · have h2 := h1 t
    rw [h] at h2
    have h3 := congrArg Prod.snd h2
    simp only at h3
    have := List.append_eq_nil_iff.mp h3.symm
    exact (ht this.2).elim

end

end Whasm
