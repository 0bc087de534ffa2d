import Verif.Lemmas.Elements
import Verif.Spec.Chain

/-!
# Counted loops against `Chain`
-/

namespace Whasm
open Spec

section
variable {α β : Type}

theorem parseN_ok (p : P α) : ∀ (n : Nat) (s : List Byte) (xs : List α) (r : List Byte),
    parseN n p s = (.ok xs, r) ↔ xs.length = n ∧ Chain p s xs r := by
  intro n
  induction n with
  | zero =>
    intro s xs r
    constructor
    · intro h; cases h; exact ⟨rfl, .nil⟩
    · rintro ⟨h, hc⟩
      obtain rfl := List.eq_nil_of_length_eq_zero h
      cases hc; rfl
  | succ n ih =>
    intro s xs r
    show (p >>= _) s = _ ↔ _
    rw [bind_ok_iff]
    constructor
    · rintro ⟨x, s', h1, h2⟩
      obtain ⟨ys, s'', h3, h4⟩ := bind_ok_iff.mp h2
      obtain ⟨h5, h6⟩ := (ih _ _ _).mp h3
      cases h4
      exact ⟨by simp [h5], .cons h1 h6⟩
    · rintro ⟨h, hc⟩
      cases hc with
      | nil => simp at h
      | cons h1 h2 => exact ⟨_, _, h1, bind_ok_iff.mpr ⟨_, _, (ih _ _ _).mpr ⟨by simpa using h, h2⟩, rfl⟩⟩

theorem bind_error_iff {p : P α} {f : α → P β} {s r : List Byte} {e : Error} :
    (p >>= f) s = (.error e, r) ↔ p s = (.error e, r) ∨ ∃ x s', p s = (.ok x, s') ∧ f x s' = (.error e, r) := by
  rcases bind_cases p f s with ⟨x, s', h1, h2⟩ | ⟨e', s', h1, h2⟩
  · rw [h2, h1]
    constructor
    · intro h; exact .inr ⟨x, s', rfl, h⟩
    · rintro (h | ⟨x', s'', h, h'⟩)
      · cases h
      · cases h; exact h'
  · rw [h2, h1]
    constructor
    · intro h; cases h; exact .inl rfl
    · rintro (h | ⟨x', s'', h, _⟩)
      · cases h; rfl
      · cases h

theorem parseN_error (p : P α) : ∀ (n : Nat) (s : List Byte) (e : Error) (r : List Byte),
    parseN n p s = (.error e, r) ↔ ∃ xs mid, xs.length < n ∧ Chain p s xs mid ∧ p mid = (.error e, r) := by
  intro n
  induction n with
  | zero =>
    intro s e r
    constructor
    · intro h; cases h
    · rintro ⟨xs, mid, h, _⟩; omega
  | succ n ih =>
    intro s e r
    show (p >>= _) s = _ ↔ _
    rw [bind_error_iff]
    constructor
    · rintro (h | ⟨x, s', h1, h2⟩)
      · exact ⟨[], s, by simp, .nil, h⟩
      · rcases bind_error_iff.mp h2 with h3 | ⟨ys, s'', _, h4⟩
        · obtain ⟨xs, mid, h5, h6, h7⟩ := (ih _ _ _).mp h3
          exact ⟨x :: xs, mid, by simp; omega, .cons h1 h6, h7⟩
        · cases h4
    · rintro ⟨xs, mid, h, hc, he⟩
      cases hc with
      | nil => exact .inl he
      | cons h1 h2 =>
        refine .inr ⟨_, _, h1, bind_error_iff.mpr (.inl ((ih _ _ _).mpr ⟨_, mid, by simpa using h, h2, he⟩))⟩

theorem u32_ok (s : List Byte) (n : U32) (r : List Byte) :
    parseU32 s = (.ok n, r) ↔ ∃ g, s = g ++ r ∧ Group g ∧ uval g = n.toNat := parses_u32 s n r

theorem parseRuns_ok (p : P α) : ∀ (k : Nat) (s : List Byte) (xs : List α) (r : List Byte),
    parseRuns k p s = (.ok xs, r) ↔
      ∃ runs, runs.length = k ∧ RunChain p s runs r ∧ xs = runs.flatMap fun run => List.replicate run.1 run.2 := by
  intro k
  induction k with
  | zero =>
    intro s xs r
    constructor
    · intro h; cases h; exact ⟨[], rfl, .nil, rfl⟩
    · rintro ⟨runs, h, hc, rfl⟩
      obtain rfl := List.eq_nil_of_length_eq_zero h
      cases hc; rfl
  | succ k ih =>
    intro s xs r
    show (parseU32 >>= _) s = _ ↔ _
    rw [bind_ok_iff]
    constructor
    · rintro ⟨n, s1, h1, h2⟩
      obtain ⟨x, s2, h3, h4⟩ := bind_ok_iff.mp h2
      obtain ⟨ys, s3, h5, h6⟩ := bind_ok_iff.mp h4
      cases h6
      obtain ⟨g, rfl, hg, hv⟩ := (u32_ok _ _ _).mp h1
      obtain ⟨runs, hl, hr, rfl⟩ := (ih _ _ _).mp h5
      refine ⟨(uval g, x) :: runs, by simp [hl], .cons hg (by rw [hv]; exact n.isLt) h3 hr, by simp [hv]⟩
    · rintro ⟨runs, h, hc, rfl⟩
      cases hc with
      | nil => simp at h
      | @cons g s1 s2 _ x runs hg hlt h1 h2 =>
        refine ⟨BitVec.ofNat 32 (uval g), s1, (u32_ok _ _ _).mpr ⟨g, rfl, hg, ?_⟩, bind_ok_iff.mpr ⟨x, s2, h1, bind_ok_iff.mpr
          ⟨_, r, (ih _ _ _).mpr ⟨runs, by simpa using h, h2, rfl⟩, ?_⟩⟩⟩
        · rw [BitVec.toNat_ofNat, Nat.mod_eq_of_lt hlt]
        · have : (BitVec.ofNat 32 (uval g)).toNat = uval g := by rw [BitVec.toNat_ofNat, Nat.mod_eq_of_lt hlt]
          rw [this]; simp [pure_apply]

theorem group_prefix {g h x y : List Byte} (hg : Group g) (hh : Group h) (e : g ++ x = h ++ y) : g = h ∧ x = y := by
  induction g generalizing h with
  | nil => exact hg.elim
  | cons a g ih =>
    cases h with
    | nil => exact hh.elim
    | cons b h =>
      rw [List.cons_append, List.cons_append] at e
      obtain ⟨rfl, e'⟩ := List.cons.inj e
      cases g with
      | nil =>
        cases h with
        | nil => exact ⟨rfl, e'⟩
        | cons c h => exact absurd hh.1 (by have : a.toNat < 128 := hg; omega)
      | cons d g =>
        cases h with
        | nil => exact absurd hg.1 (by have : a.toNat < 128 := hh; omega)
        | cons c h =>
          obtain ⟨h1, h2⟩ := ih hg.2 hh.2 e'
          rw [h1]; exact ⟨rfl, h2⟩

/-- Reading a `u32` from a group that fits. -/
theorem u32_group {g : List Byte} (hg : Group g) (h : uval g < 2 ^ 32) (t : List Byte) :
    ∃ n : U32, n.toNat = uval g ∧ parseU32 (g ++ t) = (.ok n, t) :=
  have hn : (BitVec.ofNat 32 (uval g)).toNat = uval g := by rw [BitVec.toNat_ofNat, Nat.mod_eq_of_lt h]
  ⟨BitVec.ofNat 32 (uval g), hn, (u32_ok _ _ _).mpr ⟨g, rfl, hg, hn.symm⟩⟩

end

end Whasm
