import Verif.Spec.Leb

/-!
# Consecutive elements

What it means for a parser to be run several times in a row, independently of how the loops of the code are modelled.
-/

namespace Whasm.Spec

variable {α : Type}

/-- `Chain p s xs r`: running `p` again and again from `s` yields the elements `xs` and leaves `r`. -/
inductive Chain (p : P α) : List Byte → List α → List Byte → Prop
  | nil {s : List Byte} : Chain p s [] s
  | cons {s s' r : List Byte} {x : α} {xs : List α} : p s = (.ok x, s') → Chain p s' xs r → Chain p s (x :: xs) r

/-- `RunChain p s runs r`: from `s` there are pairs of a number (LEB-128, below 2^32) and an element read by `p`. -/
inductive RunChain (p : P α) : List Byte → List (Nat × α) → List Byte → Prop
  | nil {s : List Byte} : RunChain p s [] s
  | cons {g s s' r : List Byte} {x : α} {xs : List (Nat × α)} : Group g → uval g < 2 ^ 32 → p s = (.ok x, s') →
      RunChain p s' xs r → RunChain p (g ++ s) ((uval g, x) :: xs) r

/-- `p` only moves forward: whatever the outcome, what remains is a suffix of the input. -/
def Forward (p : P α) : Prop := ∀ s, (p s).2 <:+ s

/-- A successful run consumes a prefix of the input and does so whatever follows that prefix. -/
def Local (p : P α) : Prop := ∀ s x r, p s = (.ok x, r) → ∃ c, s = c ++ r ∧ ∀ t, p (c ++ t) = (.ok x, t)

/-- No panic, and the fuel of the model never runs out (the loops of the code terminate). -/
def NeverPanics (p : P α) : Prop := ∀ s, (p s).1 ≠ .error .panic ∧ (p s).1 ≠ .error .fuel

end Whasm.Spec
