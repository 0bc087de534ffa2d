import Verif.Model.Basic

/-!
# What is expected of any parser
-/

namespace Whasm

/-- `p` only moves forward, decides by the bytes it has read, and does not panic. -/
structure Good {α : Type} (p : P α) : Prop where
  /-- what remains is a suffix of the input, whatever the result -/
  forward : ∀ s, (p s).2 <:+ s
  /-- either the input ended too early, or what follows the input makes no difference -/
  stream : ∀ s, p s = (.error .unexpectedEndOfFile, []) ∨ ∀ t, p (s ++ t) = ((p s).1, (p s).2 ++ t)
  /-- success does not depend on bytes that were not consumed -/
  exact : ∀ c r x, p (c ++ r) = (.ok x, r) → p c = (.ok x, [])
  noPanic : ∀ s, (p s).1 ≠ .error .panic

/-- `p` never runs out of fuel. -/
def NoFuel {α : Type} (p : P α) : Prop := ∀ s, (p s).1 ≠ .error .fuel

end Whasm
