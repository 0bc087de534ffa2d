import Verif.Model.Basic

/-!
# Iterators over bytes

An iterator is given by its states and by `next`, which returns a byte or `none` and the new state. Nothing is required of it: it need
not end, and it may go on after `none`.
-/

namespace Whasm.Iter

section
variable {σ : Type}

/-- Calling `next` again and again from the state `st` yields the bytes of the list, one by one, and leads to the other state. -/
inductive Yields (next : σ → Option Byte × σ) : σ → List Byte → σ → Prop
  | nil (st : σ) : Yields next st [] st
  | cons {st st1 st2 : σ} {b : Byte} {l : List Byte} :
      next st = (some b, st1) → Yields next st1 l st2 → Yields next st (b :: l) st2

/-- The iterator that does what `next` does and counts in addition how often `none` was returned and how often it was called after that. -/
def watch (next : σ → Option Byte × σ) : σ × Nat × Nat → Option Byte × (σ × Nat × Nat)
  | (st, nones, late) =>
    ((next st).1, ((next st).2, if (next st).1 = none then nones + 1 else nones, if nones = 0 then late else late + 1))

/-- The iterator never ends. -/
def Endless (next : σ → Option Byte × σ) (st : σ) : Prop :=
  ∀ l st', Yields next st l st' → (next st').1 ≠ none

/-- The endless iterator over the values of a function. -/
def streamNext (f : Nat → Byte) (i : Nat) : Option Byte × Nat := (some (f i), i + 1)

end

end Whasm.Iter
