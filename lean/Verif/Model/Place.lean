/-!
# Places in code

Shared by `Model/Arrive.lean` and `Spec/Points.lean`; there is nothing like it in the code.
-/

namespace Whasm.Run

/-- A place in a list of instructions: before the `n`-th one, or inside the `n`-th one, which is a block, a loop or the first branch of an `if`, or in its second branch. -/
inductive Place where
  | here (n : Nat)
  | inside (n : Nat) (p : Place)
  | inElse (n : Nat) (p : Place)
  deriving DecidableEq, Repr

/-- The number of blocks around a place. -/
def Place.depth : Place → Nat
  | .here _ => 0
  | .inside _ p => p.depth + 1
  | .inElse _ p => p.depth + 1

end Whasm.Run
