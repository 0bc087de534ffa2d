import Verif.Spec.Reduce

/-!
# The operands of a call in one stack

The rules of `Spec/Reduce.lean` keep the operands of each block with its label. An engine has one stack for all of them, and knows of each label which types it lets through and how many operands are below it.
-/

namespace Whasm.Run
open Spec

mutual
/-- `laidL` for the first instruction. -/
def laidA : List Value → List (List Val × Nat) → List Value → Admin → List Value × List (List Val × Nat)
  | B, F, vs, .label r _ ws es => laidL (vs ++ B) ((r, (vs ++ B).length) :: F) ws es
  | B, F, vs, _ => (vs ++ B, F)
/-- The operands (top first) and the labels (innermost first) of a state with values `vs` and instructions `es`, on top of operands `B` and labels `F`. -/
def laidL : List Value → List (List Val × Nat) → List Value → List Admin → List Value × List (List Val × Nat)
  | B, F, vs, [] => (vs ++ B, F)
  | B, F, vs, e :: _ => laidA B F vs e
end

/-- All operands of a function that is being executed, with values `vs` and instructions `es`, in one stack; top first. -/
def stackOf (vs : List Value) (es : List Admin) : List Value := (laidL [] [] vs es).1

/-- Its labels, innermost first: the types of the values that a branch takes along, and the number of operands below. -/
def labelsAt (vs : List Value) (es : List Admin) : List (List Val × Nat) := (laidL [] [] vs es).2

/-- The last `n` of a list: the lowest operands of a stack. -/
def lowest (n : Nat) (vs : List Value) : List Value := vs.drop (vs.length - n)

/-- `Jumps i n us vs`: the instruction `i`, executed with operands `vs`, branches to the label `n`, with operands `us` (4.4.5). -/
inductive Jumps : Option Instr → Nat → List Value → List Value → Prop
  | br {l us} : Jumps (some (.br l)) (BitVec.toNat l) us us
  | brIf {l k us} (hk : k ≠ 0) : Jumps (some (.brIf l)) (BitVec.toNat l) us (.i32 k :: us)
  | brTable {tb l k x us} (hx : tb[BitVec.toNat k]? = some x) : Jumps (some (.brTable tb l)) (BitVec.toNat x) us (.i32 k :: us)
  | brTableElse {tb l k us} (hx : List.length tb ≤ BitVec.toNat k) : Jumps (some (.brTable tb l)) (BitVec.toNat l) us (.i32 k :: us)

/-- The innermost label is at its end. -/
inductive Ends : List Value → List Admin → Prop
  | here {vs r k ws es} : Ends vs (.label r k ws [] :: es)
  | label {vs r k ws fs es} (h : Ends ws fs) : Ends vs (.label r k ws fs :: es)

end Whasm.Run
