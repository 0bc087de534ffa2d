import Verif.Model.Context
import Verif.Model.Place

/-!
# The beginning of a function body
-/

namespace Whasm.Spec
open Run (Place)

/-- `a` and `b` have the same instructions before the place `p`, and are in the same blocks there. -/
inductive SameBefore : Place → List Instr → List Instr → Prop
  | here (pre a b : List Instr) : SameBefore (.here pre.length) (pre ++ a) (pre ++ b)
  | block (pre a b : List Instr) (r : RetVal) {p : Place} {x y : List Instr} (h : SameBefore p x y) :
    SameBefore (.inside pre.length p) (pre ++ .block r x :: a) (pre ++ .block r y :: b)
  | loop (pre a b : List Instr) (r : RetVal) {p : Place} {x y : List Instr} (h : SameBefore p x y) :
    SameBefore (.inside pre.length p) (pre ++ .loop r x :: a) (pre ++ .loop r y :: b)
  | ifThen (pre a b : List Instr) (r : RetVal) (e e' : List Instr) {p : Place} {x y : List Instr} (h : SameBefore p x y) :
    SameBefore (.inside pre.length p) (pre ++ .ifElse r x e :: a) (pre ++ .ifElse r y e' :: b)
  | ifElse (pre a b : List Instr) (r : RetVal) (t : List Instr) {p : Place} {x y : List Instr} (h : SameBefore p x y) :
    SameBefore (.inElse pre.length p) (pre ++ .ifElse r t x :: a) (pre ++ .ifElse r t y :: b)

/-- The types (the last one on top) that the operands of the innermost block can have, as far as the context knows: each known operand has its type, an unknown one any; and in unreachable code there can be
any others below them. -/
def Admits (c : Ctx) (ts : List Val) : Prop :=
  ∃ f fs below known, c.frames = f :: fs ∧ ts = below ++ known ∧ (below = [] ∨ f.unreachable = true) ∧ known.length = c.operands.length - f.height ∧
    ∀ (n : Nat) t, known.reverse[n]? = some t → c.operands[n]? = some Operand.unknown ∨ c.operands[n]? = some (Operand.val t)

end Whasm.Spec
