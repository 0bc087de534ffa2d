import Verif.Model.Kinds
import Verif.Model.ProcessTypes

/-!
# What the process needs from the machine (`Model/Grant`)
-/

namespace Whasm.Grant

/-- The recursive functions of the crate: `parse` is `Instr::parse` with `Expr::parse` or `IfInstr::parse` and `SubExpr::parse`, `validate` is `Instr::validate` with `Expr::validate`, `drop` is the drop glue of
`Instr`, `print` is its `derive(Debug)`. -/
inductive Work where
  | parse
  | validate
  | drop
  | print
  deriving DecidableEq, Repr

/-- What the process asks for.
* `part k len more`: a vector of the parser with `len` elements of kind `k` needs room for `more` elements;
* `entry k len more`: the same for a vector of the validator;
* `scratch n`: room for `n` names, to sort them;
* `buffer len more`: the vector for the contents of the file has `len` bytes and needs room for `more`;
* `call w`: the native stack has to hold one more level of blocks for a recursive function;
* `back w`: the function leaves that level. Nothing is needed;
* `system c`: a call of the operating system;
* `step`: anything else, of a fixed size. -/
inductive Ask where
  | part (k : Kind) (len more : Nat)
  | entry (k : Entry) (len more : Nat)
  | scratch (n : Nat)
  | buffer (len more : Nat)
  | call (w : Work)
  | back (w : Work)
  | system (c : Process.Call)
  | step
  deriving DecidableEq, Repr

/-- A machine: whether it grants what is asked for, given what was asked for before. What it does not grant is the end of the process, by a panic or by a signal. -/
def Machine : Type := List Ask → Ask → Bool

end Whasm.Grant
