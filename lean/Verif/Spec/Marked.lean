import Verif.Spec.Frames

/-!
# Code that validation has marked as not reached

The algorithm of the appendix of the document has a mark `unreachable` in each control frame. It is set after `br`, `br_table`, `return` and `unreachable`, and it is there for the operands: those that such code takes may be of any
type. Here it is read as what its name says.
-/

namespace Whasm.Run
open Spec Spec.Pass

/-- There is an opcode, and it is not the `end` of a block. -/
def goesOn : List Op → Bool
  | [] => false
  | [.endOp] => true
  | .endOp :: _ => false
  | _ => true

/-- The opcode at the place is not the `end` of a block, and after the opcodes before it one of the control frames of the algorithm is marked. -/
def marked (m : Module) (K : Codes) (f : Func) (pc : Nat) : Bool :=
  goesOn ((K f).drop pc) &&
    ((m.types[f.ty.toNat]?.bind fun t => Pass.run (bodyEnv .code m t f.locals) (start t.results) ((K f).take pc)).map fun s => s.ctrls.any (·.unreachable)).getD false

/-- The number of registers of a function if what is marked is not counted. -/
def liveFrame (m : Module) (K : Codes) (f : Func) : Nat :=
  ((m.types[f.ty.toNat]?.map fun t => t.params.length).getD 0) + f.locals.length + (((List.range (K f).length).filter fun pc => !marked m K f pc).map (heightAt m K f)).foldl max 0

end Whasm.Run
