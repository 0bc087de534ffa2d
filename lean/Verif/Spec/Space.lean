import Verif.Spec.Reduce
import Verif.Spec.Size

/-!
# The space that execution takes

In a state of execution by the reduction rules (`Spec/Reduce.lean`), what an engine has to keep for each call that has not returned: local variables, operands, and labels.
-/

namespace Whasm.Run
open Spec

mutual
/-- Operands in the labels of an instruction, without those of calls inside. -/
def heldA : Admin → Nat
  | .label _ _ vs es => vs.length + heldL es
  | _ => 0
def heldL : List Admin → Nat
  | [] => 0
  | e :: es => heldA e + heldL es
end

/-- The operands of a function that is being executed, with values `vs` and instructions `es`: those of all its blocks, not those of the functions that it calls. -/
def operands (vs : List Value) (es : List Admin) : Nat := vs.length + heldL es

mutual
/-- How deep labels are nested, without those of calls inside. -/
def nestA : Admin → Nat
  | .label _ _ _ es => 1 + nestL es
  | _ => 0
def nestL : List Admin → Nat
  | [] => 0
  | e :: es => max (nestA e) (nestL es)
end

/-- Among the instructions there is a call that has not returned (4.2.13, frames), with local variables `ls`, values `vs` and instructions `es`; inside other calls, or not. -/
inductive Activation : List Admin → List Value → List Value → List Admin → Prop
  | here {r ls vs es fs} : Activation (.frame r ls vs es :: fs) ls vs es
  | frame {r ls vs es ls' vs' es' fs} (h : Activation es' ls vs es) : Activation (.frame r ls' vs' es' :: fs) ls vs es
  | label {r k ls vs es vs' es' fs} (h : Activation es' ls vs es) : Activation (.label r k vs' es' :: fs) ls vs es
  | there {e ls vs es fs} (h : Activation fs ls vs es) : Activation (e :: fs) ls vs es

mutual
/-- The number of calls that have not returned. -/
def callsA : Admin → Nat
  | .label _ _ _ es => callsL es
  | .frame _ _ _ es => 1 + callsL es
  | _ => 0
def callsL : List Admin → Nat
  | [] => 0
  | e :: es => callsA e + callsL es
end

mutual
/-- Operands in the labels and calls of an instruction. -/
def allA : Admin → Nat
  | .label _ _ vs es => vs.length + allL es
  | .frame _ _ vs es => vs.length + allL es
  | _ => 0
def allL : List Admin → Nat
  | [] => 0
  | e :: es => allA e + allL es
end

/-- All operands of a state with values `vs` and instructions `es`. -/
def allOperands (vs : List Value) (es : List Admin) : Nat := vs.length + allL es

end Whasm.Run
