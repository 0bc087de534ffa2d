import Verif.Spec.Frames

/-!
# Where code goes on

Whoever executes translated code without a check of the place wants to know that there is an instruction at every place that it can go on at.
-/

namespace Whasm.Run

/-- The places to which an instruction may branch. -/
def RInstr.targets : RInstr → List Nat
  | .go pc => [pc]
  | .goUnless _ pc => [pc]
  | .jump b => [b.pc]
  | .jumpIf _ b => [b.pc]
  | .jumpTable _ bs b => b.pc :: bs.map (·.pc)
  | _ => []

/-- The functions of the calls, with their places; the call that is executed is the first. -/
def QState.places : QState → List (Func × Nat)
  | .running _ _ a as => (a :: as).map fun b => (b.func, b.pc)
  | _ => []

end Whasm.Run
