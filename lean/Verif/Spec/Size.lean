import Verif.Model.Structure

/-!
# Size and nesting depth of expressions
-/

namespace Whasm.Spec

mutual
/-- Number of instructions, nested ones included. -/
def sizeI : Instr → Nat
  | .block _ b => 1 + sizeL b
  | .loop _ b => 1 + sizeL b
  | .ifElse _ a b => 1 + sizeL a + sizeL b
  | _ => 1
def sizeL : List Instr → Nat
  | [] => 0
  | i :: is => sizeI i + sizeL is
end

mutual
/-- Nesting depth: 0 without blocks. -/
def depthI : Instr → Nat
  | .block _ b => 1 + depthL b
  | .loop _ b => 1 + depthL b
  | .ifElse _ a b => 1 + max (depthL a) (depthL b)
  | _ => 0
def depthL : List Instr → Nat
  | [] => 0
  | i :: is => max (depthI i) (depthL is)
end

end Whasm.Spec
