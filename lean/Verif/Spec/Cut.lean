import Verif.Model.Structure
import Verif.Spec.Sections

/-!
# Modules that are cut off
-/

namespace Whasm.Spec

/-- What remains of a module if all sections numbered above `k` are removed (the functions belong to the code section, number 10). -/
def upTo (k : Nat) (m : Module) : Module where
  types := if 1 ≤ k then m.types else []
  imports := if 2 ≤ k then m.imports else []
  tables := if 4 ≤ k then m.tables else []
  mems := if 5 ≤ k then m.mems else []
  globals := if 6 ≤ k then m.globals else []
  exports := if 7 ≤ k then m.exports else []
  start := if 8 ≤ k then m.start else none
  elem := if 9 ≤ k then m.elem else []
  funcs := if 10 ≤ k then m.funcs else []
  data := if 11 ≤ k then m.data else []

/-- The largest number of a section, 0 if there are custom sections only. -/
def topId (secs : List (Byte × List Byte)) : Nat := (secIds secs).foldr max 0

end Whasm.Spec
