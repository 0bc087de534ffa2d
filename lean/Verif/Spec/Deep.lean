import Verif.Spec.Prefix
import Verif.Spec.Validity

/-!
# Modules that are nested too deeply for validation

Validation stops at the first error. So what counts are the blocks it gets into: those for which there is a body that is valid and the same up to there.
-/

namespace Whasm

namespace Spec
open Run

/-- There is a place inside of more than `k` blocks up to which the body of `f` is that of some valid function. -/
def GetsDeep (m : Module) (k : Nat) (f : Func) : Prop := ∃ p b', k < p.depth ∧ SameBefore p f.body b' ∧ FuncOk .code m { f with body := b' }

/-- Some function gets deep, and what is validated before it is valid: the indices of function types, the function types, and the functions before. -/
structure TooDeep (k : Nat) (m : Module) : Prop where
  imports : ∀ i ∈ m.imports, ∀ x, i.desc = .func x → x.toNat < m.types.length
  indices : ∀ f ∈ m.funcs, f.ty.toNat < m.types.length
  types : ∀ t ∈ m.types, t.results.length ≤ 1
  body : ∃ before f after, m.funcs = before ++ f :: after ∧ (∀ g ∈ before, FuncOk .code m g) ∧ GetsDeep m k f

end Whasm.Spec
