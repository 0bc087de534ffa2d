import Verif.Spec.Size

/-!
# Modules whose expressions are nested to a limited depth
-/

namespace Whasm.Spec

/-- No expression of the module has more than `k` blocks inside of each other. -/
structure NestsAtMost (k : Nat) (m : Module) : Prop where
  funcs : ∀ f ∈ m.funcs, depthL f.body ≤ k
  globals : ∀ g ∈ m.globals, depthL g.init ≤ k
  elem : ∀ e ∈ m.elem, depthL e.offset ≤ k
  data : ∀ d ∈ m.data, depthL d.offset ≤ k

end Whasm.Spec
