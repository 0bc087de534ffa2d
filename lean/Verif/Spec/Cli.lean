/-!
# Command line arguments
-/

namespace Whasm.Spec

/-- The arguments that are taken as file names. -/
def names (args : List String) : List String := args.filter fun a => ¬ (a = "-p" ∨ a = "--print")

/-- A flag is present. -/
def wantsPrint (args : List String) : Prop := "-p" ∈ args ∨ "--print" ∈ args

instance (args : List String) : Decidable (wantsPrint args) := by unfold wantsPrint; infer_instance

end Whasm.Spec
