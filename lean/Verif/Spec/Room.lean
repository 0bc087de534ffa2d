import Verif.Spec.Memory
import Verif.Spec.Deep
import Verif.Spec.Size

/-!
# The memory that validation needs
-/

namespace Whasm.Spec

/-- The vectors of validation can have as many entries as the module needs, except those of local variables: a type, function, table, memory or global each, imported or not; an operand for each part of
an expression; a frame for each block and one more; the results; and the names of exports. -/
structure HasEntries (entries : Entry → Nat) (m : Module) : Prop where
  types : m.types.length ≤ entries .types
  funcs : (funcSpace m).length ≤ entries .funcs
  tables : (tableSpace m).length ≤ entries .tables
  mems : (memSpace m).length ≤ entries .mems
  globals : (globalSpace m).length ≤ entries .globals
  operands : ∀ e ∈ exprsOf m, bulkL e ≤ entries .operands
  frames : ∀ e ∈ exprsOf m, depthL e < entries .frames
  imports : m.imports.length ≤ entries .externals
  exports : m.exports.length ≤ entries .externals
  names : m.exports.length ≤ entries .names

/-- Some function has more than `k` parameters and local variables, and what is validated before it is valid: the indices of function types, the function types, and the functions before. -/
structure TooManyLocals (k : Nat) (m : Module) : Prop where
  imports : ∀ i ∈ m.imports, ∀ x, i.desc = .func x → x.toNat < m.types.length
  indices : ∀ f ∈ m.funcs, f.ty.toNat < m.types.length
  types : ∀ t ∈ m.types, t.results.length ≤ 1
  body : ∃ before f after, m.funcs = before ++ f :: after ∧ (∀ g ∈ before, FuncOk .code m g) ∧ k < slots m.types f

/-- The numbers of entries that are possible on a target with `usize` of `bits` bits: `isize::MAX` bytes. An operand has one byte. -/
def targetEntries (bits : Nat) (size : Entry → Nat) : Entry → Nat
  | .operands => pushRoom 8 ((2 ^ (bits - 1) - 1) / size .operands)
  | .locals => (2 ^ (bits - 1) - 1) / size .locals
  | .externals => (2 ^ (bits - 1) - 1) / size .externals
  | .names => (2 ^ (bits - 1) - 1) / size .names
  | k => pushRoom 4 ((2 ^ (bits - 1) - 1) / size k)

end Whasm.Spec
