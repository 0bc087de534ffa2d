import Verif.Spec.Cost
import Verif.Model.Kinds

/-!
# The vectors of a module
-/

namespace Whasm.Spec

mutual
/-- The vectors in an instruction: block types, bodies of blocks, and the labels of `br_table`; with their lengths. -/
def vectorsI : Instr → List (Kind × Nat)
  | .block t b => (.val, t.length) :: (.instr, b.length) :: vectorsL b
  | .loop t b => (.val, t.length) :: (.instr, b.length) :: vectorsL b
  | .ifElse t a b => (.val, t.length) :: (.instr, a.length) :: (.instr, b.length) :: (vectorsL a ++ vectorsL b)
  | .brTable ls _ => [(.idx, ls.length)]
  | _ => []
def vectorsL : List Instr → List (Kind × Nat)
  | [] => []
  | i :: is => vectorsI i ++ vectorsL is
end

/-- The vectors of an expression. -/
def vectorsE (e : Expr) : List (Kind × Nat) := (.instr, e.length) :: vectorsL e

/-- All vectors in the memory representation of a module, with the kind of their elements and their lengths. -/
def vectors (m : Module) : List (Kind × Nat) :=
  ((.functype, m.types.length) :: m.types.flatMap fun t => [(.val, t.params.length), (.val, t.results.length)]) ++
  ((.func, m.funcs.length) :: m.funcs.flatMap fun f => (.local, f.locals.length) :: vectorsE f.body) ++
  [(.table, m.tables.length), (.mem, m.mems.length)] ++
  ((.global, m.globals.length) :: m.globals.flatMap fun g => vectorsE g.init) ++
  ((.elem, m.elem.length) :: m.elem.flatMap fun e => (.idx, e.init.length) :: vectorsE e.offset) ++
  ((.data, m.data.length) :: m.data.flatMap fun d => (.byte, d.init.length) :: vectorsE d.offset) ++
  ((.import, m.imports.length) :: m.imports.flatMap fun i => [(.byte, i.module.length), (.byte, i.name.length)]) ++
  ((.export, m.exports.length) :: m.exports.flatMap fun e => [(.byte, e.name.length)])

/-- Every vector of the module has at most as many elements as there is room for. -/
def HasRoom (room : Kind → Nat) (m : Module) : Prop := ∀ v ∈ vectors m, v.2 ≤ room v.1

instance (room : Kind → Nat) (m : Module) : Decidable (HasRoom room m) := by unfold HasRoom; infer_instance

/-- How many elements a vector gets by `push` if there is memory for `n`: its first capacity is `first`, and it doubles its capacity when it is full. (The standard library does not promise it;
`first` is 8 for elements of one byte and 4 for larger ones.) -/
def pushRoom (first n : Nat) : Nat := if n < first then 0 else first * 2 ^ (n / first).log2

/-- The lengths of vectors that are possible on a target with `usize` of `bits` bits: `isize::MAX` bytes. -/
def targetRoom (bits : Nat) (size : Kind → Nat) : Kind → Nat
  | .local => pushRoom 8 ((2 ^ (bits - 1) - 1) / size .local)
  | .instr => pushRoom 4 ((2 ^ (bits - 1) - 1) / size .instr)
  | k => (2 ^ (bits - 1) - 1) / size k

/-- The elements of all vectors. -/
def elements (m : Module) : Nat := total (·.2) (vectors m)

end Whasm.Spec
