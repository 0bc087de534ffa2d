import Verif.Spec.Deep

/-!
# Modules with a branch to the label 0xFFFFFFFF

As in `Spec/Deep.lean`, validation gets to a place in a body if there is a body that is valid and the same up to there.
-/

namespace Whasm

/-- The instruction at a place in a list of instructions, and the types that a branch takes along to each of the labels there, the innermost first; `L` are those outside. -/
def Run.Place.branch : Run.Place → List Instr → List (List Val) → Option (Instr × List (List Val))
  | .here n, is, L => is[n]?.map fun i => (i, L)
  | .inside n p, is, L =>
    match is[n]? with
    | some (.block r b) => p.branch b (r :: L)
    | some (.loop _ b) => p.branch b ([] :: L)
    | some (.ifElse r a _) => p.branch a (r :: L)
    | _ => none
  | .inElse n p, is, L =>
    match is[n]? with
    | some (.ifElse r _ b) => p.branch b (r :: L)
    | _ => none

namespace Spec
open Run

/-- The instruction branches to the label 0xFFFFFFFF; for one in the table of a `br_table`: the default label exists, so do the labels before in the table, and all have the same types. -/
inductive LastLabel (L : List (List Val)) : Instr → Prop
  | br : LastLabel L (.br 0xFFFFFFFF)
  | brIf : LastLabel L (.brIf 0xFFFFFFFF)
  | byDefault (ls : List Idx) : LastLabel L (.brTable ls 0xFFFFFFFF)
  | inTable {a : List Idx} {l : Idx} {t : List Val} (b : List Idx) (hl : L[l.toNat]? = some t) (ha : ∀ x ∈ a, L[x.toNat]? = some t) :
    LastLabel L (.brTable (a ++ 0xFFFFFFFF :: b) l)

/-- There is a place with such an instruction, up to which the body of `f` is that of some valid function. In the body of a function there is no label for the function itself (disagreement 8). -/
def GetsToLast (m : Module) (f : Func) : Prop :=
  ∃ p b' i L, SameBefore p f.body b' ∧ FuncOk .code m { f with body := b' } ∧ p.branch f.body [] = some (i, L) ∧ LastLabel L i

/-- Some function gets there, and what is validated before it is valid: the indices of function types, the function types, and the functions before. -/
structure BranchesToLast (m : Module) : Prop where
  imports : ∀ i ∈ m.imports, ∀ x, i.desc = .func x → x.toNat < m.types.length
  indices : ∀ f ∈ m.funcs, f.ty.toNat < m.types.length
  types : ∀ t ∈ m.types, t.results.length ≤ 1
  body : ∃ before f after, m.funcs = before ++ f :: after ∧ (∀ g ∈ before, FuncOk .code m g) ∧ GetsToLast m f

end Whasm.Spec
