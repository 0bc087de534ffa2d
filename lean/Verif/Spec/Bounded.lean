import Verif.Spec.Frames

/-!
# A fixed number of words for the registers of all calls

The machine of `Spec/Frames.lean` has a row of words without end. This one has a row of `W` words, which is all the memory that it has for operands, local variables and arguments of all calls. When a call begins whose
registers are not within the row, it stops and says so (`exhausted`); nothing else is checked: a word that is not in the row is zero when it is read, and nothing happens when it is written.
-/

namespace Whasm.Run
open Spec Spec.Pass

/-- A state; `row` is the memory. -/
inductive BState where
  | running (st : Store) (row : List Cell) (a : QAct) (as : List QAct)
  | finished (st : Store) (vs : List Value)
  | trapped (st : Store)
  | exhausted

/-- What is read from the row. -/
def wide (row : List Cell) : Nat → Cell := fun i => row.getD i 0

/-- What is left of the words in a row of `W`. -/
def cut (W : Nat) (mem : Nat → Cell) : List Cell := (List.range W).map mem

/-- A state of the other machine in a row of `W` words, after a state with `d` calls. If there is one call more, its registers have to be within the row. -/
def fit (N : Func → Nat) (W d : Nat) : QState → BState
  | .running st mem a as => if as.length < d ∨ a.base + N a.func ≤ W then .running st (cut W mem) a as else .exhausted
  | .finished st vs => .finished st vs
  | .trapped st => .trapped st

/-- One step; the ends stay. -/
def bstep (M : Machine) (R : RCodes) (N : Func → Nat) (W : Nat) : BState → BState
  | .running st row a as => fit N W (as.length + 1) (qstep M R (.running st (wide row) a as))
  | s => s

def bsteps (M : Machine) (R : RCodes) (N : Func → Nat) (W : Nat) (s : BState) : Nat → BState
  | 0 => s
  | n + 1 => bstep M R N W (bsteps M R N W s n)

/-- The state in which a function of the module is called, with these words as arguments. -/
def bentered (N : Func → Nat) (W : Nat) (t : FuncTy) (f : Func) (args : List Cell) (st : Store) : BState := fit N W 0 (qentered t f args st)

end Whasm.Run
