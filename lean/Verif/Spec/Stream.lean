import Verif.Spec.Words
import Verif.Spec.Pass

/-!
# A machine that executes code as it is in the file

It has no tree of instructions: the code of a function is the sequence of opcodes that its bytes are (`GSeq (GOp D)` in `Spec/Pass.lean`), and a place in it is a number. Branches forward go on after the `end` that belongs to the label,
found by counting; branches to a loop go back to its opcode. Operands are words without types and nothing is checked, as in `Spec/Words.lean`. How many operands stay after a branch is in a table, for the places of the
sequence and the labels; `passTable` is the one that the algorithm of the appendix makes, in its one pass over the opcodes.
-/

namespace Whasm.Run
open Spec Spec.Pass

/-- The number of opcodes up to the `end` of the label `l`, included. -/
def scan : Nat → List Op → Nat
  | _, [] => 0
  | 0, .endOp :: _ => 1
  | l + 1, .endOp :: ops => 1 + scan l ops
  | l, .block _ :: ops => 1 + scan (l + 1) ops
  | l, .loop _ :: ops => 1 + scan (l + 1) ops
  | l, .ifOp _ :: ops => 1 + scan (l + 1) ops
  | l, .elseOp :: ops => 1 + scan l ops
  | l, .instr _ :: ops => 1 + scan l ops

/-- The number of opcodes up to the `else` of the innermost `if`, included, or up to its `end`, if it has none; `l` blocks have begun since. -/
def scanElse : Nat → List Op → Nat
  | _, [] => 0
  | 0, .elseOp :: _ => 1
  | 0, .endOp :: _ => 0
  | l + 1, .elseOp :: ops => 1 + scanElse (l + 1) ops
  | l + 1, .endOp :: ops => 1 + scanElse l ops
  | l, .block _ :: ops => 1 + scanElse (l + 1) ops
  | l, .loop _ :: ops => 1 + scanElse (l + 1) ops
  | l, .ifOp _ :: ops => 1 + scanElse (l + 1) ops
  | l, .instr _ :: ops => 1 + scanElse l ops

/-- The places of the blocks that have begun and not ended, the innermost first. `n` opcodes have been read, `s` has been found so far. -/
def openAt : Nat → List Nat → List Op → List Nat
  | _, s, [] => s
  | n, s, .endOp :: ops => openAt (n + 1) s.tail ops
  | n, s, .block _ :: ops => openAt (n + 1) (n :: s) ops
  | n, s, .loop _ :: ops => openAt (n + 1) (n :: s) ops
  | n, s, .ifOp _ :: ops => openAt (n + 1) (n :: s) ops
  | n, s, .elseOp :: ops => openAt (n + 1) s ops
  | n, s, .instr _ :: ops => openAt (n + 1) s ops

/-- Where a branch to the label `l` goes on. -/
def goal (ops : List Op) (pc l : Nat) : Nat :=
  match ops[(openAt 0 [] (ops.take pc)).getD l 0]? with
  | some (.loop _) => (openAt 0 [] (ops.take pc)).getD l 0
  | _ => pc + scan l (ops.drop pc)

/-- A call that is being executed. -/
structure LAct where
  type : FuncTy
  func : Func
  pc : Nat
  locals : List Cell
  stack : List Cell

/-- A state: a call and those around it, or an end. -/
inductive LState where
  | running (st : Store) (a : LAct) (as : List LAct)
  | finished (st : Store) (vs : List Value)
  | trapped (st : Store)

/-- The opcodes of the body of each function, with the last `end`. -/
abbrev Codes := Func → List Op

/-- Each body is written as the opcodes `K` of it; an empty second branch of an `if` may be omitted or not. -/
def WrittenAs (m : Module) (K : Codes) : Prop := ∀ f ∈ m.funcs, ∃ ops, K f = ops ++ [.endOp] ∧ FlatL ops f.body

/-- For a function, a place in its code and a label: how many values a branch takes along, and how many operands are below the label. -/
abbrev LTable := Func → Nat → Nat → Option (Nat × Nat)

/-- The table that the algorithm of the appendix makes: `ctrls` after the opcodes up to the place. -/
def passTable (m : Module) (K : Codes) : LTable := fun f pc l =>
  (m.types[f.ty.toNat]?.bind fun t => Pass.run (bodyEnv .code m t f.locals) (start t.results) ((K f).take pc)).bind fun s =>
    s.ctrls[l]?.map fun c => (c.label_types.length, c.height)

/-- The end of a call, with the stack `S`. -/
def lleave (st : Store) (t : FuncTy) (S : List Cell) : List LAct → LState
  | [] => .finished st (asValues t.results S)
  | a :: as => .running st { a with pc := a.pc + 1, stack := S.take t.results.length ++ a.stack } as

/-- The beginning of a call, with the stack `S`. -/
def linvoke (M : Machine) (st : Store) (a : LAct) (as : List LAct) (S : List Cell) : FuncInst → LState
  | .own t f => .running st ⟨t, f, 0, (S.take t.params.length).reverse ++ f.locals.map fun _ => 0, []⟩ ({ a with stack := S.drop t.params.length } :: as)
  | .host t id =>
    match M.host id st (asValues t.params S) with
    | (st', some us) => .running st' { a with pc := a.pc + 1, stack := (us.map Value.cell).reverse ++ S.drop t.params.length } as
    | (st', none) => .trapped st'

/-- One step; the ends stay. -/
def lstep (M : Machine) (K : Codes) (T : LTable) : LState → LState
  | .running st a as =>
    match (K a.func).drop a.pc with
    | [] => .trapped st
    | [.endOp] => lleave st a.type a.stack as
    | .endOp :: _ => .running st { a with pc := a.pc + 1 } as
    | .elseOp :: ops => .running st { a with pc := a.pc + 1 + scan 0 ops } as
    | .block _ :: _ => .running st { a with pc := a.pc + 1 } as
    | .loop _ :: _ => .running st { a with pc := a.pc + 1 } as
    | .ifOp _ :: ops => .running st { a with pc := if top32 a.stack = 0 then a.pc + 1 + scanElse 0 ops else a.pc + 1, stack := a.stack.tail } as
    | .instr i :: _ =>
      match effect M st a.locals a.stack i with
      | .next st' ls S => .running st' { a with pc := a.pc + 1, locals := ls, stack := S } as
      | .trap st' => .trapped st'
      | .jump l S =>
        .running st { a with
          pc := goal (K a.func) a.pc l
          stack := S.take ((T a.func a.pc l).getD (0, 0)).1 ++ S.drop (S.length - ((T a.func a.pc l).getD (0, 0)).2) } as
      | .call fi S => linvoke M st a as S fi
      | .back S => lleave st a.type S as
      | .enter _ => .trapped st
      | .enterElse _ => .trapped st
  | s => s

/-- `n` steps. -/
def lsteps (M : Machine) (K : Codes) (T : LTable) : Nat → LState → LState
  | 0, s => s
  | n + 1, s => lsteps M K T n (lstep M K T s)

/-- The state in which a function of the module is called, with these words as arguments. -/
def lentered (t : FuncTy) (f : Func) (args : List Cell) (st : Store) : LState := .running st ⟨t, f, 0, args ++ f.locals.map fun _ => 0, []⟩ []

end Whasm.Run
