import Verif.Spec.Layout
import Verif.Spec.Points

/-!
# A machine without labels

It executes the code of a module as an engine does that has compiled it: one place in the code and one stack of operands for each call. A block only says where a branch to it goes on; where a branch leaves the
stack is in a table, for each place in the code and each label that can be named there: how many values are taken along, and how many operands stay below. Instructions that are not about control do what the rules of
`Spec/Reduce.lean` say.
-/

namespace Whasm.Run
open Spec

/-- The place after an instruction. -/
def Place.next : Place → Place
  | .here n => .here (n + 1)
  | .inside n p => .inside n p.next
  | .inElse n p => .inElse n p.next

/-- The beginning of the block at a place, or of the first branch of an `if`. -/
def Place.enter : Place → Place
  | .here n => .inside n (.here 0)
  | .inside n p => .inside n p.enter
  | .inElse n p => .inElse n p.enter

/-- The beginning of the second branch of an `if`. -/
def Place.enterElse : Place → Place
  | .here n => .inElse n (.here 0)
  | .inside n p => .inside n p.enterElse
  | .inElse n p => .inElse n p.enterElse

/-- The place of the innermost block around a place. -/
def Place.outer : Place → Option Place
  | .here _ => none
  | .inside n p =>
    match p.outer with
    | none => some (.here n)
    | some q => some (.inside n q)
  | .inElse n p =>
    match p.outer with
    | none => some (.here n)
    | some q => some (.inElse n q)

/-- The place of the block whose label is `l`, counted from the innermost. -/
def Place.up : Nat → Place → Option Place
  | 0, p => p.outer
  | l + 1, p => p.outer.bind (Place.up l)

/-- Where a branch to the block at a place goes on: at a loop, or after another block. -/
def Place.land (is : List Instr) (q : Place) : Place :=
  match q.instr is with
  | some (.loop _ _) => q
  | _ => q.next

/-- A call that is being executed: a function and its type, a place in its body, the local variables, and all operands of the call; top first. -/
structure Act where
  type : FuncTy
  func : Func
  place : Place
  locals : List Value
  stack : List Value

/-- A state: a call and those around it, or an end. -/
inductive FState where
  | running (st : Store) (a : Act) (as : List Act)
  | finished (st : Store) (vs : List Value)
  | trapped (st : Store)

/-- For a function, a place in its body and a label: how many values a branch takes along, and how many operands are below the label. -/
abbrev Landings := Func → Place → Nat → Option (Nat × Nat)

/-- One step. -/
inductive FStep (M : Machine) (T : Landings) : FState → FState → Prop
  | instr {st a as i st' ls' S'} (hi : a.place.instr a.func.body = some i) (h : Step M ⟨st, a.locals, a.stack⟩ [.plain i] ⟨st', ls', S'⟩ []) :
    FStep M T (.running st a as) (.running st' { a with place := a.place.next, locals := ls', stack := S' } as)
  | trap {st a as i st' ls' S'} (hi : a.place.instr a.func.body = some i) (h : Step M ⟨st, a.locals, a.stack⟩ [.plain i] ⟨st', ls', S'⟩ [.trap]) :
    FStep M T (.running st a as) (.trapped st')
  | block {st a as r b} (hi : a.place.instr a.func.body = some (.block r b)) :
    FStep M T (.running st a as) (.running st { a with place := a.place.enter } as)
  | loop {st a as r b} (hi : a.place.instr a.func.body = some (.loop r b)) :
    FStep M T (.running st a as) (.running st { a with place := a.place.enter } as)
  | ifThen {st a as r b b' k S} (hi : a.place.instr a.func.body = some (.ifElse r b b')) (hs : a.stack = .i32 k :: S) (hk : k ≠ 0) :
    FStep M T (.running st a as) (.running st { a with place := a.place.enter, stack := S } as)
  | ifElse {st a as r b b' k S} (hi : a.place.instr a.func.body = some (.ifElse r b b')) (hs : a.stack = .i32 k :: S) (hk : k = 0) :
    FStep M T (.running st a as) (.running st { a with place := a.place.enterElse, stack := S } as)
  /-- the end of a block -/
  | fall {st a as q} (hi : a.place.instr a.func.body = none) (hq : a.place.outer = some q) :
    FStep M T (.running st a as) (.running st { a with place := q.next } as)
  | branch {st a as l S k n q} (hj : Jumps (a.place.instr a.func.body) l S a.stack) (ht : T a.func a.place l = some (k, n)) (hq : a.place.up l = some q)
    (hn : k + n ≤ List.length S) :
    FStep M T (.running st a as) (.running st { a with place := q.land a.func.body, stack := S.take k ++ lowest n S } as)
  | call {st a as i ls' S t f args rest} (hi : a.place.instr a.func.body = some i) (h : Step M ⟨st, a.locals, a.stack⟩ [.plain i] ⟨st, ls', S⟩ [.invoke (.own t f)])
    (hp : popArgs (FuncTy.params t) S = some (args, rest)) :
    FStep M T (.running st a as) (.running st ⟨t, f, .here 0, args ++ f.locals.map zero, []⟩ ({ a with stack := rest } :: as))
  | host {st a as i ls' S t id args rest st' us} (hi : a.place.instr a.func.body = some i) (h : Step M ⟨st, a.locals, a.stack⟩ [.plain i] ⟨st, ls', S⟩ [.invoke (.host t id)])
    (hp : popArgs (FuncTy.params t) S = some (args, rest)) (hh : M.host id st args = (st', some us)) :
    FStep M T (.running st a as) (.running st' { a with place := a.place.next, stack := us.reverse ++ rest } as)
  | hostTrap {st a as i ls' S t id args rest st'} (hi : a.place.instr a.func.body = some i) (h : Step M ⟨st, a.locals, a.stack⟩ [.plain i] ⟨st, ls', S⟩ [.invoke (.host t id)])
    (hp : popArgs (FuncTy.params t) S = some (args, rest)) (hh : M.host id st args = (st', none)) :
    FStep M T (.running st a as) (.trapped st')
  /-- `return`, and the end of the body -/
  | back {st a a' as us rest} (hi : a.place.instr a.func.body = some .ret ∨ a.place.instr a.func.body = none ∧ a.place.outer = none)
    (hp : popArgs a.type.results a.stack = some (us, rest)) :
    FStep M T (.running st a (a' :: as)) (.running st { a' with place := a'.place.next, stack := us.reverse ++ a'.stack } as)
  | last {st a us rest} (hi : a.place.instr a.func.body = some .ret ∨ a.place.instr a.func.body = none ∧ a.place.outer = none)
    (hp : popArgs a.type.results a.stack = some (us, rest)) : FStep M T (.running st a []) (.finished st us)

/-- `n` steps. -/
inductive FSteps (M : Machine) (T : Landings) : Nat → FState → FState → Prop
  | zero {s} : FSteps M T 0 s s
  | succ {n s s1 s2} (h : FStep M T s s1) (hs : FSteps M T n s1 s2) : FSteps M T (n + 1) s s2

/-- The state in which a function of the module is called. -/
def entered (t : FuncTy) (f : Func) (args : List Value) (st : Store) : FState := .running st ⟨t, f, .here 0, args ++ f.locals.map zero, []⟩ []

end Whasm.Run
