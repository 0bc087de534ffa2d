import Verif.Model.Equality

/-!
# `==` on a native stack with a number of bytes

The derived `==` of `Instr` calls itself for the blocks inside. Simplification as in `Model/Scope.lean`: everything that is not recursive is taken to fit. An abort of the process is `none`.
-/

namespace Whasm.Compare

/-- `a && b`, where `b` is not looked at if `a` is false. -/
def andThen (a b : Option Bool) : Option Bool :=
  match a with
  | some true => b
  | r => r

/-- The call of a recursive function that takes `cost` bytes, if there is room for it. -/
def enter (cost room : Nat) (inner : Nat → Option Bool) : Option Bool := if cost ≤ room then inner (room - cost) else none

/-- `PartialEq for Vec<T>` compares the lengths first. -/
def sameLength {α : Type} (xs ys : List α) (rest : Option Bool) : Option Bool := if xs.length = ys.length then rest else some false

mutual

/-- `PartialEq for instr::Instr`, derived at `structure/instr.rs:9`. Fields are compared in order. -/
def instrEq (cost : Nat) : Instr → Instr → Nat → Option Bool
  | .block r a, .block r' a', room => if r = r' then enter cost room fun room => sameLength a a' (sliceEq cost a a' room) else some false
  | .loop r a, .loop r' a', room => if r = r' then enter cost room fun room => sameLength a a' (sliceEq cost a a' room) else some false
  | .ifElse r a b, .ifElse r' a' b', room =>
    if r = r' then
      andThen (enter cost room fun room => sameLength a a' (sliceEq cost a a' room)) (enter cost room fun room => sameLength b b' (sliceEq cost b b' room))
    else some false
  | i, j, _ => some (Whasm.instrEq i j)

/-- `PartialEq for [Instr]`, after the lengths have been compared. -/
def sliceEq (cost : Nat) : List Instr → List Instr → Nat → Option Bool
  | i :: is, j :: js, room => andThen (instrEq cost i j room) (sliceEq cost is js room)
  | _, _, _ => some true

end

/-- `PartialEq` for `instr::Expr` and `instr::ConstExpr`, derived at `structure/instr.rs:3-7`. -/
def exprEq (cost : Nat) (is js : List Instr) (room : Nat) : Option Bool := sameLength is js (sliceEq cost is js room)

/-- `PartialEq for [T]`, after the lengths have been compared. -/
def slice {α : Type} (eq : α → α → Option Bool) : List α → List α → Option Bool
  | x :: xs, y :: ys => andThen (eq x y) (slice eq xs ys)
  | _, _ => some true

/-- `PartialEq for Vec<T>`. -/
def vec {α : Type} (eq : α → α → Option Bool) (xs ys : List α) : Option Bool := sameLength xs ys (slice eq xs ys)

/-- `PartialEq for module::Func`, derived at `structure/module.rs:18-23`. -/
def funcEq (cost room : Nat) (f g : Func) : Option Bool :=
  andThen (some (decide (f.ty = g.ty))) <| andThen (some (decide (f.locals = g.locals))) (exprEq cost f.body g.body room)

/-- `PartialEq for module::Global`, derived at `structure/module.rs:35-39`. -/
def globalEq (cost room : Nat) (f g : Global) : Option Bool := andThen (some (decide (f.ty = g.ty))) (exprEq cost f.init g.init room)

/-- `PartialEq for module::Elem`, derived at `structure/module.rs:41-46`. -/
def elemEq (cost room : Nat) (f g : Elem) : Option Bool :=
  andThen (some (decide (f.table = g.table))) <| andThen (exprEq cost f.offset g.offset room) (some (decide (f.init = g.init)))

/-- `PartialEq for module::Data`, derived at `structure/module.rs:48-53`. -/
def dataEq (cost room : Nat) (f g : Data) : Option Bool :=
  andThen (some (decide (f.mem = g.mem))) <| andThen (exprEq cost f.offset g.offset room) (some (decide (f.init = g.init)))

/-- `PartialEq for module::Module`, derived at `structure/module.rs:3-16`: the fields in the order of their declaration. -/
def moduleEq (cost : Nat) (m n : Module) (room : Nat) : Option Bool :=
  andThen (some (decide (m.types = n.types))) <| andThen (vec (funcEq cost room) m.funcs n.funcs) <|
  andThen (some (decide (m.tables = n.tables))) <| andThen (some (decide (m.mems = n.mems))) <|
  andThen (vec (globalEq cost room) m.globals n.globals) <| andThen (vec (elemEq cost room) m.elem n.elem) <|
  andThen (vec (dataEq cost room) m.data n.data) <| andThen (some (decide (m.start = n.start))) <|
  andThen (some (decide (m.imports = n.imports))) (some (decide (m.exports = n.exports)))

end Whasm.Compare
