import Verif.Model.Structure

/-!
# `==` on modules: `#[derive(PartialEq)]` in `structure/{ty,idx,instr,module}.rs`

A derived `==` compares variants and then fields, and `Vec`s by length and elements. On all components but floats this is
equality of the represented values, for which Lean's decidable `=` is used. `f32` and `f64` are compared by IEEE 754.
-/

namespace Whasm

/-- The bit pattern `n` of a float with `eb` exponent and `mb` mantissa bits is a NaN: all exponent bits are set and the mantissa is not zero. -/
def isNaN (eb mb n : Nat) : Bool := decide (n % 2 ^ (eb + mb) > (2 ^ eb - 1) * 2 ^ mb)

/-- `==` of Rust on floats (IEEE 754 `compareQuietEqual`): a NaN is unequal to everything, and the two zeros are equal. -/
def floatEq (eb mb a b : Nat) : Bool :=
  !isNaN eb mb a && !isNaN eb mb b && (decide (a = b) || (decide (a % 2 ^ (eb + mb) = 0) && decide (b % 2 ^ (eb + mb) = 0)))

/-- `==` on `f32`. -/
def f32Eq (a b : F32) : Bool := floatEq 8 23 a.toNat b.toNat

/-- `==` on `f64`. -/
def f64Eq (a b : F64) : Bool := floatEq 11 52 a.toNat b.toNat

mutual

/-- `PartialEq for instr::Instr`, derived at `structure/instr.rs:9`. -/
def instrEq : Instr → Instr → Bool
  | .unreachable, .unreachable => true
  | .nop, .nop => true
  | .block r a, .block r' a' => decide (r = r') && exprEq a a'
  | .loop r a, .loop r' a' => decide (r = r') && exprEq a a'
  | .ifElse r a b, .ifElse r' a' b' => decide (r = r') && exprEq a a' && exprEq b b'
  | .elseMark, .elseMark => true
  | .endMark, .endMark => true
  | .br l, .br l' => decide (l = l')
  | .brIf l, .brIf l' => decide (l = l')
  | .brTable ls l, .brTable ls' l' => decide (ls = ls') && decide (l = l')
  | .ret, .ret => true
  | .call l, .call l' => decide (l = l')
  | .callIndirect t l, .callIndirect t' l' => decide (t = t') && decide (l = l')
  | .drop, .drop => true
  | .select, .select => true
  | .localGet l, .localGet l' => decide (l = l')
  | .localSet l, .localSet l' => decide (l = l')
  | .localTee l, .localTee l' => decide (l = l')
  | .globalGet l, .globalGet l' => decide (l = l')
  | .globalSet l, .globalSet l' => decide (l = l')
  | .load o a b, .load o' a' b' => decide (o = o') && decide (a = a') && decide (b = b')
  | .store o a b, .store o' a' b' => decide (o = o') && decide (a = a') && decide (b = b')
  | .memSize l, .memSize l' => decide (l = l')
  | .memGrow l, .memGrow l' => decide (l = l')
  | .constI32 l, .constI32 l' => decide (l = l')
  | .constI64 l, .constI64 l' => decide (l = l')
  | .constF32 l, .constF32 l' => f32Eq l l'
  | .constF64 l, .constF64 l' => f64Eq l l'
  | .num o, .num o' => decide (o = o')
  | _, _ => false

/-- `PartialEq` for `instr::Expr` and `instr::ConstExpr`, derived at `structure/instr.rs:3-7`. -/
def exprEq : List Instr → List Instr → Bool
  | [], [] => true
  | i :: is, j :: js => instrEq i j && exprEq is js
  | _, _ => false

end

/-- `PartialEq for Vec<T>`. -/
def vecEq {α : Type} (eq : α → α → Bool) : List α → List α → Bool
  | [], [] => true
  | x :: xs, y :: ys => eq x y && vecEq eq xs ys
  | _, _ => false

/-- `PartialEq for module::Func`, derived at `structure/module.rs:18`. -/
def funcEq (f g : Func) : Bool := decide (f.ty = g.ty) && decide (f.locals = g.locals) && exprEq f.body g.body

/-- `PartialEq for module::Global`, derived at `structure/module.rs:35`. -/
def globalEq (f g : Global) : Bool := decide (f.ty = g.ty) && exprEq f.init g.init

/-- `PartialEq for module::Elem`, derived at `structure/module.rs:41`. -/
def elemEq (f g : Elem) : Bool := decide (f.table = g.table) && exprEq f.offset g.offset && decide (f.init = g.init)

/-- `PartialEq for module::Data`, derived at `structure/module.rs:48`. -/
def dataEq (f g : Data) : Bool := decide (f.mem = g.mem) && exprEq f.offset g.offset && decide (f.init = g.init)

deriving instance DecidableEq for Table, Mem, Start, ImportDesc, ExportDesc, Import, Export

/-- `PartialEq for module::Module`, derived at `structure/module.rs:3`. -/
def moduleEq (m n : Module) : Bool :=
  decide (m.types = n.types) && vecEq funcEq m.funcs n.funcs && decide (m.tables = n.tables) && decide (m.mems = n.mems) &&
    vecEq globalEq m.globals n.globals && vecEq elemEq m.elem n.elem && vecEq dataEq m.data n.data && decide (m.start = n.start) &&
    decide (m.imports = n.imports) && decide (m.exports = n.exports)

end Whasm
