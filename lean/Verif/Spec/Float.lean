import Verif.Spec.Occurs

/-!
# Values of floats (IEEE 754-2008, section 3.4), and modules without NaN
-/

namespace Whasm.Spec

/-- What a float stands for. A finite number is given as a multiple of the smallest positive number of the format. -/
inductive Datum where
  | nan
  | inf (negative : Bool)
  | fin (multiple : Int)
  deriving DecidableEq, Repr

/-- The datum of the bit pattern `n`: sign, `eb` bits of exponent, `mb` bits of mantissa. -/
def datum (eb mb n : Nat) : Datum :=
  let negative := n / 2 ^ (eb + mb) % 2 = 1
  let exponent := n / 2 ^ mb % 2 ^ eb
  let mantissa := n % 2 ^ mb
  if exponent = 2 ^ eb - 1 then
    if mantissa = 0 then .inf negative else .nan
  else
    let magnitude : Nat := if exponent = 0 then mantissa else (2 ^ mb + mantissa) * 2 ^ (exponent - 1)
    .fin (if negative then - (magnitude : Int) else magnitude)

/-- Single precision. -/
def datum32 (v : F32) : Datum := datum 8 23 v.toNat

/-- Double precision. -/
def datum64 (v : F64) : Datum := datum 11 52 v.toNat

/-- A constant that is a NaN. -/
def NaNConst (i : Instr) : Prop := (∃ v, i = .constF32 v ∧ datum32 v = .nan) ∨ ∃ v, i = .constF64 v ∧ datum64 v = .nan

/-- No expression of the module contains such a constant. -/
def NaNFree (m : Module) : Prop := ∀ e ∈ exprsOf m, ∀ i, Occurs i e → ¬ NaNConst i

mutual

/-- Equality of instructions up to the sign of zeros: float constants are compared as numbers, NaN being different from everything. -/
inductive SameInstr : Instr → Instr → Prop
  | f32 {v w : F32} : datum32 v ≠ .nan → datum32 v = datum32 w → SameInstr (.constF32 v) (.constF32 w)
  | f64 {v w : F64} : datum64 v ≠ .nan → datum64 v = datum64 w → SameInstr (.constF64 v) (.constF64 w)
  | block (t : RetVal) {a b : List Instr} : SameExpr a b → SameInstr (.block t a) (.block t b)
  | loop (t : RetVal) {a b : List Instr} : SameExpr a b → SameInstr (.loop t a) (.loop t b)
  | ifElse (t : RetVal) {a b a' b' : List Instr} : SameExpr a a' → SameExpr b b' → SameInstr (.ifElse t a b) (.ifElse t a' b')
  | other {i : Instr} : (∀ v, i ≠ .constF32 v) → (∀ v, i ≠ .constF64 v) → (∀ t b, i ≠ .block t b) → (∀ t b, i ≠ .loop t b) →
      (∀ t a b, i ≠ .ifElse t a b) → SameInstr i i

inductive SameExpr : List Instr → List Instr → Prop
  | nil : SameExpr [] []
  | cons {i j : Instr} {is js : List Instr} : SameInstr i j → SameExpr is js → SameExpr (i :: is) (j :: js)

end

/-- Two vectors agree item by item. -/
def Pointwise {α : Type} (R : α → α → Prop) (xs ys : List α) : Prop :=
  xs.length = ys.length ∧ ∀ (i : Nat) x y, xs[i]? = some x → ys[i]? = some y → R x y

/-- Modules that are equal up to the sign of zeros, and have no NaN. -/
structure SameModule (m n : Module) : Prop where
  types : m.types = n.types
  funcs : Pointwise (fun f g => f.ty = g.ty ∧ f.locals = g.locals ∧ SameExpr f.body g.body) m.funcs n.funcs
  tables : m.tables = n.tables
  mems : m.mems = n.mems
  globals : Pointwise (fun f g => f.ty = g.ty ∧ SameExpr f.init g.init) m.globals n.globals
  elem : Pointwise (fun f g => f.table = g.table ∧ SameExpr f.offset g.offset ∧ f.init = g.init) m.elem n.elem
  data : Pointwise (fun f g => f.mem = g.mem ∧ SameExpr f.offset g.offset ∧ f.init = g.init) m.data n.data
  start : m.start = n.start
  imports : m.imports = n.imports
  exports : m.exports = n.exports

end Whasm.Spec
