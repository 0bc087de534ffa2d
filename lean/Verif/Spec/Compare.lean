import Verif.Spec.Float

/-!
# How far two modules have to be looked into to compare them

Items are compared in the order of the file, up to the first difference; of vectors with different lengths nothing is compared.
-/

namespace Whasm.Spec

/-- Two vectors of the same length have items at the same place that are related by `B`, and agree before this place. -/
def FirstAt {α : Type} (R B : α → α → Prop) (xs ys : List α) : Prop :=
  xs.length = ys.length ∧ ∃ (i : Nat) (x y : α), xs[i]? = some x ∧ ys[i]? = some y ∧ B x y ∧
    ∀ (j : Nat) x y, j < i → xs[j]? = some x → ys[j]? = some y → R x y

mutual

/-- To compare two instructions, `k` blocks inside of each other have to be entered. -/
inductive EntersInstr : Nat → Instr → Instr → Prop
  | block {t : RetVal} {k : Nat} {a b : List Instr} : Enters k a b → EntersInstr (k + 1) (.block t a) (.block t b)
  | loop {t : RetVal} {k : Nat} {a b : List Instr} : Enters k a b → EntersInstr (k + 1) (.loop t a) (.loop t b)
  | thn {t : RetVal} {k : Nat} {a b a' b' : List Instr} : Enters k a a' → EntersInstr (k + 1) (.ifElse t a b) (.ifElse t a' b')
  | els {t : RetVal} {k : Nat} {a b a' b' : List Instr} : SameExpr a a' → Enters k b b' → EntersInstr (k + 1) (.ifElse t a b) (.ifElse t a' b')

/-- The same for sequences. -/
inductive Enters : Nat → List Instr → List Instr → Prop
  | none {a b : List Instr} : Enters 0 a b
  | at {k i : Nat} {a b : List Instr} {x y : Instr} : a.length = b.length → a[i]? = some x → b[i]? = some y → EntersInstr k x y →
      (∀ (j : Nat) x y, j < i → a[j]? = some x → b[j]? = some y → SameInstr x y) → Enters k a b

end

/-- Functions, globals, element and data segments that are the same up to the sign of zeros. -/
def SameFunc (f g : Func) : Prop := f.ty = g.ty ∧ f.locals = g.locals ∧ SameExpr f.body g.body
def SameGlobal (f g : Global) : Prop := f.ty = g.ty ∧ SameExpr f.init g.init
def SameElem (f g : Elem) : Prop := f.table = g.table ∧ SameExpr f.offset g.offset ∧ f.init = g.init
def SameData (f g : Data) : Prop := f.mem = g.mem ∧ SameExpr f.offset g.offset ∧ f.init = g.init

/-- To compare two modules, `k` blocks inside of each other have to be entered. -/
inductive EntersModule (k : Nat) (m n : Module) : Prop
  | func : m.types = n.types → FirstAt SameFunc (fun f g => f.ty = g.ty ∧ f.locals = g.locals ∧ Enters k f.body g.body) m.funcs n.funcs → EntersModule k m n
  | global : m.types = n.types → Pointwise SameFunc m.funcs n.funcs → m.tables = n.tables → m.mems = n.mems →
      FirstAt SameGlobal (fun f g => f.ty = g.ty ∧ Enters k f.init g.init) m.globals n.globals → EntersModule k m n
  | elem : m.types = n.types → Pointwise SameFunc m.funcs n.funcs → m.tables = n.tables → m.mems = n.mems → Pointwise SameGlobal m.globals n.globals →
      FirstAt SameElem (fun f g => f.table = g.table ∧ Enters k f.offset g.offset) m.elem n.elem → EntersModule k m n
  | data : m.types = n.types → Pointwise SameFunc m.funcs n.funcs → m.tables = n.tables → m.mems = n.mems → Pointwise SameGlobal m.globals n.globals →
      Pointwise SameElem m.elem n.elem → FirstAt SameData (fun f g => f.mem = g.mem ∧ Enters k f.offset g.offset) m.data n.data → EntersModule k m n

end Whasm.Spec
