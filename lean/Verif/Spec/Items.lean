import Verif.Spec.Depth

/-!
# Vocabulary for the properties of modules
-/

namespace Whasm.Spec

/-- `e` is one constant instruction: a constant of type `t` or an immutable global of that type. -/
inductive SingleConst (gs : List GlobalTy) : Expr → Val → Prop
  | i32 (v : I32) : SingleConst gs [.constI32 v] .i32
  | i64 (v : I64) : SingleConst gs [.constI64 v] .i64
  | f32 (v : F32) : SingleConst gs [.constF32 v] .f32
  | f64 (v : F64) : SingleConst gs [.constF64 v] .f64
  | global {x : Idx} {t : Val} (h : gs[x.toNat]? = some ⟨.const, t⟩) : SingleConst gs [.globalGet x] t

/-- The function with a body that is always fine. -/
def stub (f : Func) : Func := { f with body := [.unreachable] }

/-- All bodies but that of the `i`-th function are replaced. -/
def onlyBody (m : Module) (i : Nat) : Module :=
  { m with funcs := m.funcs.mapIdx fun j f => if j = i then f else stub f }

mutual

/-- Operands of constants and immediates of memory accesses are erased. -/
def forget : Instr → Instr
  | .constI32 _ => .constI32 0
  | .constI64 _ => .constI64 0
  | .constF32 _ => .constF32 0
  | .constF64 _ => .constF64 0
  | .load op _ _ => .load op 0 0
  | .store op _ _ => .store op 0 0
  | .block t b => .block t (forgetL b)
  | .loop t b => .loop t (forgetL b)
  | .ifElse t a b => .ifElse t (forgetL a) (forgetL b)
  | .unreachable => .unreachable
  | .nop => .nop
  | .br l => .br l
  | .brIf l => .brIf l
  | .brTable ls l => .brTable ls l
  | .ret => .ret
  | .call x => .call x
  | .callIndirect x y => .callIndirect x y
  | .drop => .drop
  | .select => .select
  | .localGet x => .localGet x
  | .localSet x => .localSet x
  | .localTee x => .localTee x
  | .globalGet x => .globalGet x
  | .globalSet x => .globalSet x
  | .memSize x => .memSize x
  | .memGrow x => .memGrow x
  | .num op => .num op
  | .elseMark => .elseMark
  | .endMark => .endMark

def forgetL : List Instr → List Instr
  | [] => []
  | i :: is => forget i :: forgetL is

end

/-- The same in all expressions of a module; the bytes of data segments are erased too. -/
def forgetModule (m : Module) : Module :=
  { m with
    funcs := m.funcs.map fun f => { f with body := forgetL f.body }
    globals := m.globals.map fun g => { g with init := forgetL g.init }
    elem := m.elem.map fun e => { e with offset := forgetL e.offset }
    data := m.data.map fun d => { d with offset := forgetL d.offset, init := [] } }

end Whasm.Spec
