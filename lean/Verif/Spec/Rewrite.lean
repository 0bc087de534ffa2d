import Verif.Spec.Depth

/-!
# Replacing a part of a function body by another one

The closure of rules `x → y` on sequences of instructions under all surroundings, what it means for two such sequences to have the same
types, and the rules of a simple optimiser.
-/

namespace Whasm.Spec

/-- At one place of an expression, at any depth, a sequence `x` is replaced by `y`, where `R x y`. -/
inductive Rewrite (R : List Instr → List Instr → Prop) : List Instr → List Instr → Prop
  | here {x y : List Instr} (pre post : List Instr) : R x y → Rewrite R (pre ++ x ++ post) (pre ++ y ++ post)
  | block {e e' : List Instr} (pre post : List Instr) (r : RetVal) : Rewrite R e e' →
      Rewrite R (pre ++ [.block r e] ++ post) (pre ++ [.block r e'] ++ post)
  | loop {e e' : List Instr} (pre post : List Instr) (r : RetVal) : Rewrite R e e' →
      Rewrite R (pre ++ [.loop r e] ++ post) (pre ++ [.loop r e'] ++ post)
  | thn {e e' : List Instr} (pre post els : List Instr) (r : RetVal) : Rewrite R e e' →
      Rewrite R (pre ++ [.ifElse r e els] ++ post) (pre ++ [.ifElse r e' els] ++ post)
  | els {e e' : List Instr} (pre post thn : List Instr) (r : RetVal) : Rewrite R e e' →
      Rewrite R (pre ++ [.ifElse r thn e] ++ post) (pre ++ [.ifElse r thn e'] ++ post)

/-- Any number of replacements, one after the other. -/
inductive Rewrites (R : List Instr → List Instr → Prop) : List Instr → List Instr → Prop
  | refl (e : List Instr) : Rewrites R e e
  | step {e e' e'' : List Instr} : Rewrite R e e' → Rewrites R e' e'' → Rewrites R e e''

/-- A module that differs from `m` only by replacements in function bodies. -/
structure RewritesModule (R : List Instr → List Instr → Prop) (m m' : Module) : Prop where
  rest : { m' with funcs := m.funcs } = m
  count : m'.funcs.length = m.funcs.length
  funcs : ∀ (k : Nat) (f f' : Func), m.funcs[k]? = some f → m'.funcs[k]? = some f' →
    f'.ty = f.ty ∧ f'.locals = f.locals ∧ Rewrites R f.body f'.body

/-- The contexts in which code of module `m` can stand. -/
def codeEnv (m : Module) (locals : List Val) (labels : List (List Val)) (ret : Option (List Val)) : Env :=
  { moduleEnv .code m with locals := locals, labels := labels, ret := ret }

/-- In context `C`, `y` can do whatever `x` can do, as far as types go. -/
def TypesIncl (C : Env) (x y : List Instr) : Prop := ∀ a b, HasTypes C x a b → HasTypes C y a b

/-- `e` inside blocks of the types `ls`, the innermost one first. What a block delivers is discarded. -/
def wrap : List RetVal → List Instr → List Instr
  | [], e => e
  | r :: ls, e => wrap ls [.block r e, .unreachable]

/-- The module with another body of function `k` (counted without imports). -/
def withBody (m : Module) (k : Nat) (e : List Instr) : Module :=
  { m with funcs := m.funcs.modify k fun f => { f with body := e } }

/-- The type of the value a constant instruction pushes. -/
def constType : Instr → Option Val
  | .constI32 _ => some .i32
  | .constI64 _ => some .i64
  | .constF32 _ => some .f32
  | .constF64 _ => some .f64
  | _ => none

/-- The rules of a simple optimiser. The values of constants are those of the machine, so which of two rules for one left hand side applies is
not said here. -/
inductive Peephole : List Instr → List Instr → Prop
  /-- what has no effect goes away -/
  | nop : Peephole [.nop] []
  | emptyBlock : Peephole [.block [] []] []
  | emptyLoop : Peephole [.loop [] []] []
  /-- what is computed and not used goes away -/
  | constDrop {c : Instr} {t : Val} : constType c = some t → Peephole [c, .drop] []
  | localDrop (x : Idx) : Peephole [.localGet x, .drop] []
  | globalDrop (x : Idx) : Peephole [.globalGet x, .drop] []
  /-- writing and reading a variable -/
  | tee (x : Idx) : Peephole [.localSet x, .localGet x] [.localTee x]
  | teeDrop (x : Idx) : Peephole [.localTee x, .drop] [.localSet x]
  | getSet (x : Idx) : Peephole [.localGet x, .localSet x] []
  /-- operations on constants are carried out -/
  | fold {cs : List Instr} {op : NumOp} {c : Instr} : cs.map constType = (numType op).1.map some →
      (numType op).2.map some = [constType c] → Peephole (cs ++ [.num op]) [c]
  /-- decisions that depend on constants are taken -/
  | ifTrue (v : I32) (r : RetVal) (thn els : List Instr) : Peephole [.constI32 v, .ifElse r thn els] [.block r thn]
  | ifFalse (v : I32) (r : RetVal) (thn els : List Instr) : Peephole [.constI32 v, .ifElse r thn els] [.block r els]
  | brAlways (v : I32) (l : Idx) : Peephole [.constI32 v, .brIf l] [.br l]
  | brNever (v : I32) (l : Idx) : Peephole [.constI32 v, .brIf l] []
  | brTable {v : I32} {ls : List Idx} {l x : Idx} : x ∈ ls ++ [l] → Peephole [.constI32 v, .brTable ls l] [.br x]
  | selectFirst (v : I32) : Peephole [.constI32 v, .select] [.drop]
  | selectSame {c c' : Instr} {t : Val} (v : I32) : constType c = some t → constType c' = some t →
      Peephole [c, c', .constI32 v, .select] [c']
  /-- code that is not reached goes away -/
  | dead {i : Instr} (e : List Instr) : Leaves i → Peephole (i :: e) [i]

end Whasm.Spec
