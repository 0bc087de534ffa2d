import Verif.Spec.Validity
import Verif.Spec.Occurs

/-!
# Occurrences of instructions with their nesting depth
-/

namespace Whasm.Spec

/-- `j` occurs in `e` inside exactly `d` blocks of `e`. -/
inductive OccursAt (j : Instr) : Nat → List Instr → Prop
  | here {e : List Instr} : j ∈ e → OccursAt j 0 e
  | block {e : List Instr} {d : Nat} {t : RetVal} {body : List Instr} : Instr.block t body ∈ e → OccursAt j d body → OccursAt j (d + 1) e
  | loop {e : List Instr} {d : Nat} {t : RetVal} {body : List Instr} : Instr.loop t body ∈ e → OccursAt j d body → OccursAt j (d + 1) e
  | thn {e : List Instr} {d : Nat} {t : RetVal} {thn els : List Instr} : Instr.ifElse t thn els ∈ e → OccursAt j d thn →
      OccursAt j (d + 1) e
  | els {e : List Instr} {d : Nat} {t : RetVal} {thn els : List Instr} : Instr.ifElse t thn els ∈ e → OccursAt j d els →
      OccursAt j (d + 1) e

/-- The labels an instruction names. -/
def branchTargets : Instr → List Idx
  | .br l => [l]
  | .brIf l => [l]
  | .brTable ls l => ls ++ [l]
  | _ => []

/-- Alignments are within what the document allows (3.3.4). -/
def AlignOk : Instr → Prop
  | .load op align _ => 2 ^ align.toNat ≤ (match op with
      | .i32Load | .f32Load | .i64Load32S | .i64Load32U => 4
      | .i64Load | .f64Load => 8
      | .i32Load8S | .i32Load8U | .i64Load8S | .i64Load8U => 1
      | .i32Load16S | .i32Load16U | .i64Load16S | .i64Load16U => 2)
  | .store op align _ => 2 ^ align.toNat ≤ (match op with
      | .i32Store | .f32Store | .i64Store32 => 4
      | .i64Store | .f64Store => 8
      | .i32Store8 | .i64Store8 => 1
      | .i32Store16 | .i64Store16 => 2)
  | _ => True

/-- No stray `Else` (resp. no pseudo-instruction at all) in any function body. The parser delivers only such modules (C18). -/
def NoElse (m : Module) : Prop := ∀ f ∈ m.funcs, ¬ Occurs .elseMark f.body
def NoMarks (m : Module) : Prop := ∀ f ∈ m.funcs, ¬ Occurs .endMark f.body ∧ ¬ Occurs .elseMark f.body

/-- All indices of an instruction at depth `d`, in a function with `n` parameters and locals, are within their spaces. -/
def IndicesOk (m : Module) (n d : Nat) : Instr → Prop
  | .br l => l.toNat < d
  | .brIf l => l.toNat < d
  | .brTable ls l => (∀ x ∈ ls, x.toNat < d) ∧ l.toNat < d
  | .call x => x.toNat < (funcSpace m).length
  | .callIndirect x y => x.toNat < m.types.length ∧ y.toNat < (tableSpace m).length
  | .localGet x => x.toNat < n
  | .localSet x => x.toNat < n
  | .localTee x => x.toNat < n
  | .globalGet x => x.toNat < (globalSpace m).length
  | .globalSet x => x.toNat < (globalSpace m).length
  | .load _ _ _ => 0 < (memSpace m).length
  | .store _ _ _ => 0 < (memSpace m).length
  | .memSize x => x.toNat < (memSpace m).length
  | .memGrow x => x.toNat < (memSpace m).length
  | _ => True

/-- Instructions after which control does not continue. -/
inductive Leaves : Instr → Prop
  | unreachable : Leaves .unreachable
  | br (l : Idx) : Leaves (.br l)
  | brTable (ls : List Idx) (l : Idx) : Leaves (.brTable ls l)
  | ret : Leaves .ret

end Whasm.Spec
