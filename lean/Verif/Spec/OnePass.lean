import Verif.Spec.Frames

/-!
# Validation, translation and the count of registers in the same pass

`compile` and `frame` (`Spec/Registers.lean`, `Spec/Frames.lean`) say what the code for registers is and how many there are, by what the algorithm of the appendix has at each opcode and by where blocks end, for which they look
at the rest of the code. This is how it is done in one pass: each opcode is looked at once, is validated, and its instruction is made at once. A block is named by the place of its opcode. A branch forward names the block, and
where this ends is entered in a table when the pass has come there (`ends`; `elses` for where an `if` goes on without its first branch); at the end the entries of the tables are filled in. All that is kept of the code before
an opcode are the stacks of the algorithm and the list of the blocks that are open.
-/

namespace Whasm.Run
open Spec Spec.Pass

/-- An instruction whose branches forward are not known yet: it has them from the tables. -/
abbrev Hole := (Nat → Nat) → (Nat → Nat) → RInstr

/-- What is known in the middle of the code. -/
structure Gen where
  st : St
  pc : Nat
  /-- the blocks that have begun and not ended, the innermost first -/
  blocks : List (Nat × Kind)
  ends : Nat → Nat
  elses : Nat → Nat
  code : List Hole
  /-- the most operands so far -/
  high : Nat

/-- An entry of a table. -/
def enter (e : Nat → Nat) (p pc : Nat) : Nat → Nat := fun i => if i = p then pc else e i

/-- A branch to a label, from `h` operands, with `n` local variables. -/
def branch (g : Gen) (e : Nat → Nat) (n l h : Nat) : Move :=
  let b := g.blocks.getD l (0, .func)
  let c := (g.st.ctrls[l]?.map fun c => (c.label_types.length, c.height)).getD (0, 0)
  ⟨if b.2 = .loop then b.1 else e b.1, n + h - c.1, n + c.2, c.1⟩

/-- The instruction for an opcode, in a function of type `t` with `n` parameters and local variables. -/
def emit (m : Module) (t : FuncTy) (n : Nat) (g : Gen) : Op → Hole
  | .block _ => fun _ _ => .skip
  | .loop _ => fun _ _ => .skip
  | .ifOp _ => fun _ e => .goUnless (n + g.st.opds.length - 1) (e g.pc)
  | .elseOp => fun e _ => .go (e (g.blocks.headD (0, .func)).1)
  | .endOp => fun _ _ => if g.blocks = [] then .leave (n + g.st.opds.length - t.results.length) else .skip
  | .instr i => fun e _ =>
    rinstr n g.st.opds.length (branch g e n) (fun x => ((funcSpace m)[x]?.map fun t => t.params.length).getD 0) (fun x => (m.types[x]?.map fun t => t.params.length).getD 0) t.results.length i

/-- The blocks that are open after an opcode. -/
def blocksAfter (g : Gen) : Op → List (Nat × Kind)
  | .block _ => (g.pc, .block) :: g.blocks
  | .loop _ => (g.pc, .loop) :: g.blocks
  | .ifOp _ => (g.pc, .ifThen) :: g.blocks
  | .elseOp =>
    match g.blocks with
    | (p, _) :: bs => (p, .ifElse) :: bs
    | [] => []
  | .endOp => g.blocks.tail
  | .instr _ => g.blocks

/-- At its `end` a block goes on after it. -/
def endsAfter (g : Gen) : Op → Nat → Nat
  | .endOp =>
    match g.blocks with
    | (p, _) :: _ => enter g.ends p (g.pc + 1)
    | [] => g.ends
  | _ => g.ends

/-- An `if` without its first branch goes on after its `else`, or at its `end`. -/
def elsesAfter (g : Gen) : Op → Nat → Nat
  | .elseOp =>
    match g.blocks with
    | (p, .ifThen) :: _ => enter g.elses p (g.pc + 1)
    | _ => g.elses
  | .endOp =>
    match g.blocks with
    | (p, .ifThen) :: _ => enter g.elses p g.pc
    | _ => g.elses
  | _ => g.elses

/-- One opcode. -/
def gstep (m : Module) (C : Env) (t : FuncTy) (n : Nat) (g : Gen) (op : Op) : Option Gen :=
  (validate C g.st op).map fun s => ⟨s, g.pc + 1, blocksAfter g op, endsAfter g op, elsesAfter g op, g.code ++ [emit m t n g op], max g.high g.st.opds.length⟩

/-- At the beginning. -/
def gstart (r : List Val) : Gen := ⟨start r, 0, [], fun _ => 0, fun _ => 0, [], 0⟩

/-- One pass over the opcodes of a function: its code and the number of its registers, or nothing if they are not valid. -/
def translate (m : Module) (f : Func) (ops : List Op) : Option (List RInstr × Nat) :=
  m.types[f.ty.toNat]?.bind fun t =>
    let n := t.params.length + f.locals.length
    (ops.foldlM (gstep m (bodyEnv .code m t f.locals) t n) (gstart t.results)).bind fun g =>
      if g.st.ctrls = [] then some (g.code.map (fun i => i g.ends g.elses), n + g.high) else none

end Whasm.Run
