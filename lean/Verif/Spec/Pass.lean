import Verif.Spec.Grammar
import Verif.Spec.Validity
import Verif.Model.Place

/-!
# Validation of code in one pass (W3C document, appendix 7.3)

The appendix of the document has an algorithm that decides the type rules of section 3.3 while it reads the code, opcode by opcode, without ever building the tree of instructions. It is written out here from
the document. Where the document leaves the structure of the code to the grammar, the algorithm here checks it: an `else` must belong to an `if`, and nothing follows the last `end`; the `end` of an `if` without
`else` closes the missing branch as well. Both stacks are lists with the top first.
-/

namespace Whasm.Spec.Pass

/-! ## Code as a sequence -/

/-- What is read at a time: an instruction, or the beginning, the middle or the end of a structured one. -/
inductive Op where
  | instr (i : Instr)
  | block (t : RetVal)
  | loop (t : RetVal)
  | ifOp (t : RetVal)
  | elseOp
  | endOp

/-- Instructions that contain no others. -/
def Simple : Instr → Prop
  | .block _ _ | .loop _ _ | .ifElse _ _ _ | .elseMark | .endMark => False
  | _ => True

/-- The bytes of an `Op` (5.4). -/
inductive GOp (D : Dialect) : List Byte → Op → Prop
  | instr {b : List Byte} {i : Instr} : GInstr D b i → Simple i → GOp D b (.instr i)
  | block {b : List Byte} {t : RetVal} : GRetVal b t → GOp D (0x02 :: b) (.block t)
  | loop {b : List Byte} {t : RetVal} : GRetVal b t → GOp D (0x03 :: b) (.loop t)
  | ifOp {b : List Byte} {t : RetVal} : GRetVal b t → GOp D (0x04 :: b) (.ifOp t)
  | elseOp : GOp D [0x05] .elseOp
  | endOp : GOp D [0x0B] .endOp

mutual
/-- An instruction written in sequence. -/
def lineI : Instr → List Op
  | .block t b => .block t :: (lineL b ++ [.endOp])
  | .loop t b => .loop t :: (lineL b ++ [.endOp])
  | .ifElse t a b => .ifOp t :: (lineL a ++ .elseOp :: (lineL b ++ [.endOp]))
  | i => [.instr i]
def lineL : List Instr → List Op
  | [] => []
  | i :: is => lineI i ++ lineL is
end

mutual
/-- `ops` is the instruction `i` written in sequence; an empty second branch of an `if` may be omitted. -/
inductive FlatI : List Op → Instr → Prop
  | simple {i : Instr} : Simple i → FlatI [.instr i] i
  | block {t : RetVal} {ops : List Op} {b : List Instr} : FlatL ops b → FlatI (.block t :: (ops ++ [.endOp])) (.block t b)
  | loop {t : RetVal} {ops : List Op} {b : List Instr} : FlatL ops b → FlatI (.loop t :: (ops ++ [.endOp])) (.loop t b)
  | ifThen {t : RetVal} {ops : List Op} {a : List Instr} : FlatL ops a → FlatI (.ifOp t :: (ops ++ [.endOp])) (.ifElse t a [])
  | ifElse {t : RetVal} {ops ops' : List Op} {a b : List Instr} : FlatL ops a → FlatL ops' b →
      FlatI (.ifOp t :: (ops ++ .elseOp :: (ops' ++ [.endOp]))) (.ifElse t a b)
inductive FlatL : List Op → List Instr → Prop
  | nil : FlatL [] []
  | cons {ops ops' : List Op} {i : Instr} {is : List Instr} : FlatI ops i → FlatL ops' is → FlatL (ops ++ ops') (i :: is)
end

/-- What comes before a place. -/
def upTo : Run.Place → List Instr → Option (List Op)
  | .here n, is => some (lineL (is.take n))
  | .inside n p, is =>
    match is[n]? with
    | some (.block t b) => (upTo p b).map fun ops => lineL (is.take n) ++ .block t :: ops
    | some (.loop t b) => (upTo p b).map fun ops => lineL (is.take n) ++ .loop t :: ops
    | some (.ifElse t a _) => (upTo p a).map fun ops => lineL (is.take n) ++ .ifOp t :: ops
    | _ => none
  | .inElse n p, is =>
    match is[n]? with
    | some (.ifElse t a b) => (upTo p b).map fun ops => lineL (is.take n) ++ .ifOp t :: (lineL a ++ .elseOp :: ops)
    | _ => none

/-! ## The stacks (7.3.1) -/

/-- What a frame was entered for. -/
inductive Kind where
  | func | block | loop | ifThen | ifElse
  deriving DecidableEq, Repr

/-- `ctrl_frame`. -/
structure Ctrl where
  kind : Kind
  label_types : List Val
  end_types : List Val
  height : Nat
  unreachable : Bool
  deriving DecidableEq, Repr

/-- `opds` and `ctrls`. -/
structure St where
  opds : List Operand
  ctrls : List Ctrl
  deriving DecidableEq, Repr

/-- `push_opd`. -/
def push_opd (t : Operand) (s : St) : St := { s with opds := t :: s.opds }

/-- `pop_opd()`. -/
def pop_any (s : St) : Option (Operand × St) :=
  match s.ctrls with
  | [] => none
  | f :: _ =>
    if s.opds.length = f.height then if f.unreachable then some (.unknown, s) else none
    else
      match s.opds with
      | [] => none
      | t :: ts => some (t, { s with opds := ts })

/-- `pop_opd(expect)`. -/
def pop_opd (expect : Operand) (s : St) : Option (Operand × St) :=
  (pop_any s).bind fun (actual, s) =>
    if actual = .unknown then some (expect, s)
    else if expect = .unknown then some (actual, s)
    else if actual = expect then some (actual, s) else none

/-- `push_opds`. -/
def push_opds : List Val → St → St
  | [], s => s
  | t :: ts, s => push_opds ts (push_opd (.val t) s)

/-- `pop_opds`: the last type is on top. -/
def pop_opds (ts : List Val) (s : St) : Option St := ts.reverse.foldlM (fun s t => (pop_opd (.val t) s).map (·.2)) s

/-- `push_ctrl`. -/
def push_ctrl (k : Kind) (label out : List Val) (s : St) : St := { s with ctrls := ⟨k, label, out, s.opds.length, false⟩ :: s.ctrls }

/-- `pop_ctrl`. -/
def pop_ctrl (s : St) : Option (Ctrl × St) :=
  match s.ctrls with
  | [] => none
  | f :: fs => (pop_opds f.end_types s).bind fun s' => if s'.opds.length = f.height then some (f, { s' with ctrls := fs }) else none

/-- `unreachable`. -/
def unreachable (s : St) : Option St :=
  match s.ctrls with
  | [] => none
  | f :: fs => some { opds := s.opds.drop (s.opds.length - f.height), ctrls := { f with unreachable := true } :: fs }

/-! ## Opcodes (7.3.2) -/

/-- Operands and results of the instructions that have but one type (3.3). -/
def signature (C : Env) : Instr → Option (List Val × List Val)
  | .nop => some ([], [])
  | .constI32 _ => some ([], [.i32])
  | .constI64 _ => some ([], [.i64])
  | .constF32 _ => some ([], [.f32])
  | .constF64 _ => some ([], [.f64])
  | .num op => some (numType op)
  | .localGet x => C.locals[x.toNat]?.map fun t => ([], [t])
  | .localSet x => C.locals[x.toNat]?.map fun t => ([t], [])
  | .localTee x => C.locals[x.toNat]?.map fun t => ([t], [t])
  | .globalGet x => C.globals[x.toNat]?.map fun t => ([], [t.val])
  | .globalSet x => C.globals[x.toNat]?.bind fun t => if t.mt = .var then some ([t.val], []) else none
  | .load op align _ =>
    if C.mems = [] ∨ C.aligned = true ∧ (loadType op).2 < 2 ^ align.toNat then none else some ([.i32], [(loadType op).1])
  | .store op align _ =>
    if C.mems = [] ∨ C.aligned = true ∧ (storeType op).2 < 2 ^ align.toNat then none else some ([.i32, (storeType op).1], [])
  | .memSize x => C.mems[x.toNat]?.map fun _ => ([], [.i32])
  | .memGrow x => C.mems[x.toNat]?.map fun _ => ([.i32], [.i32])
  | .call x => C.funcs[x.toNat]?.map fun t => (t.params, t.results)
  | .callIndirect x y => C.tables[y.toNat]?.bind fun tb => if tb.elem = .funcRef then C.types[x.toNat]?.map fun t => (t.params ++ [.i32], t.results) else none
  | _ => none

/-- The types of the labels, the innermost first. The frame of the function is the last one; whether it has a label is said by `C`. -/
def labels (C : Env) (s : St) : List (List Val) := s.ctrls.dropLast.map (·.label_types) ++ C.labels

/-- `validate(opcode)`, for instructions that contain no others. -/
def instr (C : Env) (i : Instr) (s : St) : Option St :=
  match i with
  | .unreachable => unreachable s
  | .drop => (pop_any s).map (·.2)
  | .select =>
    (pop_opd (.val .i32) s).bind fun (_, s) =>
    (pop_any s).bind fun (t1, s) =>
    (pop_opd t1 s).map fun (t2, s) => push_opd t2 s
  | .br l => (labels C s)[l.toNat]?.bind fun r => (pop_opds r s).bind unreachable
  | .brIf l =>
    (labels C s)[l.toNat]?.bind fun r => (pop_opd (.val .i32) s).bind fun (_, s) => (pop_opds r s).map (push_opds r)
  | .brTable ls l =>
    (labels C s)[l.toNat]?.bind fun r =>
      if ls.all (fun x => (labels C s)[x.toNat]? = some r) then (pop_opd (.val .i32) s).bind fun (_, s) => (pop_opds r s).bind unreachable else none
  | .ret => C.ret.bind fun r => (pop_opds r s).bind unreachable
  | i => (signature C i).bind fun (ins, outs) => (pop_opds ins s).map (push_opds outs)

/-- `validate(opcode)`. -/
def validate (C : Env) (s : St) (op : Op) : Option St :=
  if s.ctrls = [] then none
  else
    match op with
    | .instr i => instr C i s
    | .block t => some (push_ctrl .block t t s)
    | .loop t => some (push_ctrl .loop [] t s)
    | .ifOp t => (pop_opd (.val .i32) s).map fun (_, s) => push_ctrl .ifThen t t s
    | .elseOp => (pop_ctrl s).bind fun (f, s) => if f.kind = .ifThen then some (push_ctrl .ifElse f.end_types f.end_types s) else none
    | .endOp => (pop_ctrl s).bind fun (f, s) => if f.kind = .ifThen ∧ f.end_types ≠ [] then none else some (push_opds f.end_types s)

/-- The algorithm on a sequence. -/
def run (C : Env) (s : St) (ops : List Op) : Option St := ops.foldlM (validate C) s

/-- At the beginning of an expression with result type `r`. -/
def start (r : List Val) : St := push_ctrl .func r r ⟨[], []⟩

/-- The algorithm accepts the code: no error, and the last `end` closed the body. -/
def Accepts (C : Env) (r : List Val) (ops : List Op) : Prop := ∃ s, run C (start r) ops = some s ∧ s.ctrls = []

end Whasm.Spec.Pass
