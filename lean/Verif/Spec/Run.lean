import Verif.Spec.Typing

/-!
# Execution of WebAssembly 1.0 (W3C document, chapter 4)

A reference interpreter, written from the document: the crate does not execute modules, but people validate a module in order to execute it.
Where the document says "assert: due to validation, ...", the interpreter returns the outcome `stuck`. Steps are
counted: with too little fuel the outcome is `timeout`.

Not fixed here, but parameters (`Machine`): the numeric operators (4.3), whether `memory.grow` succeeds, and the behaviour of host functions.
Stacks are lists with the top at the head.
-/

namespace Whasm.Run
open Spec

/-- Values (4.2.1). -/
inductive Value where
  | i32 (v : BitVec 32)
  | i64 (v : BitVec 64)
  | f32 (v : BitVec 32)
  | f64 (v : BitVec 64)
  deriving DecidableEq, Repr

def Value.type : Value → Val
  | .i32 _ => .i32
  | .i64 _ => .i64
  | .f32 _ => .f32
  | .f64 _ => .f64

def Value.bits : Value → Nat
  | .i32 v => v.toNat
  | .i64 v => v.toNat
  | .f32 v => v.toNat
  | .f64 v => v.toNat

/-- Default values of locals (4.4.7). -/
def zero : Val → Value
  | .i32 => .i32 0
  | .i64 => .i64 0
  | .f32 => .f32 0
  | .f64 => .f64 0

/-- Memory instances (4.2.8); the content of byte `a` matters for `a < 65536 * pages`. -/
structure MemInst where
  pages : Nat
  max : Option Nat
  byte : Nat → Byte

/-- The store (4.2.3), without functions, which never change. A table holds addresses of functions (4.2.7). -/
structure Store where
  globals : List Value
  mems : List MemInst
  tables : List (List (Option Nat))
  /-- whatever the host remembers -/
  world : Nat := 0

/-- Function instances (4.2.6): functions of the module, and host functions with a number. -/
inductive FuncInst where
  | own (t : FuncTy) (f : Func)
  | host (t : FuncTy) (id : Nat)

def FuncInst.type : FuncInst → FuncTy
  | .own t _ => t
  | .host t _ => t

/-- The module instance (4.2.5) and the machine. `funcs` is the function index space of the module; other functions, `foreign`, may be in
(imported) tables. Globals, memories and tables of the index spaces are those of the store. -/
structure Machine where
  types : List FuncTy
  funcs : List FuncInst
  foreign : List FuncInst := []
  /-- result of a numeric operator, `none` for a trap -/
  num : NumOp → List Value → Option Value
  /-- does the host allow memory number `x` to grow to so many pages? -/
  grow : Store → Nat → Nat → Bool
  /-- host functions: new store, and results or `none` for a trap -/
  host : Nat → Store → List Value → Store × Option (List Value)

/-- All functions, by address. -/
def Machine.all (M : Machine) : List FuncInst := M.funcs ++ M.foreign

/-- State within a function: store, locals of the current frame, values above the innermost label. -/
structure Conf where
  store : Store
  locals : List Value
  stack : List Value

/-- What the execution of instructions leads to. -/
inductive Outcome where
  | normal (c : Conf)
  /-- on the way to the label `l` levels up -/
  | br (l : Nat) (c : Conf)
  /-- on the way to the caller -/
  | ret (c : Conf)
  | trap (st : Store)
  | timeout
  | stuck

/-! ## Stack and memory -/

/-- Removes values of the given types from the stack. Types and values removed are in the order of the document (top last). -/
def popArgs (ts : List Val) (stack : List Value) : Option (List Value × List Value) :=
  let vs := (stack.take ts.length).reverse
  if vs.map Value.type = ts then some (vs, stack.drop ts.length) else none

def push (v : Value) (c : Conf) : Outcome := .normal { c with stack := v :: c.stack }

/-- Pops a value. -/
def pop (c : Conf) (k : Value → Conf → Outcome) : Outcome :=
  match c.stack with
  | v :: s => k v { c with stack := s }
  | [] => .stuck

/-- Pops an `i32`. -/
def popI32 (c : Conf) (k : BitVec 32 → Conf → Outcome) : Outcome :=
  match c.stack with
  | .i32 v :: s => k v { c with stack := s }
  | _ => .stuck

/-- Bytes `ea`, ..., `ea + n - 1` as a little-endian number. -/
def readMem (m : MemInst) (ea : Nat) : Nat → Nat
  | 0 => 0
  | n + 1 => (m.byte ea).toNat + 256 * readMem m (ea + 1) n

def writeMem (m : MemInst) (ea n bits : Nat) : MemInst :=
  { m with byte := fun a => if ea ≤ a ∧ a < ea + n then UInt8.ofNat (bits / 256 ^ (a - ea)) else m.byte a }

/-- The value loaded (4.4.4), from the little-endian number read. -/
def loaded (op : LoadOp) (n : Nat) : Value :=
  match op with
  | .i32Load => .i32 (BitVec.ofNat 32 n)
  | .i64Load => .i64 (BitVec.ofNat 64 n)
  | .f32Load => .f32 (BitVec.ofNat 32 n)
  | .f64Load => .f64 (BitVec.ofNat 64 n)
  | .i32Load8S => .i32 ((BitVec.ofNat 8 n).signExtend 32)
  | .i32Load8U => .i32 (BitVec.ofNat 32 n)
  | .i32Load16S => .i32 ((BitVec.ofNat 16 n).signExtend 32)
  | .i32Load16U => .i32 (BitVec.ofNat 32 n)
  | .i64Load8S => .i64 ((BitVec.ofNat 8 n).signExtend 64)
  | .i64Load8U => .i64 (BitVec.ofNat 64 n)
  | .i64Load16S => .i64 ((BitVec.ofNat 16 n).signExtend 64)
  | .i64Load16U => .i64 (BitVec.ofNat 64 n)
  | .i64Load32S => .i64 ((BitVec.ofNat 32 n).signExtend 64)
  | .i64Load32U => .i64 (BitVec.ofNat 64 n)

/-- The largest number of pages a memory can have (4.2.8). -/
def pageLimit (m : MemInst) : Nat :=
  match m.max with
  | some n => min n 65536
  | none => 65536

/-! ## Instructions -/

/-- Instruction sequences (4.4.6), given the execution of instructions. -/
def execs (step : Instr → Conf → Outcome) : List Instr → Conf → Outcome
  | [], c => .normal c
  | i :: is, c =>
    match step i c with
    | .normal c' => execs step is c'
    | o => o

/-- End of a block with label type `r` and outer stack `outer` (4.4.6), except for branches to a loop. -/
def leave (r : List Val) (outer : List Value) : Outcome → Outcome
  | .normal c => .normal { c with stack := c.stack ++ outer }
  | .br 0 c =>
    match popArgs r c.stack with
    | some (vs, _) => .normal { c with stack := vs.reverse ++ outer }
    | none => .stuck
  | .br (l + 1) c => .br l c
  | o => o

/-- End of a function (4.4.7): its results on top of the caller's stack. -/
def leaveFunc (t : FuncTy) (caller : Conf) : Outcome → Outcome
  | .normal c =>
    match popArgs t.results c.stack with
    | some (vs, []) => .normal ⟨c.store, caller.locals, vs.reverse ++ caller.stack⟩
    | _ => .stuck
  | .br 0 c | .ret c =>
    match popArgs t.results c.stack with
    | some (vs, _) => .normal ⟨c.store, caller.locals, vs.reverse ++ caller.stack⟩
    | none => .stuck
  | .br (_ + 1) _ => .stuck
  | o => o

/-- Invocation of functions (4.4.7, 4.4.8). -/
def call (M : Machine) (step : Instr → Conf → Outcome) (fi : FuncInst) (c : Conf) : Outcome :=
  match popArgs fi.type.params c.stack with
  | none => .stuck
  | some (args, rest) =>
    match fi with
    | .own t f => leaveFunc t { c with stack := rest } (execs step f.body ⟨c.store, args ++ f.locals.map zero, []⟩)
    | .host _ id =>
      match M.host id c.store args with
      | (st, some vs) => .normal ⟨st, c.locals, vs.reverse ++ rest⟩
      | (st, none) => .trap st

/-- Instructions (4.4.1 to 4.4.5, 4.4.7) with an amount of fuel that every nested execution decreases. -/
def exec (M : Machine) : Nat → Instr → Conf → Outcome
  | 0, _, _ => .timeout
  | n + 1, i, c =>
    match i with
    | .unreachable => .trap c.store
    | .nop => .normal c
    | .block r body => leave r c.stack (execs (exec M n) body { c with stack := [] })
    | .loop r body =>
      match execs (exec M n) body { c with stack := [] } with
      | .br 0 c' => exec M n (.loop r body) { c' with stack := c.stack }
      | o => leave [] c.stack o
    | .ifElse r thn els =>
      popI32 c fun b c => leave r c.stack (execs (exec M n) (if b = 0 then els else thn) { c with stack := [] })
    | .elseMark | .endMark => .stuck
    | .br l => .br l.toNat c
    | .brIf l => popI32 c fun b c => if b = 0 then .normal c else .br l.toNat c
    | .brTable ls l => popI32 c fun k c => .br (ls[k.toNat]?.getD l).toNat c
    | .ret => .ret c
    | .call x =>
      match M.funcs[x.toNat]? with
      | some fi => call M (exec M n) fi c
      | none => .stuck
    | .callIndirect x y =>
      match c.store.tables[y.toNat]?, M.types[x.toNat]? with
      | some tb, some t =>
        popI32 c fun k c =>
          match tb[k.toNat]? with
          | some (some a) =>
            match M.all[a]? with
            | some fi => if fi.type = t then call M (exec M n) fi c else .trap c.store
            | none => .stuck
          | _ => .trap c.store
      | _, _ => .stuck
    | .drop => pop c fun _ c => .normal c
    | .select => popI32 c fun b c => pop c fun w c => pop c fun v c =>
        if v.type = w.type then push (if b = 0 then w else v) c else .stuck
    | .localGet x =>
      match c.locals[x.toNat]? with
      | some v => push v c
      | none => .stuck
    | .localSet x => pop c fun v c =>
        if x.toNat < c.locals.length then .normal { c with locals := c.locals.set x.toNat v } else .stuck
    | .localTee x => pop c fun v c =>
        if x.toNat < c.locals.length then push v { c with locals := c.locals.set x.toNat v } else .stuck
    | .globalGet x =>
      match c.store.globals[x.toNat]? with
      | some v => push v c
      | none => .stuck
    | .globalSet x => pop c fun v c =>
        if x.toNat < c.store.globals.length then .normal { c with store.globals := c.store.globals.set x.toNat v } else .stuck
    | .load op _ offset =>
      match c.store.mems[0]? with
      | some m => popI32 c fun a c =>
          let ea := a.toNat + offset.toNat
          let n := (loadType op).2
          if ea + n ≤ 65536 * m.pages then push (loaded op (readMem m ea n)) c else .trap c.store
      | none => .stuck
    | .store op _ offset =>
      match c.store.mems[0]? with
      | some m => pop c fun v c => popI32 c fun a c =>
          let ea := a.toNat + offset.toNat
          let n := (storeType op).2
          if v.type = (storeType op).1 then
            if ea + n ≤ 65536 * m.pages then .normal { c with store.mems := c.store.mems.set 0 (writeMem m ea n v.bits) } else .trap c.store
          else .stuck
      | none => .stuck
    | .memSize x =>
      match c.store.mems[x.toNat]? with
      | some m => push (.i32 (BitVec.ofNat 32 m.pages)) c
      | none => .stuck
    | .memGrow x =>
      match c.store.mems[x.toNat]? with
      | some m => popI32 c fun n c =>
          let pages := m.pages + n.toNat
          let grown : MemInst := { m with pages, byte := fun a => if a < 65536 * m.pages then m.byte a else 0 }
          if pages ≤ pageLimit m ∧ M.grow c.store x.toNat pages = true then
            push (.i32 (BitVec.ofNat 32 m.pages)) { c with store.mems := c.store.mems.set x.toNat grown }
          else push (.i32 (BitVec.ofInt 32 (-1))) c
      | none => .stuck
    | .constI32 v => push (.i32 v) c
    | .constI64 v => push (.i64 v) c
    | .constF32 v => push (.f32 v) c
    | .constF64 v => push (.f64 v) c
    | .num op =>
      match popArgs (numType op).1 c.stack with
      | some (args, s) =>
        match M.num op args with
        | some v => .normal { c with stack := v :: s }
        | none => .trap c.store
      | none => .stuck

/-! ## Invocation from outside (4.5.5) -/

/-- What a call from outside leads to. -/
inductive Called where
  | values (vs : List Value) (st : Store)
  | trap (st : Store)
  | timeout
  | stuck

/-- Calls function number `a` with the given arguments. -/
def invoke (M : Machine) (fuel a : Nat) (args : List Value) (st : Store) : Called :=
  match M.funcs[a]? with
  | none => .stuck
  | some fi =>
    match call M (exec M fuel) fi ⟨st, [], args.reverse⟩ with
    | .normal c => .values c.stack.reverse c.store
    | .trap st => .trap st
    | .timeout => .timeout
    | _ => .stuck

end Whasm.Run
