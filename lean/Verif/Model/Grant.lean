import Verif.Model.GrantTypes
import Verif.Model.Process
import Verif.Model.Width

/-!
# The tool on a machine that may refuse anything

The tool once more, with everything it needs from the machine: memory for its vectors, native stack for its recursive functions, and the operating system. The machine is an arbitrary function of all that
was asked for so far, so that the memory can be limited as a whole, the stack and the memory can be limited together, and the process can be killed at any of these points for no reason at all.

The other models of limits (`Model/Memory`, `Model/Native`, `Model/Scope`, `Model/Room`, `Model/Process`) have one limit each.

Simplifications: what is freed is not told to the machine, except that a level of the native stack is left. The arguments, boxed errors and the texts of messages have a fixed size and are asked for by
`step` before the process goes on to the next phase. Everything that is not recursive is taken to fit on the stack together with the level that it is in. How much more a vector that is full asks for than it
needs is up to the machine.
-/

namespace Whasm.Grant

/-- Code that runs on a machine: given what was asked for so far, the result with what was asked for then; or the process ends, with what was granted until then. -/
def Mach (R : Type) : Type := Machine → List Ask → Except (List Ask) (R × List Ask)

namespace Mach

protected def pure {R : Type} (x : R) : Mach R := fun _ h => .ok (x, h)

protected def bind {R S : Type} (p : Mach R) (f : R → Mach S) : Mach S := fun ok h =>
  match p ok h with
  | .ok (x, h) => f x ok h
  | .error h => .error h

instance : Monad Mach where
  pure := Mach.pure
  bind := Mach.bind

end Mach

/-- Asking for something. -/
def ask (a : Ask) : Mach Unit := fun ok h => if ok h a then .ok ((), h ++ [a]) else .error h

/-- Asking for several things, one after the other. -/
def askAll : List Ask → Mach Unit
  | [] => pure ()
  | a :: as => do
    ask a
    askAll as

/-- One level of the native stack. -/
def level {R : Type} (w : Work) (p : Mach R) : Mach R := do
  ask (.call w)
  let x ← p
  ask (.back w)
  pure x

mutual

/-- The stack that a function needs that calls itself for the blocks in an instruction, for all parts one after the other: drop glue and `derive(Debug)` of `Instr`, `structure/instr.rs:9-203`. -/
def visitInstr (w : Work) : Instr → List Ask
  | .block _ body => .call w :: (visitInstrs w body ++ [.back w])
  | .loop _ body => .call w :: (visitInstrs w body ++ [.back w])
  | .ifElse _ thn els => .call w :: (visitInstrs w thn ++ .back w :: .call w :: (visitInstrs w els ++ [.back w]))
  | _ => []

/-- The same for `Vec<Instr>`, `Expr` and `ConstExpr`, `structure/instr.rs:3-7`. -/
def visitInstrs (w : Work) : List Instr → List Ask
  | [] => []
  | i :: is => visitInstr w i ++ visitInstrs w is

end

/-- The same for `Module`, `structure/module.rs:4-16`, in the order of its fields. -/
def visitModule (w : Work) (m : Module) : List Ask :=
  m.funcs.flatMap (fun f => visitInstrs w f.body) ++ (m.globals.flatMap (fun g => visitInstrs w g.init) ++
    (m.elem.flatMap (fun e => visitInstrs w e.offset) ++ m.data.flatMap fun d => visitInstrs w d.offset))

/-! ## Parsing -/

/-- A parser on a machine. -/
def GP (α : Type) : Type := List Byte → Mach (Except Error α × List Byte)

namespace GP

/-- `Ok(x)`. -/
protected def pure {α : Type} (x : α) : GP α := fun s => pure (.ok x, s)

/-- The `?` operator. -/
protected def bind {α β : Type} (p : GP α) (f : α → GP β) : GP β := fun s => do
  match ← p s with
  | (.ok x, r) => f x r
  | (.error e, r) => pure (.error e, r)

instance : Monad GP where
  pure := GP.pure
  bind := GP.bind

/-- `return Err(e)`. -/
def fail {α : Type} (e : Error) : GP α := fun s => pure (.error e, s)

/-- A parser that asks for nothing. -/
def lift {α : Type} (p : P α) : GP α := fun s => pure (p s)

/-- A request for `more` elements by a vector that has `len` already. -/
def request (k : Kind) (len more : Nat) : GP Unit := fun s => do
  ask (.part k len more)
  pure (.ok (), s)

/-- A scope that may be left by an error of `p`; what it owns is dropped then. -/
def scope {α : Type} (owned : List Ask) (p : GP α) : GP α := fun s => do
  match ← p s with
  | (.error e, r) => do
    askAll owned
    pure (.error e, r)
  | (.ok x, r) => pure (.ok x, r)

/-- A call of a recursive function. -/
def nested {α : Type} (p : GP α) : GP α := fun s => level .parse (p s)

/-- The loops of `binary/core/vec.rs:59-61, 91-93`: `result` is alive while the next element is parsed. -/
def parseN {α : Type} (owned : List α → List Ask) : Nat → GP α → List α → GP (List α)
  | 0, _, result => pure result
  | n + 1, p, result => do
    let x ← scope (owned result) p
    parseN owned n p (result ++ [x])

/-- `Vec<T>::parse`, `binary/core/vec.rs:55-64`, with `Vec::with_capacity(n)`; `owned` is what dropping a vector asks for. -/
def parseVec {α : Type} (k : Kind) (owned : List α → List Ask) (p : GP α) : GP (List α) := do
  let n ← lift parseU32
  request k 0 n.toNat
  parseN owned n.toNat p []

/-- `UnwrappingVec<T>::parse`, `binary/core/vec.rs:86-96`. -/
def parseUnwrappingVec {α β : Type} (k : Kind) (owned : List β → List Ask) (unwrap : α → β) (p : GP α) : GP (List β) := do
  let n ← lift parseU32
  request k 0 n.toNat
  parseN owned n.toNat (do let x ← p; pure (unwrap x)) []

/-- Elements without drop glue that is recursive. -/
def nothing {α : Type} : List α → List Ask := fun _ => []

/-- The outer loop of `CompactVec<T>::parse`, `binary/core/vec.rs:71-77`; `len` is the length of the vector so far. The `n` calls of `push` are one request. -/
def parseRuns {α : Type} (k : Kind) (len : Nat) (rounds : Nat) (p : GP α) : GP (List α) :=
  match rounds with
  | 0 => pure []
  | rounds + 1 => do
    let n ← lift parseU32
    let val ← p
    request k len n.toNat
    let rest ← parseRuns k (len + n.toNat) rounds p
    pure (List.replicate n.toNat val ++ rest)

/-- `CompactVec<T>::parse`, `binary/core/vec.rs:66-80`. -/
def parseCompactVec {α : Type} (k : Kind) (p : GP α) : GP (List α) := do
  let n ← lift parseU32
  parseRuns k 0 n.toNat p

/-- `Sized<T>::parse`, `binary/core/sized.rs:46-60`: if the size does not match, `result` is dropped. -/
def parseSized {α : Type} (owned : α → List Ask) (p : GP α) : GP α := do
  let size ← lift parseU32
  fun s => do
    let window := s.take size.toNat
    let after := s.drop size.toNat
    match ← p window with
    | (.error e, r) => pure (.error e, r ++ after)
    | (.ok x, r) =>
      let count := window.length - r.length
      if size.toNat ≠ count then do
        askAll (owned x)
        pure (.error .sizeMissmatch, r ++ after)
      else pure (.ok x, r ++ after)

/-- `String::parse`, `binary/core/string.rs:18-23`; `String::from_utf8` takes the vector over. -/
def parseString : GP (List Byte) := do
  let raw ← parseUnwrappingVec .byte nothing (fun b : Byte => b) (lift parseByte)
  if validUtf8 raw then pure raw else fail .invalidUtf8Encoding

/-- `ty::RetVal::parse`, `binary/ty.rs:46-58`: `vec![iter.parse()?]` has one element. -/
def parseRetVal : GP RetVal := do
  let ret ← lift Whasm.parseRetVal
  request .val 0 ret.length
  pure ret

/-- `ty::Func::parse`, `binary/ty.rs:60-71`. -/
def parseFuncTy : GP FuncTy := do
  let byte ← lift parseByte
  match byte.toNat with
  | 0x60 => do
    let params ← parseVec .val nothing (lift parseVal)
    let results ← parseVec .val nothing (lift parseVal)
    pure { params := params, results := results }
  | _ => fail (.invalidVariantId byte "ty::Func")

/-- `Expr::parse`, `binary/instr.rs:6-14`: in the last two arms the `SubExpr` is dropped. -/
def exprOf (sub : GP SubExpr) : GP Expr := do
  let se ← sub
  match se.next with
  | .endMark => pure se.body
  | .elseMark => scope (visitInstrs .drop se.body) (fail (.unexpectedOpcode "Else"))
  | _ => scope (visitInstrs .drop se.body) (fail (.unexpectedOpcode "Unknown"))

/-- `if next == Instr::Else { SubExpr::parse } else { (empty, next) }`, `binary/instr.rs:256-262`. -/
def elsePart (sub : GP SubExpr) (s1 : SubExpr) : GP (Expr × Instr) :=
  if s1.next.isElse then do
    let s2 ← sub
    pure (s2.body, s2.next)
  else pure ([], s1.next)

/-- `IfInstr::parse` and its conversion into `Instr::If`, `binary/instr.rs:243-274`: `branch_1` is alive while the second branch is parsed, and both at the end. -/
def ifOf (sub : GP SubExpr) : GP Instr := do
  let ret ← parseRetVal
  let s1 ← sub
  let bn ← scope (visitInstrs .drop s1.body) (elsePart sub s1)
  if bn.2.isEnd then pure (.ifElse ret s1.body bn.1)
  else scope (visitInstrs .drop bn.1 ++ visitInstrs .drop s1.body) (fail (.unexpectedOpcode "Unknown"))

/-- The `match` of `Instr::parse` on the opcode, `binary/instr.rs:26-221`: blocks and `br_table` have vectors, the other instructions have none. -/
def instrAt (sub : GP SubExpr) (byte : Byte) : GP Instr :=
  match byte.toNat with
  | 0x02 => do
    let ret ← parseRetVal
    let body ← nested (exprOf sub)
    pure (.block ret body)
  | 0x03 => do
    let ret ← parseRetVal
    let body ← nested (exprOf sub)
    pure (.loop ret body)
  | 0x04 => nested (ifOf sub)
  | 0x0E => do
    let ls ← parseVec .idx nothing (lift parseIdx)
    let l ← lift parseIdx
    pure (.brTable ls l)
  | _ => lift (Whasm.instrAt (P.fail .fuel) byte)

/-- `Instr::parse`, `binary/instr.rs:23-223`. -/
def instrOf (sub : GP SubExpr) : GP Instr := do
  let byte ← lift parseByte
  instrAt sub byte

/-- `SubExpr::parse`, `binary/instr.rs:227-241`: `expr` is alive while the next instruction is parsed. -/
def parseSubExpr : Nat → List Instr → GP SubExpr
  | 0, expr => scope (visitInstrs .drop expr) (fail .fuel)
  | fuel + 1, expr => do
    let next ← scope (visitInstrs .drop expr) (instrOf (parseSubExpr fuel []))
    match next with
    | .endMark => pure { body := expr, next := .endMark }
    | .elseMark => pure { body := expr, next := .elseMark }
    | next => do
      request .instr expr.length 1
      parseSubExpr fuel (expr ++ [next])

/-- `Expr::parse`, `binary/instr.rs:6-14`, and `ConstExpr::parse`, `binary/instr.rs:16-21`. -/
def parseExpr : GP Expr := fun s => exprOf (parseSubExpr (s.length + 1) []) s

/-- `module::Func::parse`, `binary/module.rs:74-85`. -/
def parseFunc : GP Func := do
  let locals ← parseCompactVec .local (lift parseVal)
  let body ← parseExpr
  pure { ty := 0, locals := locals, body := body }

/-- `module::Global::parse`, `binary/module.rs:103-110`. -/
def parseGlobal : GP Global := do
  let ty ← lift parseGlobalTy
  let init ← parseExpr
  pure { ty := ty, init := init }

/-- `module::Elem::parse`, `binary/module.rs:112-120`: the value of `offset` is alive while `init` is parsed. -/
def parseElem : GP Elem := do
  let table ← lift parseIdx
  let offset ← parseExpr
  let init ← scope (visitInstrs .drop offset) (parseVec .idx nothing (lift parseIdx))
  pure { table := table, offset := offset, init := init }

/-- `module::Data::parse`, `binary/module.rs:122-130`: the value of `offset` is alive while `init` is parsed. -/
def parseData : GP Data := do
  let mem ← lift parseIdx
  let offset ← parseExpr
  let init ← scope (visitInstrs .drop offset) (parseUnwrappingVec .byte nothing (fun b : Byte => b) (lift parseByte))
  pure { mem := mem, offset := offset, init := init }

/-- `module::Import::parse`, `binary/module.rs:166-174`. -/
def parseImport : GP Import := do
  let module ← parseString
  let name ← parseString
  let desc ← lift parseImportDesc
  pure { module := module, name := name, desc := desc }

/-- `module::Export::parse`, `binary/module.rs:176-183`. -/
def parseExport : GP Export := do
  let name ← parseString
  let desc ← lift parseExportDesc
  pure { name := name, desc := desc }

/-- `(String, Consume)::parse`, `binary/module.rs:7-11`. -/
def parseCustom : GP (Name × Nat) := do
  let name ← parseString
  let n ← lift parseConsume
  pure (name, n)

/-- The end of the arm of the code section, `binary/module.rs:56-64`. The functions are already part of `result` when their number is found to be wrong. -/
def withBodies (st : LoopState) (x : List Func) : GP LoopState :=
  let n := st.funcTypes.length
  if x.length ≠ n then scope (x.flatMap fun f => visitInstrs .drop f.body) (fail .unexpectedEndOfFile)
  else
    match assignTys st.funcTypes n x with
    | none => fail .panic
    | some funcs => pure { st with result := { st.result with funcs := funcs } }

/-- The `match id` of the loop, `binary/module.rs:42-67`. -/
def parseSection (id : Byte) (st : LoopState) : GP LoopState :=
  match id.toNat with
  | 0x00 => do
    let _ ← parseSized (fun _ => []) parseCustom
    pure st
  | 0x01 => do
    let x ← parseSized nothing (parseVec .functype nothing parseFuncTy)
    pure { st with result := { st.result with types := x } }
  | 0x02 => do
    let x ← parseSized nothing (parseVec .import nothing parseImport)
    pure { st with result := { st.result with imports := x } }
  | 0x03 => do
    let x ← parseSized nothing (parseVec .idx nothing (lift parseIdx))
    pure { st with funcTypes := x }
  | 0x04 => do
    let x ← parseSized nothing (parseVec .table nothing (lift parseTable))
    pure { st with result := { st.result with tables := x } }
  | 0x05 => do
    let x ← parseSized nothing (parseVec .mem nothing (lift parseMem))
    pure { st with result := { st.result with mems := x } }
  | 0x06 => do
    let owned := List.flatMap fun g : Global => visitInstrs .drop g.init
    let x ← parseSized owned (parseVec .global owned parseGlobal)
    pure { st with result := { st.result with globals := x } }
  | 0x07 => do
    let x ← parseSized nothing (parseVec .export nothing parseExport)
    pure { st with result := { st.result with exports := x } }
  | 0x08 => do
    let x ← parseSized (fun _ => []) (lift parseStart)
    pure { st with result := { st.result with start := some x } }
  | 0x09 => do
    let owned := List.flatMap fun e : Elem => visitInstrs .drop e.offset
    let x ← parseSized owned (parseVec .elem owned parseElem)
    pure { st with result := { st.result with elem := x } }
  | 0x0A => do
    let one := fun f : Func => visitInstrs .drop f.body
    let x ← parseSized (List.flatMap one) (parseUnwrappingVec .func (List.flatMap one) (fun f : Func => f) (parseSized one parseFunc))
    withBodies st x
  | 0x0B => do
    let owned := List.flatMap fun d : Data => visitInstrs .drop d.offset
    let x ← parseSized owned (parseVec .data owned parseData)
    pure { st with result := { st.result with data := x } }
  | _ => fail (.invalidSectionId id)

/-- One iteration of the loop, `binary/module.rs:31-67`: `result` is alive. -/
def parseIteration (st : LoopState) : GP LoopState := scope (visitModule .drop st.result) (do
  let id ← lift parseByte
  if id ≠ 0x00 then
    if id ≤ st.lastId then fail (.unexpectedSectionId id)
    else parseSection id { st with lastId := id }
  else parseSection id st)

/-- The loop over the sections, `binary/module.rs:30-70`. -/
def sectionLoop : Nat → LoopState → GP Module
  | 0, st => scope (visitModule .drop st.result) (fail .fuel)
  | fuel + 1, st => fun s =>
    match s with
    | [] => pure (.ok st.result, [])
    | _ :: _ => (do
        let st' ← parseIteration st
        sectionLoop fuel st') s

/-- The loop with enough fuel: every iteration consumes a byte at least. -/
def parseSections : GP Module := fun s => sectionLoop (s.length + 1) {} s

/-- `Module::parse`, `binary/module.rs:13-72`. The arrays for magic number and version are not vectors. -/
def parseModule : GP Module := do
  let magic ← lift (Whasm.parseN 4 parseByte)
  if magic.map (fun b => b.toNat) ≠ magicChars.map (fun c => c.toNat) then
    fail .invalidPreambleMagic
  else do
    let version ← lift (Whasm.parseN 4 parseByte)
    if version ≠ [1, 0, 0, 0] then fail .invalidPreambleVersion
    else parseSections

end GP

/-! ## Validation -/

/-- Validation on a machine. -/
def GV (α : Type) : Type := Ctx → Mach (Except VErr (α × Ctx))

namespace GV

/-- `Ok(x)`. -/
protected def pure {α : Type} (x : α) : GV α := fun c => pure (.ok (x, c))

/-- The `?` operator. -/
protected def bind {α β : Type} (p : GV α) (f : α → GV β) : GV β := fun c => do
  match ← p c with
  | .ok (x, c) => f x c
  | .error e => pure (.error e)

instance : Monad GV where
  pure := GV.pure
  bind := GV.bind

/-- `return Err(e)`. -/
def fail {α : Type} (e : VErr) : GV α := fun _ => pure (.error e)

/-- Validation that asks for nothing. -/
def lift {α : Type} (p : V α) : GV α := fun c => pure (p c)

/-- A new vector of kind `k` with `n` entries. -/
def reserve (k : Entry) (n : Nat) : GV Unit := fun c => do
  ask (.entry k 0 n)
  pure (.ok ((), c))

/-- The buffer of `export_names.sort()`, `validation/module.rs:78`, for `n` names. -/
def scratch (n : Nat) : GV Unit := fun c => do
  ask (.scratch n)
  pure (.ok ((), c))

/-- `push` on a vector of kind `k`, whose length so far is `len`, by which `p` stands for the change of the context. -/
def push (k : Entry) (len : Ctx → Nat) (p : V Unit) : GV Unit := fun c => do
  ask (.entry k (len c) 1)
  pure (p c)

/-- `for x in xs { f(x)?; }`. -/
def forEach {α : Type} (f : α → GV Unit) : List α → GV Unit
  | [] => pure ()
  | x :: xs => do
    f x
    forEach f xs

/-- A loop with `push` into a vector that has room. -/
def collect {α β : Type} (f : α → GV β) : List α → GV (List β)
  | [] => pure []
  | x :: xs => do
    let y ← f x
    let ys ← collect f xs
    pure (y :: ys)

/-- A part of validation with a context of its own. -/
def withCtx {α : Type} (inner : Ctx) (p : GV α) : GV α := fun c => do
  match ← p inner with
  | .ok (x, _) => pure (.ok (x, c))
  | .error e => pure (.error e)

/-- A call of a recursive function. -/
def nested {α : Type} (p : GV α) : GV α := fun c => level .validate (p c)

/-- `Stacks::push_operand`, `validation/stacks.rs:33-35`. -/
def pushOperand (op : Operand) : GV Unit := push .operands (·.operands.length) (Whasm.pushOperand op)

/-- `Stacks::push_operands`, `validation/stacks.rs:54-58`. -/
def pushOperands : List Val → GV Unit
  | [] => pure ()
  | v :: vs => do
    pushOperand (.val v)
    pushOperands vs

/-- `Stacks::push_frame`, `validation/stacks.rs:67-74`. -/
def pushFrame (label out : List Val) : GV Unit := push .frames (·.frames.length) (Whasm.pushFrame label out)

section
variable (bits : Nat) (build : Build)

/-- `validate_load`, `validation/instr.rs:763-773`. -/
def validateLoad (_align : U32) (_size : Nat) (val : Val) : GV Unit := do
  let _ ← lift (validateMemIdx 0)
  lift (popOperands [.i32])
  pushOperands [val]

/-- The match arm of `Instr::Else`, `validation/instr.rs:72-75`. -/
def validateElse : GV Unit := do
  let ret ← lift popFrame
  pushFrame ret ret

/-- The match arm of `Instr::End`, `validation/instr.rs:77-80`. -/
def validateEnd : GV Unit := do
  let ret ← lift popFrame
  pushOperands ret

mutual

/-- `Instr::validate`, `validation/instr.rs:42-761`. -/
def validateInstr : Instr → GV Unit
  | .unreachable => lift setUnreachable
  | .nop => pure ()
  | .block ret body => do
    let ret ← lift (validateRetVal ret)
    pushFrame ret ret
    nested (validateExpr body)
    validateEnd
  | .loop ret body => do
    let ret ← lift (validateRetVal ret)
    pushFrame [] ret
    nested (validateExpr body)
    validateEnd
  | .ifElse ret thn els => do
    let ret ← lift (validateRetVal ret)
    lift (popOperands [.i32])
    pushFrame ret ret
    nested (validateExpr thn)
    validateElse
    nested (validateExpr els)
    validateEnd
  | .elseMark => validateElse
  | .endMark => validateEnd
  | .br l => do
    let frame ← lift (validateLabelOn bits build l)
    lift (popOperands frame.label)
    lift setUnreachable
  | .brIf l => do
    let frame ← lift (validateLabelOn bits build l)
    lift (popOperands [.i32])
    lift (popOperands frame.label)
    pushOperands frame.label
  | .brTable ls l => do
    let frame ← lift (validateLabelOn bits build l)
    lift (Width.validateLabels bits build frame.label ls)
    lift (popOperands [.i32])
    lift (popOperands frame.label)
    lift setUnreachable
  | .ret => do
    let c ← lift V.get
    match c.ret with
    | none => fail .invalid
    | some ret => do
      lift (popOperands ret)
      lift setUnreachable
  | .call f => do
    let func ← lift (validateFuncIdx f)
    lift (popOperands func.params)
    pushOperands func.results
  | .callIndirect ty table => do
    let table ← lift (validateTableIdx table)
    let func ← lift (validateTypeIdx ty)
    if table.elem ≠ .funcRef then fail .invalid
    else do
      lift (popOperands [.i32])
      lift (popOperands func.params)
      pushOperands func.results
  | .drop => do
    let _ ← lift (popOperand .unknown)
    pure ()
  | .select => do
    lift (popOperands [.i32])
    let t1 ← lift (popOperand .unknown)
    let t2 ← lift (popOperand t1)
    pushOperand t2
  | .localGet i => do
    let ty ← lift (validateLocalIdx i)
    pushOperands [ty]
  | .localSet i => do
    let ty ← lift (validateLocalIdx i)
    lift (popOperands [ty])
  | .localTee i => do
    let ty ← lift (validateLocalIdx i)
    lift (popOperands [ty])
    pushOperands [ty]
  | .globalGet i => do
    let ty ← lift (validateGlobalIdx i)
    pushOperands [ty.val]
  | .globalSet i => do
    let ty ← lift (validateGlobalIdx i)
    if ty.mt ≠ .var then fail .invalid
    else lift (popOperands [ty.val])
  | .load op _offset align => validateLoad align (loadSig op).1 (loadSig op).2
  | .store op _offset align => lift (validateStore align (storeSig op).1 (storeSig op).2)
  | .memSize m => do
    let _ ← lift (validateMemIdx m)
    pushOperands [.i32]
  | .memGrow m => do
    let _ ← lift (validateMemIdx m)
    lift (popOperands [.i32])
    pushOperands [.i32]
  | .constI32 _ => pushOperands [.i32]
  | .constI64 _ => pushOperands [.i64]
  | .constF32 _ => pushOperands [.f32]
  | .constF64 _ => pushOperands [.f64]
  | .num op => do
    lift (popOperands (numSig op).1)
    pushOperands (numSig op).2

/-- `Expr::validate`, `validation/instr.rs:5-14`. -/
def validateExpr : List Instr → GV Unit
  | [] => pure ()
  | i :: is => do
    validateInstr i
    validateExpr is

end

/-- `ConstExpr::validate`, `validation/instr.rs:16-40`. -/
def validateConstExpr : List Instr → GV Unit
  | [] => pure ()
  | i :: is => do
    lift (validateConstCheck i)
    validateInstr bits build i
    validateConstExpr is

/-- `Context::use_types`, `validation/context.rs:18-22`. -/
def useTypes : List FuncTy → GV Unit :=
  forEach fun t => push .types (·.types.length) fun c => .ok ((), { c with types := c.types ++ [t] })

/-- `Context::use_imported_funcs`, `validation/context.rs:24-32`. -/
def useImportedFuncs : List Import → GV Unit :=
  forEach fun i =>
    match i.desc with
    | .func idx => do
      let ty ← lift (validateTypeIdx idx)
      push .funcs (·.funcs.length) fun c => .ok ((), { c with funcs := c.funcs ++ [ty] })
    | _ => pure ()

/-- `Context::use_imported_tables`, `validation/context.rs:34-40`. -/
def useImportedTables : List Import → GV Unit :=
  forEach fun i =>
    match i.desc with
    | .table ty => push .tables (·.tables.length) fun c => .ok ((), { c with tables := c.tables ++ [ty] })
    | _ => pure ()

/-- `Context::use_imported_mems`, `validation/context.rs:42-48`. -/
def useImportedMems : List Import → GV Unit :=
  forEach fun i =>
    match i.desc with
    | .mem ty => push .mems (·.mems.length) fun c => .ok ((), { c with mems := c.mems ++ [ty] })
    | _ => pure ()

/-- `Context::use_imported_globals`, `validation/context.rs:50-56`. -/
def useImportedGlobals : List Import → GV Unit :=
  forEach fun i =>
    match i.desc with
    | .global ty => push .globals (·.globals.length) fun c => .ok ((), { c with globals := c.globals ++ [ty] })
    | _ => pure ()

/-- `Context::use_funcs`, `validation/context.rs:58-64`. -/
def useFuncs : List Func → GV Unit :=
  forEach fun f => do
    let ty ← lift (validateTypeIdx f.ty)
    push .funcs (·.funcs.length) fun c => .ok ((), { c with funcs := c.funcs ++ [ty] })

/-- `Context::use_tables`, `validation/context.rs:66-70`. -/
def useTables : List Table → GV Unit :=
  forEach fun t => push .tables (·.tables.length) fun c => .ok ((), { c with tables := c.tables ++ [t.ty] })

/-- `Context::use_mems`, `validation/context.rs:72-76`. -/
def useMems : List Mem → GV Unit :=
  forEach fun m => push .mems (·.mems.length) fun c => .ok ((), { c with mems := c.mems ++ [m.ty] })

/-- `Context::use_globals`, `validation/context.rs:78-82`. -/
def useGlobals : List Global → GV Unit :=
  forEach fun g => push .globals (·.globals.length) fun c => .ok ((), { c with globals := c.globals ++ [g.ty] })

/-- `Context::from`, `validation/context.rs:84-98`; the context built is the final state. -/
def contextFrom (m : Module) : GV Unit := do
  useTypes m.types
  useImportedFuncs m.imports
  useImportedTables m.imports
  useImportedMems m.imports
  useImportedGlobals m.imports
  useFuncs m.funcs
  useTables m.tables
  useMems m.mems
  useGlobals m.globals

/-- `module::Func::validate`, `validation/module.rs:95-114`. -/
def validateFunc (f : Func) : GV FuncTy := do
  let ty ← lift (validateTypeIdx f.ty)
  let ret := ty.results
  reserve .locals (ty.params.length + f.locals.length)
  lift (fun c => .ok ((), { c with ret := some ret, locals := ty.params ++ f.locals }) : V Unit)
  pushFrame ret ret
  validateExpr bits build f.body
  let _ ← lift popFrame
  lift checkEmpty
  lift (fun c => .ok ((), { c with locals := [], ret := none }) : V Unit)
  pure ty

/-- The validation of an initializer or offset `init` of type `ret`, `validation/module.rs:138-143, 157-162, 177-182`. -/
def validateInit (ret : List Val) (init : ConstExpr) : GV Unit := do
  pushFrame ret ret
  validateConstExpr bits build init
  let _ ← lift popFrame
  lift checkEmpty

/-- `module::Global::validate`, `validation/module.rs:132-147`. -/
def validateGlobal (g : Global) : GV GlobalTy := do
  lift (validateGlobalTy g.ty)
  validateInit bits build [g.ty.val] g.init
  pure g.ty

/-- `module::Elem::validate`, `validation/module.rs:149-170`. -/
def validateElem (e : Elem) : GV Unit := do
  let ty ← lift (validateTableIdx e.table)
  if ty.elem ≠ .funcRef then fail .invalid
  else do
    validateInit bits build [.i32] e.offset
    forEach (fun i => do let _ ← lift (validateFuncIdx i); pure ()) e.init

/-- `module::Data::validate`, `validation/module.rs:172-187`. -/
def validateData (d : Data) : GV Unit := do
  let _ ← lift (validateMemIdx d.mem)
  validateInit bits build [.i32] d.offset

/-- `Validate for module::Module`, `validation/module.rs:29-93`, after `Context::from`. The context `ctx_globals` is filled here as in lines 33-34, and filled again where it is used. -/
def validateModuleBody (m : Module) : GV ModuleResult := do
  withCtx {} (useGlobals m.globals)
  forEach (fun t => lift (validateFuncTy t)) m.types
  forEach (fun f => do let _ ← validateFunc bits build f; pure ()) m.funcs
  forEach (fun t => do let _ ← lift (validateTable t); pure ()) m.tables
  forEach (fun x => do let _ ← lift (validateMem x); pure ()) m.mems
  withCtx {} (do
    useGlobals m.globals
    forEach (fun g => do let _ ← validateGlobal bits build g; pure ()) m.globals)
  forEach (validateElem bits build) m.elem
  forEach (validateData bits build) m.data
  match m.start with
    | some s => lift (validateStart s)
    | none => pure ()
  reserve .externals m.imports.length
  let imports ← collect (fun i => lift (validateImport i)) m.imports
  reserve .externals m.exports.length
  let exports ← collect (fun e => lift (validateExport e)) m.exports
  if ¬ (m.tables.length ≤ 1) then fail .invalid
  else if ¬ (m.mems.length ≤ 1) then fail .invalid
  else do
    reserve .names m.exports.length
    scratch m.exports.length
    let exportNames := m.exports.map (·.name)
    let exportNames := dedup (sortNames exportNames)
    if exportNames.length ≠ m.exports.length then fail .invalid
    else pure { imports := imports, exports := exports }

/-- `Module::validate`, `validation/module.rs:21-93`. -/
def validateModule (m : Module) : Mach (Except VErr ModuleResult) := do
  match ← (do contextFrom m; validateModuleBody bits build m : GV ModuleResult) {} with
  | .ok (r, _) => pure (.ok r)
  | .error e => pure (.error e)

end

end GV

/-! ## The tool -/

open Process

/-- Code with effects, on a machine. -/
def GE (α : Type) : Type := Console → Mach (Except Stop α × Console)

namespace GE

protected def pure {α : Type} (x : α) : GE α := fun c => pure (.ok x, c)

protected def bind {α β : Type} (p : GE α) (f : α → GE β) : GE β := fun c => do
  match ← p c with
  | (.ok x, c) => f x c
  | (.error e, c) => pure (.error e, c)

instance : Monad GE where
  pure := GE.pure
  bind := GE.bind

/-- Effects that need nothing. -/
def lift {α : Type} (p : Exec α) : GE α := fun c => pure (p c)

/-- What has a fixed size. -/
def step : GE Unit := fun c => do
  ask .step
  pure (.ok (), c)

/-- Code without effects. -/
def run {R : Type} (p : Mach R) : GE R := fun c => do
  let x ← p
  pure (.ok x, c)

/-- `println!`. -/
def println (sys : System) (t : List Char) : GE Unit := fun c => do
  ask (.system (.write ((utf8 (t ++ ['\n'])).take (sys.room - c.out.length))))
  pure (Process.println sys t c)

/-- `File::open`, `parser/src/main.rs:15`. -/
def openFile (sys : System) (name : String) : GE (Except (List Char) (Nat → ReadEvent)) := fun c => do
  ask (.system (.openFile (utf8 name.toList)))
  pure (Process.openFile sys name c)

/-- `read_to_end`, `parser/src/main.rs:23`, from the `i`-th call of `read` on. The buffer grows as it is filled. -/
def readToEnd (file : Nat → ReadEvent) : Nat → Nat → List Byte → GE (Except (List Char) (List Byte))
  | 0, _, _ => fun c => pure (.error .reading, c)
  | fuel + 1, i, buffer => fun c => do
    ask (.system .read)
    let c : Console := ⟨c.out, c.calls ++ [.read]⟩
    match file i with
    | .bytes [] => pure (.ok (.ok buffer), c)
    | .bytes b => do
      ask (.buffer buffer.length b.length)
      readToEnd file fuel (i + 1) (buffer ++ b) c
    | .interrupted => readToEnd file fuel (i + 1) buffer c
    | .failed message => pure (.ok (.error message), c)

/-- The closures of `unwrap_or_else`, `parser/src/main.rs:16-20, 24-28, 33-37, 40-44`. -/
def report {α : Type} (sys : System) (line err : List Char) : GE α := do
  step
  println sys line
  println sys err
  lift (exit 1)

/-- What is dropped when a panic leaves the scope of a variable. `exit` drops nothing. -/
def unwinding {α : Type} (owned : List Ask) (p : GE α) : GE α := fun c => do
  match ← p c with
  | (.error (.exit 101), c) => do
    askAll owned
    pure (.error (.exit 101), c)
  | r => pure r

/-- `main`, `parser/src/main.rs:6-49`. `module` is dropped at the end, and also if standard output is full, but not if there was another error. A machine that ends the process while the module
is printed loses the whole text, in fact a part of it may have been written. -/
def main (std : StdText) (bits : Nat) (build : Build) (sys : System) (fuel : Nat) (argv : List (List Byte)) : GE Unit := do
  step
  let args ← lift (collectArgs argv)
  match configNew args with
  | none =>
    println sys (text "Problem pargin input arguments: " ++ text "Not enough arguments.")
    match args with
    | [] => lift panic
    | bin :: _ =>
      println sys (text "Usage: " ++ bin.toList ++ text " [-p|--print] file.wasm")
      lift (exit 1)
  | some config =>
    let opened ← openFile sys config.filename
    match opened with
    | .error err => report sys (text "Could not open file \"" ++ config.filename.toList ++ text "\"") err
    | .ok file =>
      let contents ← readToEnd file fuel 0 []
      match contents with
      | .error err => report sys (text "Could not read file \"" ++ config.filename.toList ++ text "\"") err
      | .ok buffer =>
        let parsed ← run (GP.parseModule buffer)
        match parsed.1 with
        | .error err => report sys (text "Error parsing file \"" ++ config.filename.toList ++ text "\".") err.display
        | .ok module =>
          unwinding (visitModule .drop module) do
            let validated ← run (GV.validateModule bits build module)
            match validated with
            | .error .panic => lift panic
            | .error err => report sys (text "Error validating file \"" ++ config.filename.toList ++ text "\".") err.display
            | .ok _ =>
              if config.print then do
                run (askAll (visitModule .print module))
                println sys (dbgModule std module)
              else pure ()
          run (askAll (visitModule .drop module))

end GE

/-- The process: why it stopped, and what can be seen of it. The end of `main` is exit code 0. -/
def process (std : StdText) (bits : Nat) (build : Build) (sys : System) (fuel : Nat) (argv : List (List Byte)) : Mach (Stop × Console) := do
  match ← GE.main std bits build sys fuel argv {} with
  | (.ok (), c) => pure (.exit 0, c)
  | (.error e, c) => pure (e, c)

end Whasm.Grant
