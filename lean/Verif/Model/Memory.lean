import Verif.Model.BinaryModule
import Verif.Model.Kinds

/-!
# Parsing with limited memory

The parser once more, now with the memory that its vectors need. `room k` is the number of elements that a vector with elements of kind `k` can have: a request for
more is a panic (`capacity overflow`, if the number of bytes exceeds `isize::MAX`) or the abort of the process (if the allocator has no more), both `Error.panic`
here. On a target with `usize` of `w` bits, `room k` is `(2 ^ (w - 1) - 1) / size k` at most. The vectors of local variables and of instructions grow by `push`, those of the other kinds do not: for these two
`room k` is how many elements they can get in this way. Since a vector that is full asks for more than one element, that is less than memory would allow; see `Spec.pushRoom`.

`slots` counts the elements for which memory is requested, in all vectors together, with the last request if it fails. What is freed is not subtracted: while a module is read that is only the names of custom sections and
the function section, and all of it after an error.

Simplification: in `slots`, the capacity that a vector that grows by `push` has beyond its length is not counted. Parsers that make no vector are those of `Model/BinaryInstr`, by `lift`.
-/

namespace Whasm.Memory

/-- A result with the rest of the input, and the elements for which memory was requested. -/
structure Run (α : Type) where
  out : Except Error α × List Byte
  slots : Nat

/-- A parser; the first argument is how many elements of which kind a vector can have. -/
def M (α : Type) : Type := (Kind → Nat) → List Byte → Run α

namespace M

/-- `Ok(x)`. -/
protected def pure {α : Type} (x : α) : M α := fun _ s => ⟨(.ok x, s), 0⟩

/-- The `?` operator. -/
protected def bind {α β : Type} (p : M α) (f : α → M β) : M β := fun room s =>
  match p room s with
  | ⟨(.ok x, r), n⟩ => ⟨(f x room r).out, n + (f x room r).slots⟩
  | ⟨(.error e, r), n⟩ => ⟨(.error e, r), n⟩

instance : Monad M where
  pure := M.pure
  bind := M.bind

/-- `return Err(e)`. -/
def fail {α : Type} (e : Error) : M α := fun _ s => ⟨(.error e, s), 0⟩

end M

/-- A parser that needs no memory. -/
def lift {α : Type} (p : P α) : M α := fun _ s => ⟨p s, 0⟩

/-- A request for `more` elements by a vector that has `len` already. -/
def request (k : Kind) (len more : Nat) : M Unit := fun room s =>
  ⟨(if len + more ≤ room k then .ok () else .error .panic, s), more⟩

/-- The loops of `binary/core/vec.rs:59-61, 91-93`; there is room for the elements already. -/
def parseN {α : Type} (n : Nat) (p : M α) : M (List α) :=
  match n with
  | 0 => pure []
  | n + 1 => do
    let x ← p
    let xs ← parseN n p
    pure (x :: xs)

/-- `Vec<T>::parse`, `binary/core/vec.rs:55-64`, with `Vec::with_capacity(n)`. -/
def parseVec {α : Type} (k : Kind) (p : M α) : M (List α) := do
  let n ← lift parseU32
  request k 0 n.toNat
  parseN n.toNat p

/-- `UnwrappingVec<T>::parse`, `binary/core/vec.rs:86-96`. -/
def parseUnwrappingVec {α β : Type} (k : Kind) (unwrap : α → β) (p : M α) : M (List β) := do
  let n ← lift parseU32
  request k 0 n.toNat
  parseN n.toNat (do let x ← p; pure (unwrap x))

/-- The outer loop of `CompactVec<T>::parse`, `binary/core/vec.rs:71-77`; `len` is the length of the vector so far. The `n` calls of `push` are one request. -/
def parseRuns {α : Type} (k : Kind) (len : Nat) (rounds : Nat) (p : M α) : M (List α) :=
  match rounds with
  | 0 => pure []
  | rounds + 1 => do
    let n ← lift parseU32
    let val ← p
    request k len n.toNat
    let rest ← parseRuns k (len + n.toNat) rounds p
    pure (List.replicate n.toNat val ++ rest)

/-- `CompactVec<T>::parse`, `binary/core/vec.rs:66-80`. -/
def parseCompactVec {α : Type} (k : Kind) (p : M α) : M (List α) := do
  let n ← lift parseU32
  parseRuns k 0 n.toNat p

/-- `Sized<T>::parse`, `binary/core/sized.rs:46-60`. -/
def parseSized {α : Type} (p : M α) : M α := do
  let size ← lift parseU32
  fun room s =>
    let window := s.take size.toNat
    let after := s.drop size.toNat
    match p room window with
    | ⟨(.error e, r), n⟩ => ⟨(.error e, r ++ after), n⟩
    | ⟨(.ok x, r), n⟩ =>
      let count := window.length - r.length
      if size.toNat ≠ count then ⟨(.error .sizeMissmatch, r ++ after), n⟩
      else ⟨(.ok x, r ++ after), n⟩

/-- `String::parse`, `binary/core/string.rs:18-23`; `String::from_utf8` takes the vector over. -/
def parseString : M (List Byte) := do
  let raw ← parseUnwrappingVec .byte (fun b : Byte => b) (lift parseByte)
  if validUtf8 raw then pure raw else M.fail .invalidUtf8Encoding

/-- `ty::RetVal::parse`, `binary/ty.rs:46-58`: `vec![iter.parse()?]` has one element. -/
def parseRetVal : M RetVal := do
  let ret ← lift Whasm.parseRetVal
  request .val 0 ret.length
  pure ret

/-- `ty::Func::parse`, `binary/ty.rs:60-71`. -/
def parseFuncTy : M FuncTy := do
  let byte ← lift parseByte
  match byte.toNat with
  | 0x60 => do
    let params ← parseVec .val (lift parseVal)
    let results ← parseVec .val (lift parseVal)
    pure { params := params, results := results }
  | _ => M.fail (.invalidVariantId byte "ty::Func")

/-- `Expr::parse`, `binary/instr.rs:6-14`. -/
def exprOf (sub : M SubExpr) : M Expr := do
  let se ← sub
  match se.next with
  | .endMark => pure se.body
  | .elseMark => M.fail (.unexpectedOpcode "Else")
  | _ => M.fail (.unexpectedOpcode "Unknown")

/-- `if next == Instr::Else { SubExpr::parse } else { (empty, next) }`, `binary/instr.rs:256-262`. -/
def elsePart (sub : M SubExpr) (s1 : SubExpr) : M (Expr × Instr) :=
  if s1.next.isElse then do
    let s2 ← sub
    pure (s2.body, s2.next)
  else pure ([], s1.next)

/-- `IfInstr::parse` and its conversion into `Instr::If`, `binary/instr.rs:243-274`. -/
def ifOf (sub : M SubExpr) : M Instr := do
  let ret ← parseRetVal
  let s1 ← sub
  let bn ← elsePart sub s1
  if bn.2.isEnd then pure (.ifElse ret s1.body bn.1)
  else M.fail (.unexpectedOpcode "Unknown")

/-- The `match` of `Instr::parse` on the opcode, `binary/instr.rs:26-221`: blocks and `br_table` have vectors, the other instructions have none. -/
def instrAt (sub : M SubExpr) (byte : Byte) : M Instr :=
  match byte.toNat with
  | 0x02 => do
    let ret ← parseRetVal
    let body ← exprOf sub
    pure (.block ret body)
  | 0x03 => do
    let ret ← parseRetVal
    let body ← exprOf sub
    pure (.loop ret body)
  | 0x04 => ifOf sub
  | 0x0E => do
    let ls ← parseVec .idx (lift parseIdx)
    let l ← lift parseIdx
    pure (.brTable ls l)
  | _ => lift (Whasm.instrAt (P.fail .fuel) byte)

/-- `Instr::parse`, `binary/instr.rs:23-223`. -/
def instrOf (sub : M SubExpr) : M Instr := do
  let byte ← lift parseByte
  instrAt sub byte

/-- The body of the loop of `SubExpr::parse` after an instruction has been read, `binary/instr.rs:231-238`; `len` is the length of the vector so far. -/
def subStep (len : Nat) (sub : M SubExpr) (next : Instr) : M SubExpr :=
  match next with
  | .endMark => pure { body := [], next := .endMark }
  | .elseMark => pure { body := [], next := .elseMark }
  | next => do
    request .instr len 1
    let rest ← sub
    pure { body := next :: rest.body, next := rest.next }

/-- `SubExpr::parse`, `binary/instr.rs:227-241`. -/
def parseSubExpr : Nat → Nat → M SubExpr
  | 0, _ => M.fail .fuel
  | fuel + 1, len => do
    let next ← instrOf (parseSubExpr fuel 0)
    subStep len (parseSubExpr fuel (len + 1)) next

/-- `Expr::parse`, `binary/instr.rs:6-14`. -/
def parseExpr : M Expr := fun room s => exprOf (parseSubExpr (s.length + 1) 0) room s

/-- `module::Func::parse`, `binary/module.rs:74-85`. -/
def parseFunc : M Func := do
  let locals ← parseCompactVec .local (lift parseVal)
  let body ← parseExpr
  pure { ty := 0, locals := locals, body := body }

/-- `module::Global::parse`, `binary/module.rs:103-110`, with `ConstExpr::parse`, `binary/instr.rs:16-21`. -/
def parseGlobal : M Global := do
  let ty ← lift parseGlobalTy
  let init ← parseExpr
  pure { ty := ty, init := init }

/-- `module::Elem::parse`, `binary/module.rs:112-120`. -/
def parseElem : M Elem := do
  let table ← lift parseIdx
  let offset ← parseExpr
  let init ← parseVec .idx (lift parseIdx)
  pure { table := table, offset := offset, init := init }

/-- `module::Data::parse`, `binary/module.rs:122-130`. -/
def parseData : M Data := do
  let mem ← lift parseIdx
  let offset ← parseExpr
  let init ← parseUnwrappingVec .byte (fun b : Byte => b) (lift parseByte)
  pure { mem := mem, offset := offset, init := init }

/-- `module::Import::parse`, `binary/module.rs:166-174`. -/
def parseImport : M Import := do
  let module ← parseString
  let name ← parseString
  let desc ← lift parseImportDesc
  pure { module := module, name := name, desc := desc }

/-- `module::Export::parse`, `binary/module.rs:176-183`. -/
def parseExport : M Export := do
  let name ← parseString
  let desc ← lift parseExportDesc
  pure { name := name, desc := desc }

/-- `(String, Consume)::parse`, `binary/module.rs:7-11`. -/
def parseCustom : M (Name × Nat) := do
  let name ← parseString
  let n ← lift parseConsume
  pure (name, n)

/-- The `match id` of the loop, `binary/module.rs:42-67`. -/
def parseSection (id : Byte) (st : LoopState) : M LoopState :=
  match id.toNat with
  | 0x00 => do
    let _ ← parseSized parseCustom
    pure st
  | 0x01 => do
    let x ← parseSized (parseVec .functype parseFuncTy)
    pure { st with result := { st.result with types := x } }
  | 0x02 => do
    let x ← parseSized (parseVec .import parseImport)
    pure { st with result := { st.result with imports := x } }
  | 0x03 => do
    let x ← parseSized (parseVec .idx (lift parseIdx))
    pure { st with funcTypes := x }
  | 0x04 => do
    let x ← parseSized (parseVec .table (lift parseTable))
    pure { st with result := { st.result with tables := x } }
  | 0x05 => do
    let x ← parseSized (parseVec .mem (lift parseMem))
    pure { st with result := { st.result with mems := x } }
  | 0x06 => do
    let x ← parseSized (parseVec .global parseGlobal)
    pure { st with result := { st.result with globals := x } }
  | 0x07 => do
    let x ← parseSized (parseVec .export parseExport)
    pure { st with result := { st.result with exports := x } }
  | 0x08 => do
    let x ← parseSized (lift parseStart)
    pure { st with result := { st.result with start := some x } }
  | 0x09 => do
    let x ← parseSized (parseVec .elem parseElem)
    pure { st with result := { st.result with elem := x } }
  | 0x0A => do
    let x ← parseSized (parseUnwrappingVec .func (fun f : Func => f) (parseSized parseFunc))
    let n := st.funcTypes.length
    if x.length ≠ n then M.fail .unexpectedEndOfFile
    else
      match assignTys st.funcTypes n x with
      | none => M.fail .panic
      | some funcs => pure { st with result := { st.result with funcs := funcs } }
  | 0x0B => do
    let x ← parseSized (parseVec .data parseData)
    pure { st with result := { st.result with data := x } }
  | _ => M.fail (.invalidSectionId id)

/-- One iteration of the loop, `binary/module.rs:31-67`. -/
def parseIteration (st : LoopState) : M LoopState := do
  let id ← lift parseByte
  if id ≠ 0x00 then
    if id ≤ st.lastId then M.fail (.unexpectedSectionId id)
    else parseSection id { st with lastId := id }
  else parseSection id st

/-- The loop over the sections, `binary/module.rs:30-70`. -/
def sectionLoop : Nat → LoopState → M Module
  | 0, _ => M.fail .fuel
  | fuel + 1, st => fun room s =>
    match s with
    | [] => ⟨(.ok st.result, []), 0⟩
    | _ :: _ => (do
        let st' ← parseIteration st
        sectionLoop fuel st') room s

/-- The loop with enough fuel: every iteration consumes a byte at least. -/
def parseSections : M Module := fun room s => sectionLoop (s.length + 1) {} room s

/-- `Module::parse`, `binary/module.rs:13-72`. The arrays for magic number and version are not vectors. -/
def parseModule : M Module := do
  let magic ← lift (Whasm.parseN 4 parseByte)
  if magic.map (fun b => b.toNat) ≠ magicChars.map (fun c => c.toNat) then
    M.fail .invalidPreambleMagic
  else do
    let version ← lift (Whasm.parseN 4 parseByte)
    if version ≠ [1, 0, 0, 0] then M.fail .invalidPreambleVersion
    else parseSections

end Whasm.Memory
