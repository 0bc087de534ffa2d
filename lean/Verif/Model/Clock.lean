import Verif.Model.BinaryModule

/-!
# Parsing with its cost

The functions of `Model/Basic.lean` to `Model/BinaryModule.lean` once more, now counting steps. A *step* is: one call of `next` on the iterator of the caller or on one
of the adapters `Peekable`, `Take` and `Inspect` around it, one call of a parse function, one iteration of a loop over the bits of an integer, one element pushed to a vector, one byte looked at by
`String::from_utf8`, one type index assigned. The elements pushed by the inner loop of `CompactVec<T>::parse` are counted separately, as *copies*.

Simplifications: `Vec::push` is one step although it may reallocate (amortised constant); `Vec::with_capacity` is none (see C58); an adapter whose part has ended does not ask the iterator
below, this is counted as if it did.
-/

namespace Whasm.Clock

/-- A result with the rest of the input, the steps done, and the elements copied. -/
structure Run (α : Type) where
  out : Except Error α × List Byte
  steps : Nat
  copies : Nat

/-- A parser with its cost; the first argument is the number of adapters around the iterator of the caller. -/
def M (α : Type) : Type := Nat → List Byte → Run α

namespace M

/-- `Ok(x)`. -/
protected def pure {α : Type} (x : α) : M α := fun _ s => ⟨(.ok x, s), 0, 0⟩

/-- The `?` operator. -/
protected def bind {α β : Type} (p : M α) (f : α → M β) : M β := fun d s =>
  match p d s with
  | ⟨(.ok x, r), n, k⟩ => ⟨(f x d r).out, n + (f x d r).steps, k + (f x d r).copies⟩
  | ⟨(.error e, r), n, k⟩ => ⟨(.error e, r), n, k⟩

instance : Monad M where
  pure := M.pure
  bind := M.bind

/-- `return Err(e)`. -/
def fail {α : Type} (e : Error) : M α := fun _ s => ⟨(.error e, s), 0, 0⟩

end M

/-- `n` steps. -/
def tick (n : Nat) : M Unit := fun _ s => ⟨(.ok (), s), n, 0⟩

/-- `n` copies. -/
def copy (n : Nat) : M Unit := fun _ s => ⟨(.ok (), s), 0, n⟩

/-- `bin.peek().is_some()`, `binary/module.rs:30`; `d` counts the `Peekable`, which calls `next` below and keeps the byte. -/
def peek : M Bool := fun d s => ⟨(.ok (!s.isEmpty), s), d + 1, 0⟩

/-- `Byte::parse`, `binary/core/byte.rs:47-54`: the call, `next`, and its forwarding by the adapters. -/
def parseByte : M Byte := fun d s => ⟨Whasm.parseByte s, d + 2, 0⟩

/-- `std::iter::once(byte).parse()`, `binary/ty.rs:55`. -/
def again {α : Type} (p : M α) (byte : Byte) : M α := fun _ s => ⟨((p 0 [byte]).out.1, s), (p 0 [byte]).steps, (p 0 [byte]).copies⟩

/-- `[T; N]::parse`, `binary/core/array.rs:17-113`, and the loops of `binary/core/vec.rs:59-61, 91-93`. -/
def parseN {α : Type} (n : Nat) (p : M α) : M (List α) :=
  match n with
  | 0 => pure []
  | n + 1 => do
    let x ← p
    tick 1
    let xs ← parseN n p
    pure (x :: xs)

/-- The loop of `parse_unsigned_leb_128`, `binary/core/unsigned.rs:68-91`. -/
def unsignedLoop {N : Nat} (shift : Nat) (result : BitVec N) (d : Nat) : List Byte → Run (BitVec N)
  | [] => ⟨(.error .unexpectedEndOfFile, []), d + 3, 0⟩
  | byte :: rest =>
    let val := BitVec.ofNat N (byte &&& 0x7F).toNat
    if shift ≥ N then
      if byte &&& 0x7F ≠ 0 then ⟨(.error .outOfRangeUnsignedInteger, rest), d + 3, 0⟩
      else if byte &&& 0x80 = 0 then ⟨(.ok result, rest), d + 3, 0⟩
      else { unsignedLoop shift result d rest with steps := d + 3 + (unsignedLoop shift result d rest).steps }
    else
      match shl? val shift with
      | none => ⟨(.error .panic, rest), d + 3, 0⟩
      | some shifted =>
        match ushr? shifted shift with
        | none => ⟨(.error .panic, rest), d + 3, 0⟩
        | some back =>
          if back &&& BitVec.ofNat N 0x7F ≠ val then ⟨(.error .outOfRangeUnsignedInteger, rest), d + 3, 0⟩
          else
            let result := result ||| shifted
            let shift := shift + 7
            if byte &&& 0x80 = 0 then ⟨(.ok result, rest), d + 3, 0⟩
            else { unsignedLoop shift result d rest with steps := d + 3 + (unsignedLoop shift result d rest).steps }

/-- `parse_unsigned_leb_128`, `binary/core/unsigned.rs:62-93`. -/
def parseUnsigned (N : Nat) : M (BitVec N) := do
  tick 1
  unsignedLoop 0 0#N

/-- The loop of `parse_signed_leb_128` and the final sign extension, `binary/core/signed.rs:70-101`. -/
def signedLoop {N : Nat} (shift : Nat) (result : BitVec N) (positive : Bool) (d : Nat) : List Byte → Run (BitVec N)
  | [] => ⟨(.error .unexpectedEndOfFile, []), d + 3, 0⟩
  | byte :: rest =>
    let val := BitVec.ofNat N (byte &&& 0x7F).toNat
    if shift ≥ N then
      if (byte &&& 0x7F = 0x00 ∧ positive = true) ∨ (byte &&& 0x7F = 0x7F ∧ positive = false) then
        if byte &&& 0x80 = 0 then ⟨(.ok result, rest), d + 3, 0⟩
        else { signedLoop shift result positive d rest with steps := d + 3 + (signedLoop shift result positive d rest).steps }
      else ⟨(.error .outOfRangeSignedInteger, rest), d + 3, 0⟩
    else
      match shl? val shift with
      | none => ⟨(.error .panic, rest), d + 3, 0⟩
      | some shifted =>
        match sshr? shifted shift with
        | none => ⟨(.error .panic, rest), d + 3, 0⟩
        | some back =>
          if back &&& BitVec.ofNat N 0x7F ≠ val then ⟨(.error .outOfRangeSignedInteger, rest), d + 3, 0⟩
          else
            let result := result ||| shifted
            let shift := shift + 7
            let positive := decide (byte &&& 0x40 = 0)
            if byte &&& 0x80 = 0 then
              if shift < N ∧ positive = false then
                match shl? (~~~ 0#N) shift with
                | none => ⟨(.error .panic, rest), d + 3, 0⟩
                | some ext => ⟨(.ok (result ||| ext), rest), d + 3, 0⟩
              else ⟨(.ok result, rest), d + 3, 0⟩
            else { signedLoop shift result positive d rest with steps := d + 3 + (signedLoop shift result positive d rest).steps }

/-- `parse_signed_leb_128`, `binary/core/signed.rs:63-101`. -/
def parseSigned (N : Nat) : M (BitVec N) := do
  tick 1
  signedLoop 0 0#N true

/-- `u32::parse`, `binary/core/unsigned.rs`. -/
def parseU32 : M U32 := parseUnsigned 32
/-- `i32::parse`, `binary/core/signed.rs`. -/
def parseI32 : M I32 := parseSigned 32
/-- `i64::parse`, `binary/core/signed.rs`. -/
def parseI64 : M I64 := parseSigned 64

/-- `parse_float_iee754`, `binary/core/float.rs:43-52`. -/
def parseFloat (bytes : Nat) : M (BitVec (8 * bytes)) := do
  tick 1
  let bs ← parseN bytes parseByte
  pure (leBits (8 * bytes) bs)

/-- `f32::parse`, `binary/core/float.rs:31-35`. -/
def parseF32 : M F32 := parseFloat 4
/-- `f64::parse`, `binary/core/float.rs:37-41`. -/
def parseF64 : M F64 := parseFloat 8

/-- `Vec<T>::parse`, `binary/core/vec.rs:55-64`. -/
def parseVec {α : Type} (p : M α) : M (List α) := do
  tick 1
  let n ← parseU32
  parseN n.toNat p

/-- `UnwrappingVec<T>::parse`, `binary/core/vec.rs:86-96`. -/
def parseUnwrappingVec {α β : Type} (unwrap : α → β) (p : M α) : M (List β) := do
  tick 1
  let n ← parseU32
  parseN n.toNat (do let x ← p; pure (unwrap x))

/-- The loops of `CompactVec<T>::parse`, `binary/core/vec.rs:71-77`. -/
def parseRuns {α : Type} (k : Nat) (p : M α) : M (List α) :=
  match k with
  | 0 => pure []
  | k + 1 => do
    let n ← parseU32
    let val ← p
    copy n.toNat
    let rest ← parseRuns k p
    pure (List.replicate n.toNat val ++ rest)

/-- `CompactVec<T>::parse`, `binary/core/vec.rs:66-80`. -/
def parseCompactVec {α : Type} (p : M α) : M (List α) := do
  tick 1
  let k ← parseU32
  parseRuns k.toNat p

/-- `Sized<T>::parse`, `binary/core/sized.rs:46-60`: the content is read through two more adapters. -/
def parseSized {α : Type} (p : M α) : M α := do
  tick 1
  let size ← parseU32
  fun d s =>
    let window := s.take size.toNat
    let after := s.drop size.toNat
    match p (d + 2) window with
    | ⟨(.error e, r), n, k⟩ => ⟨(.error e, r ++ after), n, k⟩
    | ⟨(.ok x, r), n, k⟩ =>
      let count := window.length - r.length
      if size.toNat ≠ count then ⟨(.error .sizeMissmatch, r ++ after), n, k⟩
      else ⟨(.ok x, r ++ after), n, k⟩

/-- `Consume::parse`, `binary/core/sized.rs:84-89`: `next` is called once for each byte and once at the end. -/
def parseConsume : M Nat := fun d s => ⟨(.ok s.length, []), 1 + (d + 1) * (s.length + 1), 0⟩

/-- `String::parse`, `binary/core/string.rs:18-23`. -/
def parseString : M (List Byte) := do
  tick 1
  let raw ← parseUnwrappingVec (fun b : Byte => b) parseByte
  tick raw.length
  if validUtf8 raw then pure raw else M.fail .invalidUtf8Encoding

/-- `ty::Limits::parse`, `binary/ty.rs:6-21`. -/
def parseLimits : M Limits := do
  tick 1
  let byte ← parseByte
  match byte.toNat with
  | 0x00 => do
    let min ← parseU32
    pure { min := min, max := none }
  | 0x01 => do
    let min ← parseU32
    let max ← parseU32
    pure { min := min, max := some max }
  | _ => M.fail (.invalidVariantId byte "ty::Limits")

/-- `ty::Val::parse`, `binary/ty.rs:23-34`. -/
def parseVal : M Val := do
  tick 1
  let byte ← parseByte
  match byte.toNat with
  | 0x7F => pure .i32
  | 0x7E => pure .i64
  | 0x7D => pure .f32
  | 0x7C => pure .f64
  | _ => M.fail (.invalidVariantId byte "ty::Val")

/-- `ty::Elem::parse`, `binary/ty.rs:36-44`. -/
def parseElemTy : M ElemTy := do
  tick 1
  let byte ← parseByte
  match byte.toNat with
  | 0x70 => pure .funcRef
  | _ => M.fail (.invalidVariantId byte "ty::Elem")

/-- `ty::RetVal::parse`, `binary/ty.rs:46-58`: the byte is re-parsed as a `Val` from a one-element iterator. -/
def parseRetVal : M RetVal := do
  tick 1
  let byte ← parseByte
  match byte.toNat with
  | 0x40 => pure []
  | _ =>
    let v ← again parseVal byte
    pure [v]

/-- `ty::Func::parse`, `binary/ty.rs:60-71`. -/
def parseFuncTy : M FuncTy := do
  tick 1
  let byte ← parseByte
  match byte.toNat with
  | 0x60 => do
    let params ← parseVec parseVal
    let results ← parseVec parseVal
    pure { params := params, results := results }
  | _ => M.fail (.invalidVariantId byte "ty::Func")

/-- `ty::Table::parse`, `binary/ty.rs:73-80`: struct fields are evaluated in the order written (`elem` first). -/
def parseTableTy : M TableTy := do
  tick 1
  let elem ← parseElemTy
  let lim ← parseLimits
  pure { elem := elem, lim := lim }

/-- `ty::Mem::parse`, `binary/ty.rs:82-88`. -/
def parseMemTy : M MemTy := do
  tick 1
  let lim ← parseLimits
  pure { lim := lim }

/-- `ty::Mut::parse`, `binary/ty.rs:90-99`. -/
def parseMut : M Mut := do
  tick 1
  let byte ← parseByte
  match byte.toNat with
  | 0x00 => pure .const
  | 0x01 => pure .var
  | _ => M.fail (.invalidVariantId byte "ty::Mut")

/-- `ty::Global::parse`, `binary/ty.rs:101-108`. -/
def parseGlobalTy : M GlobalTy := do
  tick 1
  let val ← parseVal
  let mt ← parseMut
  pure { val := val, mt := mt }

/-- `idx::*::parse`, `binary/idx.rs`. -/
def parseIdx : M Idx := do
  tick 1
  parseU32

/-- `Expr::parse`, `binary/instr.rs:6-14`, given the parser of `SubExpr`. -/
def exprOf (sub : M SubExpr) : M Expr := do
  tick 1
  let se ← sub
  match se.next with
  | .endMark => pure se.body
  | .elseMark => M.fail (.unexpectedOpcode "Else")
  | _ => M.fail (.unexpectedOpcode "Unknown")

/-- `if next == Instr::Else { SubExpr::parse } else { (empty, next) }`, `binary/instr.rs:256-262`. -/
def elsePart (sub : M SubExpr) (s1 : SubExpr) : M (Expr × Instr) :=
  if s1.next.isElse then do
    let s2 ← sub
    pure (s2.body, s2.next)
  else pure ([], s1.next)

/-- `IfInstr::parse` and its conversion into `Instr::If`, `binary/instr.rs:243-274`. -/
def ifOf (sub : M SubExpr) : M Instr := do
  tick 1
  let ret ← parseRetVal
  let s1 ← sub
  let bn ← elsePart sub s1
  if bn.2.isEnd then pure (.ifElse ret s1.body bn.1)
  else M.fail (.unexpectedOpcode "Unknown")

/-- The three grouped ranges of opcodes and the rejection of all the others,
`binary/instr.rs:55-78, 88-220`. -/
def instrTail (byte : Byte) : M Instr :=
  match loadTable.lookup byte.toNat with
  | some op => do
    let a ← parseU32
    let b ← parseU32
    pure (.load op a b)
  | none =>
    match storeTable.lookup byte.toNat with
    | some op => do
      let a ← parseU32
      let b ← parseU32
      pure (.store op a b)
    | none =>
      match numTable.lookup byte.toNat with
      | some op => pure (.num op)
      | none => M.fail (.invalidVariantId byte "instr::Instr")

/-- The `match` of `Instr::parse` on the opcode, `binary/instr.rs:26-221`, given the parser `sub` of the
nested `SubExpr`s. -/
def instrAt (sub : M SubExpr) (byte : Byte) : M Instr :=
  match byte.toNat with
  | 0x00 => pure .unreachable
  | 0x01 => pure .nop
  | 0x02 => do
    let ret ← parseRetVal
    let body ← exprOf sub
    pure (.block ret body)
  | 0x03 => do
    let ret ← parseRetVal
    let body ← exprOf sub
    pure (.loop ret body)
  | 0x04 => ifOf sub
  | 0x05 => pure .elseMark
  | 0x0B => pure .endMark
  | 0x0C => do let l ← parseIdx; pure (.br l)
  | 0x0D => do let l ← parseIdx; pure (.brIf l)
  | 0x0E => do
    let ls ← parseVec parseIdx
    let l ← parseIdx
    pure (.brTable ls l)
  | 0x0F => pure .ret
  | 0x10 => do let f ← parseIdx; pure (.call f)
  | 0x11 => do
    let ty ← parseIdx
    let table ← parseIdx
    pure (.callIndirect ty table)
  | 0x1A => pure .drop
  | 0x1B => pure .select
  | 0x20 => do let i ← parseIdx; pure (.localGet i)
  | 0x21 => do let i ← parseIdx; pure (.localSet i)
  | 0x22 => do let i ← parseIdx; pure (.localTee i)
  | 0x23 => do let i ← parseIdx; pure (.globalGet i)
  | 0x24 => do let i ← parseIdx; pure (.globalSet i)
  | 0x3F => do let m ← parseIdx; pure (.memSize m)
  | 0x40 => do let m ← parseIdx; pure (.memGrow m)
  | 0x41 => do let v ← parseI32; pure (.constI32 v)
  | 0x42 => do let v ← parseI64; pure (.constI64 v)
  | 0x43 => do let v ← parseF32; pure (.constF32 v)
  | 0x44 => do let v ← parseF64; pure (.constF64 v)
  | _ => instrTail byte

/-- `Instr::parse`, `binary/instr.rs:23-223`. -/
def instrOf (sub : M SubExpr) : M Instr := do
  tick 1
  let byte ← parseByte
  instrAt sub byte

/-- The body of the loop of `SubExpr::parse` after an instruction has been read: stop at `End` and `Else`, otherwise
push the instruction and go on, `binary/instr.rs:231-238`. -/
def subStep (sub : M SubExpr) (next : Instr) : M SubExpr :=
  match next with
  | .endMark => pure { body := [], next := .endMark }
  | .elseMark => pure { body := [], next := .elseMark }
  | next => do
    tick 1
    let rest ← sub
    pure { body := next :: rest.body, next := rest.next }

/-- `SubExpr::parse`, `binary/instr.rs:227-241`. The `loop` and the mutual recursion with `Instr::parse` are
modelled by recursion on `fuel`; accumulating with `push` is modelled by consing on the way back. -/
def parseSubExpr : Nat → M SubExpr
  | 0 => M.fail .fuel
  | fuel + 1 => do
    tick 1
    let next ← instrOf (parseSubExpr fuel)
    subStep (parseSubExpr fuel) next

/-- `Instr::parse` with enough fuel for the input at hand (each iteration consumes a byte). -/
def parseInstr : M Instr := fun d s => instrOf (parseSubExpr (s.length + 1)) d s

/-- `Expr::parse`, `binary/instr.rs:6-14`. -/
def parseExpr : M Expr := fun d s => exprOf (parseSubExpr (s.length + 1)) d s

/-- `ConstExpr::parse`, `binary/instr.rs:16-21`. -/
def parseConstExpr : M ConstExpr := do
  tick 1
  let e ← parseExpr
  pure e

/-- `module::Func::parse`, `binary/module.rs:74-85`; the type index is filled in later. -/
def parseFunc : M Func := do
  tick 1
  let locals ← parseCompactVec parseVal
  let body ← parseExpr
  pure { ty := 0, locals := locals, body := body }

/-- `module::Table::parse`, `binary/module.rs:87-93`. -/
def parseTable : M Table := do
  tick 1
  let ty ← parseTableTy
  pure { ty := ty }

/-- `module::Mem::parse`, `binary/module.rs:95-101`. -/
def parseMem : M Mem := do
  tick 1
  let ty ← parseMemTy
  pure { ty := ty }

/-- `module::Global::parse`, `binary/module.rs:103-110`. -/
def parseGlobal : M Global := do
  tick 1
  let ty ← parseGlobalTy
  let init ← parseConstExpr
  pure { ty := ty, init := init }

/-- `module::Elem::parse`, `binary/module.rs:112-120`. -/
def parseElem : M Elem := do
  tick 1
  let table ← parseIdx
  let offset ← parseConstExpr
  let init ← parseVec parseIdx
  pure { table := table, offset := offset, init := init }

/-- `module::Data::parse`, `binary/module.rs:122-130`. -/
def parseData : M Data := do
  tick 1
  let mem ← parseIdx
  let offset ← parseConstExpr
  let init ← parseUnwrappingVec (fun b : Byte => b) parseByte
  pure { mem := mem, offset := offset, init := init }

/-- `module::Start::parse`, `binary/module.rs:132-138`. -/
def parseStart : M Start := do
  tick 1
  let func ← parseIdx
  pure { func := func }

/-- `module::desc::Import::parse`, `binary/module.rs:140-151`. -/
def parseImportDesc : M ImportDesc := do
  tick 1
  let byte ← parseByte
  match byte.toNat with
  | 0x00 => do let i ← parseIdx; pure (.func i)
  | 0x01 => do let t ← parseTableTy; pure (.table t)
  | 0x02 => do let t ← parseMemTy; pure (.mem t)
  | 0x03 => do let t ← parseGlobalTy; pure (.global t)
  | _ => M.fail (.invalidVariantId byte "module::desc::Import")

/-- `module::desc::Export::parse`, `binary/module.rs:153-164`. -/
def parseExportDesc : M ExportDesc := do
  tick 1
  let byte ← parseByte
  match byte.toNat with
  | 0x00 => do let i ← parseIdx; pure (.func i)
  | 0x01 => do let i ← parseIdx; pure (.table i)
  | 0x02 => do let i ← parseIdx; pure (.mem i)
  | 0x03 => do let i ← parseIdx; pure (.global i)
  | _ => M.fail (.invalidVariantId byte "module::desc::Export")

/-- `module::Import::parse`, `binary/module.rs:166-174`. -/
def parseImport : M Import := do
  tick 1
  let module ← parseString
  let name ← parseString
  let desc ← parseImportDesc
  pure { module := module, name := name, desc := desc }

/-- `module::Export::parse`, `binary/module.rs:176-183`. -/
def parseExport : M Export := do
  tick 1
  let name ← parseString
  let desc ← parseExportDesc
  pure { name := name, desc := desc }

/-- `(String, Consume)::parse`, `binary/module.rs:7-11`: the content of a custom section. -/
def parseCustom : M (Name × Nat) := do
  tick 1
  let name ← parseString
  let n ← parseConsume
  pure (name, n)

/-- The `match id` of the loop, `binary/module.rs:42-67`. -/
def parseSection (id : Byte) (st : LoopState) : M LoopState :=
  match id.toNat with
  | 0x00 => do
    let _ ← parseSized parseCustom
    pure st
  | 0x01 => do
    let x ← parseSized (parseVec parseFuncTy)
    pure { st with result := { st.result with types := x } }
  | 0x02 => do
    let x ← parseSized (parseVec parseImport)
    pure { st with result := { st.result with imports := x } }
  | 0x03 => do
    let x ← parseSized (parseVec parseIdx)
    pure { st with funcTypes := x }
  | 0x04 => do
    let x ← parseSized (parseVec parseTable)
    pure { st with result := { st.result with tables := x } }
  | 0x05 => do
    let x ← parseSized (parseVec parseMem)
    pure { st with result := { st.result with mems := x } }
  | 0x06 => do
    let x ← parseSized (parseVec parseGlobal)
    pure { st with result := { st.result with globals := x } }
  | 0x07 => do
    let x ← parseSized (parseVec parseExport)
    pure { st with result := { st.result with exports := x } }
  | 0x08 => do
    let x ← parseSized parseStart
    pure { st with result := { st.result with start := some x } }
  | 0x09 => do
    let x ← parseSized (parseVec parseElem)
    pure { st with result := { st.result with elem := x } }
  | 0x0A => do
    let x ← parseSized (parseUnwrappingVec (fun f : Func => f) (parseSized parseFunc))
    let n := st.funcTypes.length
    if x.length ≠ n then M.fail .unexpectedEndOfFile
    else do
      tick n
      match assignTys st.funcTypes n x with
      | none => M.fail .panic
      | some funcs => pure { st with result := { st.result with funcs := funcs } }
  | 0x0B => do
    let x ← parseSized (parseVec parseData)
    pure { st with result := { st.result with data := x } }
  | _ => M.fail (.invalidSectionId id)

/-- One iteration of the loop, `binary/module.rs:31-67`. -/
def parseIteration (st : LoopState) : M LoopState := do
  let id ← parseByte
  if id ≠ 0x00 then
    if id ≤ st.lastId then M.fail (.unexpectedSectionId id)
    else parseSection id { st with lastId := id }
  else parseSection id st

/-- `while bin.peek().is_some() { ... } Ok(result)`, `binary/module.rs:30-70`, by recursion on fuel. -/
def sectionLoop : Nat → LoopState → M Module
  | 0, _ => M.fail .fuel
  | fuel + 1, st => do
    let more ← peek
    if more then do
      let st' ← parseIteration st
      sectionLoop fuel st'
    else pure st.result

/-- The loop with enough fuel: every iteration consumes a byte at least. -/
def parseSections : M Module := fun d s => sectionLoop (s.length + 1) {} (d + 1) s

/-- `Module::parse`, `binary/module.rs:13-72`. -/
def parseModule : M Module := do
  tick 1
  let magic ← parseN 4 parseByte
  if magic.map (fun b => b.toNat) ≠ magicChars.map (fun c => c.toNat) then
    M.fail .invalidPreambleMagic
  else do
    let version ← parseN 4 parseByte
    if version ≠ [1, 0, 0, 0] then M.fail .invalidPreambleVersion
    else parseSections

end Whasm.Clock
