import Verif.Model.BinaryModule

/-!
# The parsers on an arbitrary iterator

The trait `WasmBinary` is implemented for every `Iterator<Item = u8>` (`binary/core/traits.rs:22-31`). The model of
`Model/Basic.lean` to `Model/BinaryModule.lean` represents the iterator by the list of the bytes it will still yield.
That representation cannot express

* an iterator that never ends,
* an iterator that yields further bytes after a `None` (one that is not fused),
* how often `next` is called, and in which state the iterator is left.

Here the same Rust functions are modelled once more, on an iterator given by a type of states and the function `next`.
A parser is a function that works for every such iterator, as the Rust functions are generic over `Binary`; the
adaptors `take`, `inspect` and `peekable` of the standard library are functions from iterators to iterators.

Simplification: `next` is a total function, it neither panics nor runs forever. Every Rust `loop` is bounded by a number
`fuel`: the result `.error .fuel` means that some loop has not finished after `fuel` iterations.
-/

namespace Whasm.Iter

/-- `Iterator<Item = u8>`: the method `next(&mut self) -> Option<u8>` on states of type `σ`. -/
abbrev Next (σ : Type) : Type := σ → Option Byte × σ

/-- `fn parse<Binary: WasmBinary>(bin: &mut Binary) -> Result<Self>`, `binary/core/traits.rs:67-69`: for every type of
iterators, given a bound on the iterations of a loop and the state of the iterator, the result and the state in which
the iterator is left. -/
def IP (α : Type) : Type 1 := ∀ σ : Type, Next σ → Nat → σ → Except Error α × σ

namespace IP

/-- `Ok(x)`. -/
protected def pure {α : Type} (x : α) : IP α := fun _ _ _ st => (.ok x, st)

/-- The `?` operator. -/
protected def bind {α β : Type} (p : IP α) (f : α → IP β) : IP β := fun σ next fuel st =>
  match p σ next fuel st with
  | (.ok x, st) => f x σ next fuel st
  | (.error e, st) => (.error e, st)

/-- `return Err(e)`. -/
def fail {α : Type} (e : Error) : IP α := fun _ _ _ st => (.error e, st)

/-- The bound for a loop that starts here. -/
def withFuel {α : Type} (f : Nat → IP α) : IP α := fun σ next fuel st => f fuel σ next fuel st

instance : Monad IP where
  pure := IP.pure
  bind := IP.bind

end IP

/-- One call of `next`. -/
def nextByte : IP (Option Byte) := fun _ next _ st =>
  match next st with
  | (b, st) => (.ok b, st)

/-- `Byte::parse`, `binary/core/byte.rs:47-54`. -/
def parseByte : IP Byte := do
  let b ← nextByte
  match b with
  | some b => pure b
  | none => IP.fail .unexpectedEndOfFile

/-- `[T; N]::parse`, `binary/core/array.rs:17-113`, and the counted loops of `binary/core/vec.rs:59-61`, `91-93`. -/
def parseN {α : Type} (n : Nat) (p : IP α) : IP (List α) :=
  match n with
  | 0 => pure []
  | n + 1 => do
    let x ← p
    let xs ← parseN n p
    pure (x :: xs)

/-- The loop of `parse_unsigned_leb_128`, `binary/core/unsigned.rs:68-91`. -/
def unsignedLoop {N : Nat} : Nat → Nat → BitVec N → IP (BitVec N)
  | 0, _, _ => IP.fail .fuel
  | fuel + 1, shift, result => do
    let byte ← parseByte
    let val := BitVec.ofNat N (byte &&& 0x7F).toNat
    if shift ≥ N then
      if byte &&& 0x7F ≠ 0 then IP.fail .outOfRangeUnsignedInteger
      else if byte &&& 0x80 = 0 then pure result
      else unsignedLoop fuel shift result
    else
      match shl? val shift with
      | none => IP.fail .panic
      | some shifted =>
        match ushr? shifted shift with
        | none => IP.fail .panic
        | some back =>
          if back &&& BitVec.ofNat N 0x7F ≠ val then IP.fail .outOfRangeUnsignedInteger
          else
            if byte &&& 0x80 = 0 then pure (result ||| shifted)
            else unsignedLoop fuel (shift + 7) (result ||| shifted)

/-- `parse_unsigned_leb_128`, `binary/core/unsigned.rs:62-93`. -/
def parseUnsigned (N : Nat) : IP (BitVec N) := IP.withFuel fun fuel => unsignedLoop fuel 0 0#N

/-- The loop of `parse_signed_leb_128` and the final sign extension, `binary/core/signed.rs:70-101`. -/
def signedLoop {N : Nat} : Nat → Nat → BitVec N → Bool → IP (BitVec N)
  | 0, _, _, _ => IP.fail .fuel
  | fuel + 1, shift, result, positive => do
    let byte ← parseByte
    let val := BitVec.ofNat N (byte &&& 0x7F).toNat
    if shift ≥ N then
      if (byte &&& 0x7F = 0x00 ∧ positive = true) ∨ (byte &&& 0x7F = 0x7F ∧ positive = false) then
        if byte &&& 0x80 = 0 then pure result
        else signedLoop fuel shift result positive
      else IP.fail .outOfRangeSignedInteger
    else
      match shl? val shift with
      | none => IP.fail .panic
      | some shifted =>
        match sshr? shifted shift with
        | none => IP.fail .panic
        | some back =>
          if back &&& BitVec.ofNat N 0x7F ≠ val then IP.fail .outOfRangeSignedInteger
          else
            let positive := decide (byte &&& 0x40 = 0)
            if byte &&& 0x80 = 0 then
              if shift + 7 < N ∧ positive = false then
                match shl? (~~~ 0#N) (shift + 7) with
                | none => IP.fail .panic
                | some ext => pure (result ||| shifted ||| ext)
              else pure (result ||| shifted)
            else signedLoop fuel (shift + 7) (result ||| shifted) positive

/-- `parse_signed_leb_128`, `binary/core/signed.rs:63-101`. -/
def parseSigned (N : Nat) : IP (BitVec N) := IP.withFuel fun fuel => signedLoop fuel 0 0#N true

/-- `u32::parse`, `binary/core/unsigned.rs:50-54`; also `idx::*::parse`, `binary/idx.rs`. -/
def parseU32 : IP U32 := parseUnsigned 32
/-- `i32::parse`, `binary/core/signed.rs`. -/
def parseI32 : IP I32 := parseSigned 32
/-- `i64::parse`, `binary/core/signed.rs`. -/
def parseI64 : IP I64 := parseSigned 64

/-- `parse_float_iee754`, `binary/core/float.rs:43-52`, on a little-endian host. -/
def parseFloat (bytes : Nat) : IP (BitVec (8 * bytes)) := do
  let bs ← parseN bytes parseByte
  pure (leBits (8 * bytes) bs)

/-- `f32::parse`, `binary/core/float.rs:31-35`. -/
def parseF32 : IP F32 := parseFloat 4
/-- `f64::parse`, `binary/core/float.rs:37-41`. -/
def parseF64 : IP F64 := parseFloat 8

/-- `Vec<T>::parse`, `binary/core/vec.rs:55-64`. -/
def parseVec {α : Type} (p : IP α) : IP (List α) := do
  let n ← parseU32
  parseN n.toNat p

/-- `UnwrappingVec<T>::parse`, `binary/core/vec.rs:86-96`. -/
def parseUnwrappingVec {α β : Type} (unwrap : α → β) (p : IP α) : IP (List β) := do
  let n ← parseU32
  parseN n.toNat (do let x ← p; pure (unwrap x))

/-- The outer loop of `CompactVec<T>::parse`, `binary/core/vec.rs:71-77`. -/
def parseRuns {α : Type} (k : Nat) (p : IP α) : IP (List α) :=
  match k with
  | 0 => pure []
  | k + 1 => do
    let n ← parseU32
    let val ← p
    let rest ← parseRuns k p
    pure (List.replicate n.toNat val ++ rest)

/-- `CompactVec<T>::parse`, `binary/core/vec.rs:66-80`. -/
def parseCompactVec {α : Type} (p : IP α) : IP (List α) := do
  let k ← parseU32
  parseRuns k.toNat p

/-- `bin.take(size).inspect(|_| count = count + 1)`, `binary/core/sized.rs:50-52`: the state of the iterator below, the
number of bytes it may still be asked for (`std::iter::Take`: `None` without asking when that number is 0, otherwise
count down and ask), and `count`. -/
def takeInspect {σ : Type} (next : Next σ) : Next (σ × Nat × Nat)
  | (st, 0, count) => (none, (st, 0, count))
  | (st, n + 1, count) =>
    match next st with
    | (some b, st) => (some b, (st, n, count + 1))
    | (none, st) => (none, (st, n, count))

/-- `Sized<T>::parse`, `binary/core/sized.rs:46-60`. -/
def parseSized {α : Type} (p : IP α) : IP α := do
  let size ← parseU32
  fun σ next fuel st =>
    match p (σ × Nat × Nat) (takeInspect next) fuel (st, size.toNat, 0) with
    | (.error e, (st, _, _)) => (.error e, st)
    | (.ok x, (st, _, count)) => if size.toNat ≠ count then (.error .sizeMissmatch, st) else (.ok x, st)

/-- `Iterator::count`: call `next` until it returns `None`. -/
def countLoop : Nat → Nat → IP Nat
  | 0, _ => IP.fail .fuel
  | fuel + 1, n => do
    let b ← nextByte
    match b with
    | some _ => countLoop fuel (n + 1)
    | none => pure n

/-- `Consume::parse`, `binary/core/sized.rs:84-89`. -/
def parseConsume : IP Nat := IP.withFuel fun fuel => countLoop fuel 0

/-- `String::parse`, `binary/core/string.rs:18-23`. -/
def parseString : IP (List Byte) := do
  let raw ← parseUnwrappingVec (fun b : Byte => b) parseByte
  if validUtf8 raw then pure raw else IP.fail .invalidUtf8Encoding

/-- `ty::Limits::parse`, `binary/ty.rs:6-21`. -/
def parseLimits : IP Limits := do
  let byte ← parseByte
  match byte.toNat with
  | 0x00 => do
    let min ← parseU32
    pure { min := min, max := none }
  | 0x01 => do
    let min ← parseU32
    let max ← parseU32
    pure { min := min, max := some max }
  | _ => IP.fail (.invalidVariantId byte "ty::Limits")

/-- `ty::Val::parse`, `binary/ty.rs:23-34`. -/
def parseVal : IP Val := do
  let byte ← parseByte
  match byte.toNat with
  | 0x7F => pure .i32
  | 0x7E => pure .i64
  | 0x7D => pure .f32
  | 0x7C => pure .f64
  | _ => IP.fail (.invalidVariantId byte "ty::Val")

/-- `ty::Elem::parse`, `binary/ty.rs:36-44`. -/
def parseElemTy : IP ElemTy := do
  let byte ← parseByte
  match byte.toNat with
  | 0x70 => pure .funcRef
  | _ => IP.fail (.invalidVariantId byte "ty::Elem")

/-- The iterator over an array, `[..].iter().copied()`. -/
def listNext : Next (List Byte)
  | [] => (none, [])
  | b :: rest => (some b, rest)

/-- `ty::RetVal::parse`, `binary/ty.rs:46-58`: the byte is parsed again from the iterator over `[byte]`. -/
def parseRetVal : IP RetVal := do
  let byte ← parseByte
  match byte.toNat with
  | 0x40 => pure []
  | _ => fun _ _ fuel st =>
    match parseVal (List Byte) listNext fuel [byte] with
    | (.ok v, _) => (.ok [v], st)
    | (.error e, _) => (.error e, st)

/-- `ty::Func::parse`, `binary/ty.rs:60-71`. -/
def parseFuncTy : IP FuncTy := do
  let byte ← parseByte
  match byte.toNat with
  | 0x60 => do
    let params ← parseVec parseVal
    let results ← parseVec parseVal
    pure { params := params, results := results }
  | _ => IP.fail (.invalidVariantId byte "ty::Func")

/-- `ty::Table::parse`, `binary/ty.rs:73-80`. -/
def parseTableTy : IP TableTy := do
  let elem ← parseElemTy
  let lim ← parseLimits
  pure { elem := elem, lim := lim }

/-- `ty::Mem::parse`, `binary/ty.rs:82-88`. -/
def parseMemTy : IP MemTy := do
  let lim ← parseLimits
  pure { lim := lim }

/-- `ty::Mut::parse`, `binary/ty.rs:90-99`. -/
def parseMut : IP Mut := do
  let byte ← parseByte
  match byte.toNat with
  | 0x00 => pure .const
  | 0x01 => pure .var
  | _ => IP.fail (.invalidVariantId byte "ty::Mut")

/-- `ty::Global::parse`, `binary/ty.rs:101-108`. -/
def parseGlobalTy : IP GlobalTy := do
  let val ← parseVal
  let mt ← parseMut
  pure { val := val, mt := mt }

/-- `idx::*::parse`, `binary/idx.rs`. -/
def parseIdx : IP Idx := parseU32

/-- `Expr::parse`, `binary/instr.rs:6-14`, given the parser of `SubExpr`. -/
def exprOf (sub : IP SubExpr) : IP Expr := do
  let se ← sub
  match se.next with
  | .endMark => pure se.body
  | .elseMark => IP.fail (.unexpectedOpcode "Else")
  | _ => IP.fail (.unexpectedOpcode "Unknown")

/-- `if next == Instr::Else { SubExpr::parse } else { (empty, next) }`, `binary/instr.rs:256-262`. -/
def elsePart (sub : IP SubExpr) (s1 : SubExpr) : IP (Expr × Instr) :=
  if s1.next.isElse then do
    let s2 ← sub
    pure (s2.body, s2.next)
  else pure ([], s1.next)

/-- `IfInstr::parse` and its conversion into `Instr::If`, `binary/instr.rs:243-274`. -/
def ifOf (sub : IP SubExpr) : IP Instr := do
  let ret ← parseRetVal
  let s1 ← sub
  let bn ← elsePart sub s1
  if bn.2.isEnd then pure (.ifElse ret s1.body bn.1)
  else IP.fail (.unexpectedOpcode "Unknown")

/-- The three grouped ranges of opcodes and the rejection of all the others, `binary/instr.rs:55-78, 88-220`. -/
def instrTail (byte : Byte) : IP Instr :=
  match loadTable.lookup byte.toNat with
  | some op => do
    let a ← parseU32
    let b ← parseU32
    pure (.load op a b)
  | none =>
    match storeTable.lookup byte.toNat with
    | some op => do
      let a ← parseU32
      let b ← parseU32
      pure (.store op a b)
    | none =>
      match numTable.lookup byte.toNat with
      | some op => pure (.num op)
      | none => IP.fail (.invalidVariantId byte "instr::Instr")

/-- The `match` of `Instr::parse` on the opcode, `binary/instr.rs:26-221`, given the parser `sub` of the nested
`SubExpr`s. -/
def instrAt (sub : IP SubExpr) (byte : Byte) : IP Instr :=
  match byte.toNat with
  | 0x00 => pure .unreachable
  | 0x01 => pure .nop
  | 0x02 => do
    let ret ← parseRetVal
    let body ← exprOf sub
    pure (.block ret body)
  | 0x03 => do
    let ret ← parseRetVal
    let body ← exprOf sub
    pure (.loop ret body)
  | 0x04 => ifOf sub
  | 0x05 => pure .elseMark
  | 0x0B => pure .endMark
  | 0x0C => do let l ← parseIdx; pure (.br l)
  | 0x0D => do let l ← parseIdx; pure (.brIf l)
  | 0x0E => do
    let ls ← parseVec parseIdx
    let l ← parseIdx
    pure (.brTable ls l)
  | 0x0F => pure .ret
  | 0x10 => do let f ← parseIdx; pure (.call f)
  | 0x11 => do
    let ty ← parseIdx
    let table ← parseIdx
    pure (.callIndirect ty table)
  | 0x1A => pure .drop
  | 0x1B => pure .select
  | 0x20 => do let i ← parseIdx; pure (.localGet i)
  | 0x21 => do let i ← parseIdx; pure (.localSet i)
  | 0x22 => do let i ← parseIdx; pure (.localTee i)
  | 0x23 => do let i ← parseIdx; pure (.globalGet i)
  | 0x24 => do let i ← parseIdx; pure (.globalSet i)
  | 0x3F => do let m ← parseIdx; pure (.memSize m)
  | 0x40 => do let m ← parseIdx; pure (.memGrow m)
  | 0x41 => do let v ← parseI32; pure (.constI32 v)
  | 0x42 => do let v ← parseI64; pure (.constI64 v)
  | 0x43 => do let v ← parseF32; pure (.constF32 v)
  | 0x44 => do let v ← parseF64; pure (.constF64 v)
  | _ => instrTail byte

/-- `Instr::parse`, `binary/instr.rs:23-223`. -/
def instrOf (sub : IP SubExpr) : IP Instr := do
  let byte ← parseByte
  instrAt sub byte

/-- The body of the loop of `SubExpr::parse` after an instruction has been read, `binary/instr.rs:231-238`. -/
def subStep (sub : IP SubExpr) (next : Instr) : IP SubExpr :=
  match next with
  | .endMark => pure { body := [], next := .endMark }
  | .elseMark => pure { body := [], next := .elseMark }
  | next => do
    let rest ← sub
    pure { body := next :: rest.body, next := rest.next }

/-- `SubExpr::parse`, `binary/instr.rs:227-241`. -/
def parseSubExpr : Nat → IP SubExpr
  | 0 => IP.fail .fuel
  | fuel + 1 => do
    let next ← instrOf (parseSubExpr fuel)
    subStep (parseSubExpr fuel) next

/-- `Instr::parse`, `binary/instr.rs:23-223`. -/
def parseInstr : IP Instr := IP.withFuel fun fuel => instrOf (parseSubExpr fuel)

/-- `Expr::parse`, `binary/instr.rs:6-14`. -/
def parseExpr : IP Expr := IP.withFuel fun fuel => exprOf (parseSubExpr fuel)

/-- `ConstExpr::parse`, `binary/instr.rs:16-21`. -/
def parseConstExpr : IP ConstExpr := do
  let e ← parseExpr
  pure e

/-- `module::Func::parse`, `binary/module.rs:74-85`. -/
def parseFunc : IP Func := do
  let locals ← parseCompactVec parseVal
  let body ← parseExpr
  pure { ty := 0, locals := locals, body := body }

/-- `module::Table::parse`, `binary/module.rs:87-93`. -/
def parseTable : IP Table := do
  let ty ← parseTableTy
  pure { ty := ty }

/-- `module::Mem::parse`, `binary/module.rs:95-101`. -/
def parseMem : IP Mem := do
  let ty ← parseMemTy
  pure { ty := ty }

/-- `module::Global::parse`, `binary/module.rs:103-110`. -/
def parseGlobal : IP Global := do
  let ty ← parseGlobalTy
  let init ← parseConstExpr
  pure { ty := ty, init := init }

/-- `module::Elem::parse`, `binary/module.rs:112-120`. -/
def parseElem : IP Elem := do
  let table ← parseIdx
  let offset ← parseConstExpr
  let init ← parseVec parseIdx
  pure { table := table, offset := offset, init := init }

/-- `module::Data::parse`, `binary/module.rs:122-130`. -/
def parseData : IP Data := do
  let mem ← parseIdx
  let offset ← parseConstExpr
  let init ← parseUnwrappingVec (fun b : Byte => b) parseByte
  pure { mem := mem, offset := offset, init := init }

/-- `module::Start::parse`, `binary/module.rs:132-138`. -/
def parseStart : IP Start := do
  let func ← parseIdx
  pure { func := func }

/-- `module::desc::Import::parse`, `binary/module.rs:140-151`. -/
def parseImportDesc : IP ImportDesc := do
  let byte ← parseByte
  match byte.toNat with
  | 0x00 => do let i ← parseIdx; pure (.func i)
  | 0x01 => do let t ← parseTableTy; pure (.table t)
  | 0x02 => do let t ← parseMemTy; pure (.mem t)
  | 0x03 => do let t ← parseGlobalTy; pure (.global t)
  | _ => IP.fail (.invalidVariantId byte "module::desc::Import")

/-- `module::desc::Export::parse`, `binary/module.rs:153-164`. -/
def parseExportDesc : IP ExportDesc := do
  let byte ← parseByte
  match byte.toNat with
  | 0x00 => do let i ← parseIdx; pure (.func i)
  | 0x01 => do let i ← parseIdx; pure (.table i)
  | 0x02 => do let i ← parseIdx; pure (.mem i)
  | 0x03 => do let i ← parseIdx; pure (.global i)
  | _ => IP.fail (.invalidVariantId byte "module::desc::Export")

/-- `module::Import::parse`, `binary/module.rs:166-174`. -/
def parseImport : IP Import := do
  let module ← parseString
  let name ← parseString
  let desc ← parseImportDesc
  pure { module := module, name := name, desc := desc }

/-- `module::Export::parse`, `binary/module.rs:176-183`. -/
def parseExport : IP Export := do
  let name ← parseString
  let desc ← parseExportDesc
  pure { name := name, desc := desc }

/-- `(String, Consume)::parse`, `binary/module.rs:7-11`. -/
def parseCustom : IP (Name × Nat) := do
  let name ← parseString
  let n ← parseConsume
  pure (name, n)

/-- The `match id` of the loop, `binary/module.rs:42-67`. -/
def parseSection (id : Byte) (st : LoopState) : IP LoopState :=
  match id.toNat with
  | 0x00 => do
    let _ ← parseSized parseCustom
    pure st
  | 0x01 => do
    let x ← parseSized (parseVec parseFuncTy)
    pure { st with result := { st.result with types := x } }
  | 0x02 => do
    let x ← parseSized (parseVec parseImport)
    pure { st with result := { st.result with imports := x } }
  | 0x03 => do
    let x ← parseSized (parseVec parseIdx)
    pure { st with funcTypes := x }
  | 0x04 => do
    let x ← parseSized (parseVec parseTable)
    pure { st with result := { st.result with tables := x } }
  | 0x05 => do
    let x ← parseSized (parseVec parseMem)
    pure { st with result := { st.result with mems := x } }
  | 0x06 => do
    let x ← parseSized (parseVec parseGlobal)
    pure { st with result := { st.result with globals := x } }
  | 0x07 => do
    let x ← parseSized (parseVec parseExport)
    pure { st with result := { st.result with exports := x } }
  | 0x08 => do
    let x ← parseSized parseStart
    pure { st with result := { st.result with start := some x } }
  | 0x09 => do
    let x ← parseSized (parseVec parseElem)
    pure { st with result := { st.result with elem := x } }
  | 0x0A => do
    let x ← parseSized (parseUnwrappingVec (fun f : Func => f) (parseSized parseFunc))
    let n := st.funcTypes.length
    if x.length ≠ n then IP.fail .unexpectedEndOfFile
    else
      match assignTys st.funcTypes n x with
      | none => IP.fail .panic
      | some funcs => pure { st with result := { st.result with funcs := funcs } }
  | 0x0B => do
    let x ← parseSized (parseVec parseData)
    pure { st with result := { st.result with data := x } }
  | _ => IP.fail (.invalidSectionId id)

/-- What one iteration of the loop does with the section id, `binary/module.rs:33-67`. -/
def iterationAt (st : LoopState) (id : Byte) : IP LoopState :=
  if id ≠ 0x00 then
    if id ≤ st.lastId then IP.fail (.unexpectedSectionId id)
    else parseSection id { st with lastId := id }
  else parseSection id st

/-- One iteration of the loop, `binary/module.rs:31-67`. -/
def parseIteration (st : LoopState) : IP LoopState := do
  let id ← parseByte
  iterationAt st id

/-- `next` of `bin.peekable()`, `binary/module.rs:27` (`std::iter::Peekable`): the state of the iterator below and
what `peek` has already taken from it. -/
def peekNext {σ : Type} (next : Next σ) : Next (σ × Option (Option Byte))
  | (st, some b) => (b, (st, none))
  | (st, none) =>
    match next st with
    | (b, st) => (b, (st, none))

/-- `bin.peek()`: asks the iterator below only when nothing has been peeked yet. -/
def peek {σ : Type} (next : Next σ) : Next (σ × Option (Option Byte))
  | (st, some b) => (b, (st, some b))
  | (st, none) =>
    match next st with
    | (b, st) => (b, (st, some b))

/-- `while bin.peek().is_some() { ... } Ok(result)`, `binary/module.rs:30-71`. The first argument bounds this loop, the
other number the loops inside. -/
def sectionLoop {σ : Type} (next : Next σ) (inner : Nat) :
    Nat → LoopState → σ × Option (Option Byte) → Except Error Module × (σ × Option (Option Byte))
  | 0, _, pst => (.error .fuel, pst)
  | fuel + 1, st, pst =>
    match peek next pst with
    | (none, pst) => (.ok st.result, pst)
    | (some _, pst) =>
      match parseIteration st (σ × Option (Option Byte)) (peekNext next) inner pst with
      | (.ok st', pst) => sectionLoop next inner fuel st' pst
      | (.error e, pst) => (.error e, pst)

/-- The part of `Module::parse` after the preamble, `binary/module.rs:24-71`. The `Peekable` is dropped at the end, and
with it a byte that was peeked but not read. -/
def parseSections : IP Module := fun _ next fuel st =>
  match sectionLoop next fuel fuel {} (st, none) with
  | (x, (st, _)) => (x, st)

/-- `Module::parse`, `binary/module.rs:13-72`. -/
def parseModule : IP Module := do
  let magic ← parseN 4 parseByte
  if magic.map (fun b => b.toNat) ≠ magicChars.map (fun c => c.toNat) then
    IP.fail .invalidPreambleMagic
  else do
    let version ← parseN 4 parseByte
    if version ≠ [1, 0, 0, 0] then IP.fail .invalidPreambleVersion
    else parseSections

end Whasm.Iter
