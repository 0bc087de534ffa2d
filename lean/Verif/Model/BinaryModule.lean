import Verif.Model.BinaryInstr

/-!
# Modules: `binary/module.rs`
-/

namespace Whasm

/-- `module::Func::parse`, `binary/module.rs:74-85`; the type index is filled in later. -/
def parseFunc : P Func := do
  let locals ← parseCompactVec parseVal
  let body ← parseExpr
  pure { ty := 0, locals := locals, body := body }

/-- `module::Table::parse`, `binary/module.rs:87-93`. -/
def parseTable : P Table := do
  let ty ← parseTableTy
  pure { ty := ty }

/-- `module::Mem::parse`, `binary/module.rs:95-101`. -/
def parseMem : P Mem := do
  let ty ← parseMemTy
  pure { ty := ty }

/-- `module::Global::parse`, `binary/module.rs:103-110`. -/
def parseGlobal : P Global := do
  let ty ← parseGlobalTy
  let init ← parseConstExpr
  pure { ty := ty, init := init }

/-- `module::Elem::parse`, `binary/module.rs:112-120`. -/
def parseElem : P Elem := do
  let table ← parseIdx
  let offset ← parseConstExpr
  let init ← parseVec parseIdx
  pure { table := table, offset := offset, init := init }

/-- `module::Data::parse`, `binary/module.rs:122-130`. -/
def parseData : P Data := do
  let mem ← parseIdx
  let offset ← parseConstExpr
  let init ← parseUnwrappingVec (fun b : Byte => b) parseByte
  pure { mem := mem, offset := offset, init := init }

/-- `module::Start::parse`, `binary/module.rs:132-138`. -/
def parseStart : P Start := do
  let func ← parseIdx
  pure { func := func }

/-- `module::desc::Import::parse`, `binary/module.rs:140-151`. -/
def parseImportDesc : P ImportDesc := do
  let byte ← parseByte
  match byte.toNat with
  | 0x00 => do let i ← parseIdx; pure (.func i)
  | 0x01 => do let t ← parseTableTy; pure (.table t)
  | 0x02 => do let t ← parseMemTy; pure (.mem t)
  | 0x03 => do let t ← parseGlobalTy; pure (.global t)
  | _ => P.fail (.invalidVariantId byte "module::desc::Import")

/-- `module::desc::Export::parse`, `binary/module.rs:153-164`. -/
def parseExportDesc : P ExportDesc := do
  let byte ← parseByte
  match byte.toNat with
  | 0x00 => do let i ← parseIdx; pure (.func i)
  | 0x01 => do let i ← parseIdx; pure (.table i)
  | 0x02 => do let i ← parseIdx; pure (.mem i)
  | 0x03 => do let i ← parseIdx; pure (.global i)
  | _ => P.fail (.invalidVariantId byte "module::desc::Export")

/-- `module::Import::parse`, `binary/module.rs:166-174`. -/
def parseImport : P Import := do
  let module ← parseString
  let name ← parseString
  let desc ← parseImportDesc
  pure { module := module, name := name, desc := desc }

/-- `module::Export::parse`, `binary/module.rs:176-183`. -/
def parseExport : P Export := do
  let name ← parseString
  let desc ← parseExportDesc
  pure { name := name, desc := desc }

/-- `(String, Consume)::parse`, `binary/module.rs:7-11`: the content of a custom section. -/
def parseCustom : P (Name × Nat) := do
  let name ← parseString
  let n ← parseConsume
  pure (name, n)

/-- `result.funcs[i].ty = func_types[i]`, `binary/module.rs:62`; `none` is the panic of an index out of bounds. -/
def setTy (tys : List Idx) (funcs : List Func) (i : Nat) : Option (List Func) :=
  match funcs[i]?, tys[i]? with
  | some f, some ty => some (funcs.set i { f with ty := ty })
  | _, _ => none

/-- `for i in 0..n { result.funcs[i].ty = func_types[i]; }`, `binary/module.rs:61-63`. -/
def assignTys (tys : List Idx) (n : Nat) (funcs : List Func) : Option (List Func) :=
  (List.range n).foldlM (setTy tys) funcs

/-- The local variables of the loop in `Module::parse`, `binary/module.rs:24-28`. -/
structure LoopState where
  funcTypes : List Idx := []
  result : Module := {}
  lastId : Byte := 0

/-- The `match id` of the loop, `binary/module.rs:42-67`. -/
def parseSection (id : Byte) (st : LoopState) : P LoopState :=
  match id.toNat with
  | 0x00 => do
    let _ ← parseSized parseCustom
    pure st
  | 0x01 => do
    let x ← parseSized (parseVec parseFuncTy)
    pure { st with result := { st.result with types := x } }
  | 0x02 => do
    let x ← parseSized (parseVec parseImport)
    pure { st with result := { st.result with imports := x } }
  | 0x03 => do
    let x ← parseSized (parseVec parseIdx)
    pure { st with funcTypes := x }
  | 0x04 => do
    let x ← parseSized (parseVec parseTable)
    pure { st with result := { st.result with tables := x } }
  | 0x05 => do
    let x ← parseSized (parseVec parseMem)
    pure { st with result := { st.result with mems := x } }
  | 0x06 => do
    let x ← parseSized (parseVec parseGlobal)
    pure { st with result := { st.result with globals := x } }
  | 0x07 => do
    let x ← parseSized (parseVec parseExport)
    pure { st with result := { st.result with exports := x } }
  | 0x08 => do
    let x ← parseSized parseStart
    pure { st with result := { st.result with start := some x } }
  | 0x09 => do
    let x ← parseSized (parseVec parseElem)
    pure { st with result := { st.result with elem := x } }
  | 0x0A => do
    let x ← parseSized (parseUnwrappingVec (fun f : Func => f) (parseSized parseFunc))
    let n := st.funcTypes.length
    if x.length ≠ n then P.fail .unexpectedEndOfFile
    else
      match assignTys st.funcTypes n x with
      | none => P.fail .panic
      | some funcs => pure { st with result := { st.result with funcs := funcs } }
  | 0x0B => do
    let x ← parseSized (parseVec parseData)
    pure { st with result := { st.result with data := x } }
  | _ => P.fail (.invalidSectionId id)

/-- One iteration of the loop, `binary/module.rs:31-67`. -/
def parseIteration (st : LoopState) : P LoopState := do
  let id ← parseByte
  if id ≠ 0x00 then
    if id ≤ st.lastId then P.fail (.unexpectedSectionId id)
    else parseSection id { st with lastId := id }
  else parseSection id st

/-- `while bin.peek().is_some() { ... } Ok(result)`, `binary/module.rs:30-70`, by recursion on fuel. -/
def sectionLoop : Nat → LoopState → P Module
  | 0, _ => P.fail .fuel
  | fuel + 1, st => fun s =>
    match s with
    | [] => (.ok st.result, [])
    | _ :: _ => (do
        let st' ← parseIteration st
        sectionLoop fuel st') s

/-- The loop with enough fuel: every iteration consumes a byte at least. -/
def parseSections : P Module := fun s => sectionLoop (s.length + 1) {} s

/-- `magic != ['\0', 'a', 's', 'm']` with `Byte: PartialEq<char>`, `binary/module.rs:16` and
`binary/core/byte.rs`: a byte equals a char iff it is its code point. -/
def magicChars : List Char := ['\x00', 'a', 's', 'm']

/-- `Module::parse`, `binary/module.rs:13-72`. -/
def parseModule : P Module := do
  let magic ← parseN 4 parseByte
  if magic.map (fun b => b.toNat) ≠ magicChars.map (fun c => c.toNat) then
    P.fail .invalidPreambleMagic
  else do
    let version ← parseN 4 parseByte
    if version ≠ [1, 0, 0, 0] then P.fail .invalidPreambleVersion
    else parseSections

end Whasm
