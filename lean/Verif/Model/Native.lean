import Verif.Model.BinaryModule
import Verif.Model.ValidModule

/-!
# The native stack

The rest of the model has an unlimited native stack. Here the recursive functions of the crate have a bound `stack` on the number of blocks that they are
inside of; one block more and the process is aborted, `Error.panic` or `VErr.panic`. (An abort cannot be caught, a panic can; nothing else in
the crate ends with either, C15 and C32.)

Simplification: the stack is measured in nested blocks, not in bytes. Each level of `block`, `loop` and `if` takes a fixed number of calls: `Instr::parse`,
`Expr::parse` or `IfInstr::parse`, `SubExpr::parse`; `Instr::validate`, `Expr::validate`. Everything that is not recursive is taken to fit.
-/

namespace Whasm

/-- The call of `SubExpr::parse` from within `Instr::parse`, `binary/instr.rs:30-32, 251, 257`, if there is room for it. -/
def nestedOn {α : Type} (stack : Nat) (inner : Nat → P α) : P α :=
  match stack with
  | 0 => P.fail .panic
  | n + 1 => inner n

/-- `SubExpr::parse`, `binary/instr.rs:227-241`: the instructions of the same sequence are read by a loop, those inside of blocks by recursion. -/
def parseSubExprOn : Nat → Nat → P SubExpr
  | 0, _ => P.fail .fuel
  | fuel + 1, stack => do
    let next ← instrOf (nestedOn stack (parseSubExprOn fuel))
    subStep (parseSubExprOn fuel stack) next

/-- `Expr::parse`, `binary/instr.rs:6-14`. -/
def parseExprOn (stack : Nat) : P Expr := fun s => exprOf (parseSubExprOn (s.length + 1) stack) s

/-- `ConstExpr::parse`, `binary/instr.rs:16-21`. -/
def parseConstExprOn (stack : Nat) : P ConstExpr := do
  let e ← parseExprOn stack
  pure e

/-- `module::Func::parse`, `binary/module.rs:74-85`. -/
def parseFuncOn (stack : Nat) : P Func := do
  let locals ← parseCompactVec parseVal
  let body ← parseExprOn stack
  pure { ty := 0, locals := locals, body := body }

/-- `module::Global::parse`, `binary/module.rs:103-110`. -/
def parseGlobalOn (stack : Nat) : P Global := do
  let ty ← parseGlobalTy
  let init ← parseConstExprOn stack
  pure { ty := ty, init := init }

/-- `module::Elem::parse`, `binary/module.rs:112-120`. -/
def parseElemOn (stack : Nat) : P Elem := do
  let table ← parseIdx
  let offset ← parseConstExprOn stack
  let init ← parseVec parseIdx
  pure { table := table, offset := offset, init := init }

/-- `module::Data::parse`, `binary/module.rs:122-130`. -/
def parseDataOn (stack : Nat) : P Data := do
  let mem ← parseIdx
  let offset ← parseConstExprOn stack
  let init ← parseUnwrappingVec (fun b : Byte => b) parseByte
  pure { mem := mem, offset := offset, init := init }

/-- The end of the arm of the code section, `binary/module.rs:55-64`. -/
def withBodies (st : LoopState) (x : List Func) : P LoopState :=
  let n := st.funcTypes.length
  if x.length ≠ n then P.fail .unexpectedEndOfFile
  else
    match assignTys st.funcTypes n x with
    | none => P.fail .panic
    | some funcs => pure { st with result := { st.result with funcs := funcs } }

/-- The `match id` of the loop, `binary/module.rs:42-67`: the four kinds of sections with expressions. -/
def parseSectionOn (stack : Nat) (id : Byte) (st : LoopState) : P LoopState :=
  match id.toNat with
  | 0x06 => do
    let x ← parseSized (parseVec (parseGlobalOn stack))
    pure { st with result := { st.result with globals := x } }
  | 0x09 => do
    let x ← parseSized (parseVec (parseElemOn stack))
    pure { st with result := { st.result with elem := x } }
  | 0x0A => do
    let x ← parseSized (parseUnwrappingVec (fun f : Func => f) (parseSized (parseFuncOn stack)))
    withBodies st x
  | 0x0B => do
    let x ← parseSized (parseVec (parseDataOn stack))
    pure { st with result := { st.result with data := x } }
  | _ => parseSection id st

/-- One iteration of the loop, `binary/module.rs:31-67`. -/
def parseIterationOn (stack : Nat) (st : LoopState) : P LoopState := do
  let id ← parseByte
  if id ≠ 0x00 then
    if id ≤ st.lastId then P.fail (.unexpectedSectionId id)
    else parseSectionOn stack id { st with lastId := id }
  else parseSectionOn stack id st

/-- The loop over the sections, `binary/module.rs:30-70`. -/
def sectionLoopOn (stack : Nat) : Nat → LoopState → P Module
  | 0, _ => P.fail .fuel
  | fuel + 1, st => fun s =>
    match s with
    | [] => (.ok st.result, [])
    | _ :: _ => (do
        let st' ← parseIterationOn stack st
        sectionLoopOn stack fuel st') s

/-- The loop with enough fuel. -/
def parseSectionsOn (stack : Nat) : P Module := fun s => sectionLoopOn stack (s.length + 1) {} s

/-- `Module::parse`, `binary/module.rs:13-72`. -/
def parseModuleOn (stack : Nat) : P Module := do
  let magic ← parseN 4 parseByte
  if magic.map (fun b => b.toNat) ≠ magicChars.map (fun c => c.toNat) then
    P.fail .invalidPreambleMagic
  else do
    let version ← parseN 4 parseByte
    if version ≠ [1, 0, 0, 0] then P.fail .invalidPreambleVersion
    else parseSectionsOn stack

/-! ## Validation -/

/-- The call of `Expr::validate` from within `Instr::validate`, `validation/instr.rs:51-71`, if there is room for it. -/
def nestedV (stack : Nat) (inner : Nat → V Unit) : V Unit :=
  match stack with
  | 0 => V.fail .panic
  | n + 1 => inner n

mutual

/-- `Instr::validate`, `validation/instr.rs:42-761`. -/
def validateInstrOn : Instr → Nat → V Unit
  | .block ret body, stack => do
    let ret ← validateRetVal ret
    pushFrame ret ret
    nestedV stack (validateExprOn body)
    validateEnd
  | .loop ret body, stack => do
    let ret ← validateRetVal ret
    pushFrame [] ret
    nestedV stack (validateExprOn body)
    validateEnd
  | .ifElse ret thn els, stack => do
    let ret ← validateRetVal ret
    popOperands [.i32]
    pushFrame ret ret
    nestedV stack (validateExprOn thn)
    validateElse
    nestedV stack (validateExprOn els)
    validateEnd
  | i, _ => validateInstr i

/-- `Expr::validate`, `validation/instr.rs:5-14`. -/
def validateExprOn : List Instr → Nat → V Unit
  | [], _ => pure ()
  | i :: is, stack => do
    validateInstrOn i stack
    validateExprOn is stack

end

/-- `module::Func::validate`, `validation/module.rs:95-114`. -/
def validateFuncOn (stack : Nat) (f : Func) : V FuncTy := do
  let ty ← validateTypeIdx f.ty
  let ret := ty.results
  (fun c => .ok ((), { c with ret := some ret, locals := ty.params ++ f.locals }) : V Unit)
  pushFrame ret ret
  validateExprOn f.body stack
  let _ ← popFrame
  checkEmpty
  (fun c => .ok ((), { c with locals := [], ret := none }) : V Unit)
  pure ty

/-- `Validate for module::Module`, `validation/module.rs:29-93`. Constant expressions are not validated recursively: anything with a block inside is
rejected before, `validation/instr.rs:21-35`. -/
def validateModuleBodyOn (stack : Nat) (m : Module) : V ModuleResult := do
  forEach validateFuncTy m.types
  forEach (fun f => do let _ ← validateFuncOn stack f; pure ()) m.funcs
  forEach (fun t => do let _ ← validateTable t; pure ()) m.tables
  forEach (fun x => do let _ ← validateMem x; pure ()) m.mems
  withCtx {} (do
    useGlobals m.globals
    forEach (fun g => do let _ ← validateGlobal g; pure ()) m.globals)
  forEach validateElem m.elem
  forEach validateData m.data
  match m.start with
    | some s => validateStart s
    | none => pure ()
  let imports ← collect validateImport m.imports
  let exports ← collect validateExport m.exports
  if ¬ (m.tables.length ≤ 1) then V.fail .invalid
  else if ¬ (m.mems.length ≤ 1) then V.fail .invalid
  else
    let exportNames := m.exports.map (·.name)
    let exportNames := dedup (sortNames exportNames)
    if exportNames.length ≠ m.exports.length then V.fail .invalid
    else pure { imports := imports, exports := exports }

/-- `Module::validate`, `validation/module.rs:21-93`. -/
def validateModuleOn (stack : Nat) (m : Module) : Except VErr ModuleResult :=
  match (do contextFrom m; validateModuleBodyOn stack m : V ModuleResult) {} with
  | .ok (r, _) => .ok r
  | .error e => .error e

end Whasm
