import Verif.Model.Target
import Verif.Model.ValidModule

/-!
# Validation with `usize` of a given width

As in `Model/ValidInstr.lean` and `Model/ValidModule.lean`, with the arithmetic on labels (`validation/idx.rs:70-83`) in `usize` of `w` bits. The other numbers of type `usize`
in validation are lengths of vectors that exist and indices below them (`validation/idx.rs:10-68`, `validation/stacks.rs`), and `u32` converted to `usize`: these fit into 32 bits.
-/

namespace Whasm.Width

/-- The loop over the labels of `br_table`, `validation/instr.rs:94-99`. -/
def validateLabels (w : Nat) (build : Build) (label : List Val) : List Idx → V Unit
  | [] => pure ()
  | l :: ls => do
    let frm ← validateLabelOn w build l
    if label ≠ frm.label then V.fail .invalid
    else validateLabels w build label ls

mutual

/-- `Instr::validate`, `validation/instr.rs:42-761`. -/
def validateInstr (w : Nat) (build : Build) : Instr → V Unit
  | .block ret body => do
    let ret ← validateRetVal ret
    pushFrame ret ret
    validateExpr w build body
    validateEnd
  | .loop ret body => do
    let ret ← validateRetVal ret
    pushFrame [] ret
    validateExpr w build body
    validateEnd
  | .ifElse ret thn els => do
    let ret ← validateRetVal ret
    popOperands [.i32]
    pushFrame ret ret
    validateExpr w build thn
    validateElse
    validateExpr w build els
    validateEnd
  | .br l => do
    let frame ← validateLabelOn w build l
    popOperands frame.label
    setUnreachable
  | .brIf l => do
    let frame ← validateLabelOn w build l
    popOperands [.i32]
    popOperands frame.label
    pushOperands frame.label
  | .brTable ls l => do
    let frame ← validateLabelOn w build l
    validateLabels w build frame.label ls
    popOperands [.i32]
    popOperands frame.label
    setUnreachable
  | i => Whasm.validateInstr i

/-- `Expr::validate`, `validation/instr.rs:5-14`. -/
def validateExpr (w : Nat) (build : Build) : List Instr → V Unit
  | [] => pure ()
  | i :: is => do
    validateInstr w build i
    validateExpr w build is

end

/-- `module::Func::validate`, `validation/module.rs:95-114`. -/
def validateFunc (w : Nat) (build : Build) (f : Func) : V FuncTy := do
  let ty ← validateTypeIdx f.ty
  let ret := ty.results
  (fun c => .ok ((), { c with ret := some ret, locals := ty.params ++ f.locals }) : V Unit)
  pushFrame ret ret
  validateExpr w build f.body
  let _ ← popFrame
  checkEmpty
  (fun c => .ok ((), { c with locals := [], ret := none }) : V Unit)
  pure ty

/-- `Validate for module::Module`, `validation/module.rs:29-93`. There are no labels in constant expressions: an instruction that has one is rejected before it is validated,
`validation/instr.rs:21-35`. -/
def validateModuleBody (w : Nat) (build : Build) (m : Module) : V ModuleResult := do
  forEach validateFuncTy m.types
  forEach (fun f => do let _ ← validateFunc w build f; pure ()) m.funcs
  forEach (fun t => do let _ ← validateTable t; pure ()) m.tables
  forEach (fun x => do let _ ← validateMem x; pure ()) m.mems
  withCtx {} (do
    useGlobals m.globals
    forEach (fun g => do let _ ← validateGlobal g; pure ()) m.globals)
  forEach validateElem m.elem
  forEach validateData m.data
  match m.start with
    | some s => validateStart s
    | none => pure ()
  let imports ← collect validateImport m.imports
  let exports ← collect validateExport m.exports
  if ¬ (m.tables.length ≤ 1) then V.fail .invalid
  else if ¬ (m.mems.length ≤ 1) then V.fail .invalid
  else
    let exportNames := m.exports.map (·.name)
    let exportNames := dedup (sortNames exportNames)
    if exportNames.length ≠ m.exports.length then V.fail .invalid
    else pure { imports := imports, exports := exports }

/-- `Module::validate`, `validation/module.rs:21-93`. -/
def validateModule (w : Nat) (build : Build) (m : Module) : Except VErr ModuleResult :=
  match (do contextFrom m; validateModuleBody w build m : V ModuleResult) {} with
  | .ok (r, _) => .ok r
  | .error e => .error e

end Whasm.Width
