import Verif.Model.Kinds
import Verif.Model.Memory
import Verif.Model.Message
import Verif.Model.Width

/-!
# Validation with limited memory

The validator once more, with `usize` of a given width as in `Model/Width.lean`, and now with the memory that its vectors need. `entries k` is the number of entries that a vector of kind `k` can have: one more is a panic
(`capacity overflow`, if the number of bytes exceeds `isize::MAX`) or the abort of the process (if the allocator has no more), both `VErr.panic` here. The vectors that grow by `push` are those of
the context except the local variables: for these `entries k` is how many entries they can get in this way, see `Spec.pushRoom`. The local variables and the names of exports are collected from
iterators that know their length, and the results are made by `Vec::with_capacity`: for these it is how many entries fit into memory.

Simplifications: what a vector was given is not taken from others, so the memory is not limited as a whole. The buffer of `export_names.sort()`, `validation/module.rs:78`, which has no more entries than the
names, is not counted.
-/

namespace Whasm.Room

/-- What a computer and a build have to do with the result: the width of `usize`, what overflow does, how many elements the vectors of the parser and how many entries those of the validator can have. -/
structure Computer where
  bits : Nat
  build : Build
  parts : Kind → Nat
  entries : Entry → Nat

section
variable (C : Computer)

/-- A vector of kind `k` that gets `n` entries. -/
def reserve (k : Entry) (n : Nat) : V Unit := fun c => if n ≤ C.entries k then .ok ((), c) else .error .panic

/-- `Stacks::push_operand`, `validation/stacks.rs:33-35`. -/
def pushOperand (op : Operand) : V Unit := fun c =>
  if c.operands.length + 1 ≤ C.entries .operands then Whasm.pushOperand op c else .error .panic

/-- `Stacks::push_operands`, `validation/stacks.rs:54-58`. -/
def pushOperands : List Val → V Unit
  | [] => pure ()
  | v :: vs => do
    pushOperand C (.val v)
    pushOperands vs

/-- `Stacks::push_frame`, `validation/stacks.rs:67-74`. -/
def pushFrame (label out : List Val) : V Unit := fun c =>
  if c.frames.length + 1 ≤ C.entries .frames then Whasm.pushFrame label out c else .error .panic

/-- `validate_load`, `validation/instr.rs:763-773`. -/
def validateLoad (_align : U32) (_size : Nat) (val : Val) : V Unit := do
  let _ ← validateMemIdx 0
  popOperands [.i32]
  pushOperands C [val]

/-- The match arm of `Instr::Else`, `validation/instr.rs:72-75`. -/
def validateElse : V Unit := do
  let ret ← popFrame
  pushFrame C ret ret

/-- The match arm of `Instr::End`, `validation/instr.rs:77-80`. -/
def validateEnd : V Unit := do
  let ret ← popFrame
  pushOperands C ret

mutual

/-- `Instr::validate`, `validation/instr.rs:42-761`. -/
def validateInstr : Instr → V Unit
  | .unreachable => setUnreachable
  | .nop => pure ()
  | .block ret body => do
    let ret ← validateRetVal ret
    pushFrame C ret ret
    validateExpr body
    validateEnd C
  | .loop ret body => do
    let ret ← validateRetVal ret
    pushFrame C [] ret
    validateExpr body
    validateEnd C
  | .ifElse ret thn els => do
    let ret ← validateRetVal ret
    popOperands [.i32]
    pushFrame C ret ret
    validateExpr thn
    validateElse C
    validateExpr els
    validateEnd C
  | .elseMark => validateElse C
  | .endMark => validateEnd C
  | .br l => do
    let frame ← validateLabelOn C.bits C.build l
    popOperands frame.label
    setUnreachable
  | .brIf l => do
    let frame ← validateLabelOn C.bits C.build l
    popOperands [.i32]
    popOperands frame.label
    pushOperands C frame.label
  | .brTable ls l => do
    let frame ← validateLabelOn C.bits C.build l
    Width.validateLabels C.bits C.build frame.label ls
    popOperands [.i32]
    popOperands frame.label
    setUnreachable
  | .ret => do
    let c ← V.get
    match c.ret with
    | none => V.fail .invalid
    | some ret => do
      popOperands ret
      setUnreachable
  | .call f => do
    let func ← validateFuncIdx f
    popOperands func.params
    pushOperands C func.results
  | .callIndirect ty table => do
    let table ← validateTableIdx table
    let func ← validateTypeIdx ty
    if table.elem ≠ .funcRef then V.fail .invalid
    else do
      popOperands [.i32]
      popOperands func.params
      pushOperands C func.results
  | .drop => do
    let _ ← popOperand .unknown
    pure ()
  | .select => do
    popOperands [.i32]
    let t1 ← popOperand .unknown
    let t2 ← popOperand t1
    pushOperand C t2
  | .localGet i => do
    let ty ← validateLocalIdx i
    pushOperands C [ty]
  | .localSet i => do
    let ty ← validateLocalIdx i
    popOperands [ty]
  | .localTee i => do
    let ty ← validateLocalIdx i
    popOperands [ty]
    pushOperands C [ty]
  | .globalGet i => do
    let ty ← validateGlobalIdx i
    pushOperands C [ty.val]
  | .globalSet i => do
    let ty ← validateGlobalIdx i
    if ty.mt ≠ .var then V.fail .invalid
    else popOperands [ty.val]
  | .load op _offset align => validateLoad C align (loadSig op).1 (loadSig op).2
  | .store op _offset align => validateStore align (storeSig op).1 (storeSig op).2
  | .memSize m => do
    let _ ← validateMemIdx m
    pushOperands C [.i32]
  | .memGrow m => do
    let _ ← validateMemIdx m
    popOperands [.i32]
    pushOperands C [.i32]
  | .constI32 _ => pushOperands C [.i32]
  | .constI64 _ => pushOperands C [.i64]
  | .constF32 _ => pushOperands C [.f32]
  | .constF64 _ => pushOperands C [.f64]
  | .num op => do
    popOperands (numSig op).1
    pushOperands C (numSig op).2

/-- `Expr::validate`, `validation/instr.rs:5-14`. -/
def validateExpr : List Instr → V Unit
  | [] => pure ()
  | i :: is => do
    validateInstr i
    validateExpr is

end

/-- `ConstExpr::validate`, `validation/instr.rs:16-40`. -/
def validateConstExpr : List Instr → V Unit
  | [] => pure ()
  | i :: is => do
    validateConstCheck i
    validateInstr C i
    validateConstExpr is

/-- `self.types.push(..)` and so on, `validation/context.rs`: `len` is the length of the vector of kind `k` so far. -/
def push (k : Entry) (len : Ctx → Nat) (p : V Unit) : V Unit := fun c =>
  if len c + 1 ≤ C.entries k then p c else .error .panic

/-- `Context::use_types`, `validation/context.rs:18-22`. -/
def useTypes : List FuncTy → V Unit :=
  forEach fun t => push C .types (·.types.length) fun c => .ok ((), { c with types := c.types ++ [t] })

/-- `Context::use_imported_funcs`, `validation/context.rs:24-32`. -/
def useImportedFuncs : List Import → V Unit :=
  forEach fun i =>
    match i.desc with
    | .func idx => do
      let ty ← validateTypeIdx idx
      push C .funcs (·.funcs.length) fun c => .ok ((), { c with funcs := c.funcs ++ [ty] })
    | _ => pure ()

/-- `Context::use_imported_tables`, `validation/context.rs:34-40`. -/
def useImportedTables : List Import → V Unit :=
  forEach fun i =>
    match i.desc with
    | .table ty => push C .tables (·.tables.length) fun c => .ok ((), { c with tables := c.tables ++ [ty] })
    | _ => pure ()

/-- `Context::use_imported_mems`, `validation/context.rs:42-48`. -/
def useImportedMems : List Import → V Unit :=
  forEach fun i =>
    match i.desc with
    | .mem ty => push C .mems (·.mems.length) fun c => .ok ((), { c with mems := c.mems ++ [ty] })
    | _ => pure ()

/-- `Context::use_imported_globals`, `validation/context.rs:50-56`. -/
def useImportedGlobals : List Import → V Unit :=
  forEach fun i =>
    match i.desc with
    | .global ty => push C .globals (·.globals.length) fun c => .ok ((), { c with globals := c.globals ++ [ty] })
    | _ => pure ()

/-- `Context::use_funcs`, `validation/context.rs:58-64`. -/
def useFuncs : List Func → V Unit :=
  forEach fun f => do
    let ty ← validateTypeIdx f.ty
    push C .funcs (·.funcs.length) fun c => .ok ((), { c with funcs := c.funcs ++ [ty] })

/-- `Context::use_tables`, `validation/context.rs:66-70`. -/
def useTables : List Table → V Unit :=
  forEach fun t => push C .tables (·.tables.length) fun c => .ok ((), { c with tables := c.tables ++ [t.ty] })

/-- `Context::use_mems`, `validation/context.rs:72-76`. -/
def useMems : List Mem → V Unit :=
  forEach fun m => push C .mems (·.mems.length) fun c => .ok ((), { c with mems := c.mems ++ [m.ty] })

/-- `Context::use_globals`, `validation/context.rs:78-82`. -/
def useGlobals : List Global → V Unit :=
  forEach fun g => push C .globals (·.globals.length) fun c => .ok ((), { c with globals := c.globals ++ [g.ty] })

/-- `Context::from`, `validation/context.rs:84-98`; the context built is the final state. -/
def contextFrom (m : Module) : V Unit := do
  useTypes C m.types
  useImportedFuncs C m.imports
  useImportedTables C m.imports
  useImportedMems C m.imports
  useImportedGlobals C m.imports
  useFuncs C m.funcs
  useTables C m.tables
  useMems C m.mems
  useGlobals C m.globals

/-- `module::Func::validate`, `validation/module.rs:95-114`. -/
def validateFunc (f : Func) : V FuncTy := do
  let ty ← validateTypeIdx f.ty
  let ret := ty.results
  reserve C .locals (ty.params.length + f.locals.length)
  (fun c => .ok ((), { c with ret := some ret, locals := ty.params ++ f.locals }) : V Unit)
  pushFrame C ret ret
  validateExpr C f.body
  let _ ← popFrame
  checkEmpty
  (fun c => .ok ((), { c with locals := [], ret := none }) : V Unit)
  pure ty

/-- The validation of an initializer or offset `init` of type `ret`, `validation/module.rs:138-143, 157-162, 177-182`. -/
def validateInit (ret : List Val) (init : ConstExpr) : V Unit := do
  pushFrame C ret ret
  validateConstExpr C init
  let _ ← popFrame
  checkEmpty

/-- `module::Global::validate`, `validation/module.rs:132-147`. -/
def validateGlobal (g : Global) : V GlobalTy := do
  validateGlobalTy g.ty
  validateInit C [g.ty.val] g.init
  pure g.ty

/-- `module::Elem::validate`, `validation/module.rs:149-170`. -/
def validateElem (e : Elem) : V Unit := do
  let ty ← validateTableIdx e.table
  if ty.elem ≠ .funcRef then V.fail .invalid
  else do
    validateInit C [.i32] e.offset
    forEach (fun i => do let _ ← validateFuncIdx i; pure ()) e.init

/-- `module::Data::validate`, `validation/module.rs:172-187`. -/
def validateData (d : Data) : V Unit := do
  let _ ← validateMemIdx d.mem
  validateInit C [.i32] d.offset

/-- `Validate for module::Module`, `validation/module.rs:29-93`, after `Context::from`. The context `ctx_globals` is filled here as in lines 33-34, and filled again where it is used. -/
def validateModuleBody (m : Module) : V ModuleResult := do
  withCtx {} (useGlobals C m.globals)
  forEach validateFuncTy m.types
  forEach (fun f => do let _ ← validateFunc C f; pure ()) m.funcs
  forEach (fun t => do let _ ← validateTable t; pure ()) m.tables
  forEach (fun x => do let _ ← validateMem x; pure ()) m.mems
  withCtx {} (do
    useGlobals C m.globals
    forEach (fun g => do let _ ← validateGlobal C g; pure ()) m.globals)
  forEach (validateElem C) m.elem
  forEach (validateData C) m.data
  match m.start with
    | some s => validateStart s
    | none => pure ()
  reserve C .externals m.imports.length
  let imports ← collect validateImport m.imports
  reserve C .externals m.exports.length
  let exports ← collect validateExport m.exports
  if ¬ (m.tables.length ≤ 1) then V.fail .invalid
  else if ¬ (m.mems.length ≤ 1) then V.fail .invalid
  else do
    reserve C .names m.exports.length
    let exportNames := m.exports.map (·.name)
    let exportNames := dedup (sortNames exportNames)
    if exportNames.length ≠ m.exports.length then V.fail .invalid
    else pure { imports := imports, exports := exports }

/-- `Module::validate`, `validation/module.rs:21-93`. -/
def validateModule (m : Module) : Except VErr ModuleResult :=
  match (do contextFrom C m; validateModuleBody C m : V ModuleResult) {} with
  | .ok (r, _) => .ok r
  | .error e => .error e

/-- `main`, `parser/src/main.rs:6-49`, as `mainRun` in `Model/Message.lean`. `none`: the process ends by a panic or is aborted, for lack of memory or by arithmetic overflow in validation.
The memory for the contents of the file and for messages is not limited. -/
def mainRun (args : List String) (fs : String → FileResult) : Option Run :=
  match configNew args with
  | none => some (Whasm.mainRun args fs)
  | some config =>
    match fs config.filename with
    | .contents buffer =>
      match (Memory.parseModule C.parts buffer).out.1 with
      | .error .panic => none
      | .error err => some ⟨[text "Error parsing file \"" ++ config.filename.toList ++ text "\".", err.display], none, 1⟩
      | .ok module =>
        match validateModule C module with
        | .error .panic => none
        | .error err => some ⟨[text "Error validating file \"" ++ config.filename.toList ++ text "\".", err.display], none, 1⟩
        | .ok _ => some ⟨[], if config.print then some module else none, 0⟩
    | _ => some (Whasm.mainRun args fs)

end

end Whasm.Room
