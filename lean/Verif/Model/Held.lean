import Verif.Model.ValidModule

/-!
# Validation on a context that the caller holds

`Validate::validate(&self, ctx: &mut Context)` (`validation/mod.rs:20-24`) is public for every part of a module, and so are `Context`, `Stacks` and their
methods. A caller can validate items one by one against a context of its own, and go on after an error. `Model/Stacks.lean` to `Model/ValidModule.lean` do
not say in which state an error leaves the context, since `Module::validate` throws it away. Here the same Rust functions are modelled once more, with the context
after an error: what was done before the error stays done.

Simplification: fields of the context are not assigned by the caller; it only calls functions. The field `labels` is never used and is omitted.
-/

namespace Whasm.Held

/-- `fn validate(&'a self, ctx: &mut Context<'a>) -> Result<R>`: the result and the context, also after an error. -/
def H (α : Type) : Type := Ctx → Except VErr α × Ctx

namespace H

/-- `Ok(x)`. -/
protected def pure {α : Type} (x : α) : H α := fun c => (.ok x, c)

/-- The `?` operator. -/
protected def bind {α β : Type} (p : H α) (f : α → H β) : H β := fun c =>
  match p c with
  | (.ok x, c') => f x c'
  | (.error e, c') => (.error e, c')

/-- `return Err(e)`. -/
def fail {α : Type} (e : VErr) : H α := fun c => (.error e, c)

instance : Monad H where
  pure := H.pure
  bind := H.bind

/-- Read access to the context. -/
def get : H Ctx := fun c => (.ok c, c)

/-- Replace the context. -/
def set (c : Ctx) : H Unit := fun _ => (.ok (), c)

/-- Change the context. -/
def modify (f : Ctx → Ctx) : H Unit := fun c => (.ok (), f c)

end H

/-- `Stacks::push_operand`, `validation/stacks.rs:33-35`. -/
def pushOperand (op : Operand) : H Unit := H.modify fun c =>
  { c with operands := op :: c.operands }

/-- `Stacks::pop_operand`, `validation/stacks.rs:37-52`. An operand of the wrong type has been popped when the error is returned. -/
def popOperand (op : Operand) : H Operand := fun c =>
  match c.frames with
  | [] => (.error .invalid, c)
  | frame :: _ =>
    if c.operands.length = frame.height ∧ frame.unreachable = true then (.ok op, c)
    else if c.operands.length = frame.height then (.error .invalid, c)
    else
      match c.operands with
      | [] => (.error .panic, c)
      | val :: rest =>
        match val, op with
        | .unknown, _ => (.ok op, { c with operands := rest })
        | _, .unknown => (.ok val, { c with operands := rest })
        | _, _ => if val = op then (.ok val, { c with operands := rest }) else (.error .invalid, { c with operands := rest })

/-- `Stacks::push_operands`, `validation/stacks.rs:54-58`. -/
def pushOperands : List Val → H Unit
  | [] => pure ()
  | v :: vs => do
    pushOperand (.val v)
    pushOperands vs

/-- The loop of `Stacks::pop_operands` over the already reversed list. -/
def popReversed : List Val → H Unit
  | [] => pure ()
  | v :: vs => do
    let _ ← popOperand (.val v)
    popReversed vs

/-- `Stacks::pop_operands`, `validation/stacks.rs:60-65`. -/
def popOperands (ops : List Val) : H Unit := popReversed ops.reverse

/-- `Stacks::push_frame`, `validation/stacks.rs:67-74`. -/
def pushFrame (label out : List Val) : H Unit := H.modify fun c =>
  { c with frames := { label := label, out := out, height := c.operands.length, unreachable := false } :: c.frames }

/-- `Stacks::pop_frame`, `validation/stacks.rs:76-86`. -/
def popFrame : H (List Val) := do
  let c ← H.get
  match c.frames with
  | [] => H.fail .invalid
  | frame :: _ => do
    let out := frame.out
    let height := frame.height
    popOperands out
    let c ← H.get
    if c.operands.length ≠ height then H.fail .invalid
    else
      match c.frames with
      | [] => H.fail .invalid
      | _ :: rest => do
        H.set { c with frames := rest }
        pure out

/-- `Stacks::unreachable`, `validation/stacks.rs:88-94`. `truncate(height)` keeps the `height` elements at
the bottom of the stack. -/
def setUnreachable : H Unit := fun c =>
  match c.frames with
  | [] => (.error .invalid, c)
  | frame :: rest =>
    (.ok (), { c with
      operands := c.operands.drop (c.operands.length - frame.height)
      frames := { frame with unreachable := true } :: rest })

/-- The common body of `validate` for `idx::Type`, `Func`, `Table`, `Mem`, `Global`, `Local`,
`validation/idx.rs:4-68`: bounds check, then indexing (which panics out of bounds). -/
def lookup {α : Type} (l : List α) (i : Idx) : H α := fun c =>
  if i.toNat ≥ l.length then (.error .invalid, c)
  else
    match l[i.toNat]? with
    | some x => (.ok x, c)
    | none => (.error .panic, c)

/-- `idx::Type::validate`, `validation/idx.rs:4-13`. -/
def validateTypeIdx (i : Idx) : H FuncTy := fun c => lookup c.types i c
/-- `idx::Func::validate`, `validation/idx.rs:15-24`. -/
def validateFuncIdx (i : Idx) : H FuncTy := fun c => lookup c.funcs i c
/-- `idx::Table::validate`, `validation/idx.rs:26-35`. -/
def validateTableIdx (i : Idx) : H TableTy := fun c => lookup c.tables i c
/-- `idx::Mem::validate`, `validation/idx.rs:37-46`. -/
def validateMemIdx (i : Idx) : H MemTy := fun c => lookup c.mems i c
/-- `idx::Global::validate`, `validation/idx.rs:48-57`. -/
def validateGlobalIdx (i : Idx) : H GlobalTy := fun c => lookup c.globals i c
/-- `idx::Local::validate`, `validation/idx.rs:59-68`. -/
def validateLocalIdx (i : Idx) : H Val := fun c => lookup c.locals i c

/-- `idx::Label::validate`, `validation/idx.rs:70-83`. `usize` is unbounded here, so `idx + 1` does not
overflow (it cannot on 64-bit targets). The `Vec` of frames, bottom first, is the reverse of our list. A negative
`len - idx - 1` or an index out of bounds would panic. -/
def validateLabel (i : Idx) : H Frame := fun c =>
  let idx := i.toNat
  let len := c.frames.length
  if ¬ (idx + 1 < len) then (.error .invalid, c)
  else if len < idx + 1 then (.error .panic, c)
  else
    match c.frames.reverse[len - idx - 1]? with
    | some f => (.ok f, c)
    | none => (.error .panic, c)

/-- `ty::Limits::validate`, `validation/ty.rs:4-14`. -/
def validateLimits (l : Limits) : H U32 :=
  let max := l.max.getD l.min
  if ¬ (l.min ≤ max) then H.fail .invalid else pure max

/-- `ty::Func::validate`, `validation/ty.rs:16-24`. -/
def validateFuncTy (t : FuncTy) : H Unit :=
  if ¬ (t.results.length ≤ 1) then H.fail .invalid else pure ()

/-- `ty::Table::validate`, `validation/ty.rs:26-35`. -/
def validateTableTy (t : TableTy) : H Unit := do
  let range ← validateLimits t.lim
  if ¬ (range ≤ BitVec.ofNat 32 (2^32 - 1)) then H.fail .invalid else pure ()

/-- `ty::Mem::validate`, `validation/ty.rs:37-46`: the bound is `u16::MAX`. -/
def validateMemTy (t : MemTy) : H Unit := do
  let range ← validateLimits t.lim
  if ¬ (range ≤ BitVec.ofNat 32 (2^16 - 1)) then H.fail .invalid else pure ()

/-- `ty::Global::validate`, `validation/ty.rs:48-53`. -/
def validateGlobalTy (_ : GlobalTy) : H Unit := pure ()

/-- `ty::RetVal::validate`, `validation/ty.rs:55-60`. -/
def validateRetVal (r : RetVal) : H (List Val) := pure r

/-- `validate_load`, `validation/instr.rs:763-773`: the alignment check is commented out in the source. -/
def validateLoad (_align : U32) (_size : Nat) (val : Val) : H Unit := do
  let _ ← validateMemIdx 0
  popOperands [.i32]
  pushOperands [val]

/-- `validate_store`, `validation/instr.rs:775-784`. -/
def validateStore (_align : U32) (_size : Nat) (val : Val) : H Unit := do
  let _ ← validateMemIdx 0
  popOperands [.i32, val]

/-- The match arm of `Instr::Else`, `validation/instr.rs:72-75`. -/
def validateElse : H Unit := do
  let ret ← popFrame
  pushFrame ret ret

/-- The match arm of `Instr::End`, `validation/instr.rs:77-80`. -/
def validateEnd : H Unit := do
  let ret ← popFrame
  pushOperands ret

/-- The loop over the labels of `br_table`, `validation/instr.rs:94-99`. -/
def validateLabels (label : List Val) : List Idx → H Unit
  | [] => pure ()
  | l :: ls => do
    let frm ← validateLabel l
    if label ≠ frm.label then H.fail .invalid
    else validateLabels label ls

mutual

/-- `Instr::validate`, `validation/instr.rs:42-761`. -/
def validateInstr : Instr → H Unit
  | .unreachable => setUnreachable
  | .nop => pure ()
  | .block ret body => do
    let ret ← validateRetVal ret
    pushFrame ret ret
    validateExpr body
    validateEnd
  | .loop ret body => do
    let ret ← validateRetVal ret
    pushFrame [] ret
    validateExpr body
    validateEnd
  | .ifElse ret thn els => do
    let ret ← validateRetVal ret
    popOperands [.i32]
    pushFrame ret ret
    validateExpr thn
    validateElse
    validateExpr els
    validateEnd
  | .elseMark => validateElse
  | .endMark => validateEnd
  | .br l => do
    let frame ← validateLabel l
    popOperands frame.label
    setUnreachable
  | .brIf l => do
    let frame ← validateLabel l
    popOperands [.i32]
    popOperands frame.label
    pushOperands frame.label
  | .brTable ls l => do
    let frame ← validateLabel l
    validateLabels frame.label ls
    popOperands [.i32]
    popOperands frame.label
    setUnreachable
  | .ret => do
    let c ← H.get
    match c.ret with
    | none => H.fail .invalid
    | some ret => do
      popOperands ret
      setUnreachable
  | .call f => do
    let func ← validateFuncIdx f
    popOperands func.params
    pushOperands func.results
  | .callIndirect ty table => do
    let table ← validateTableIdx table
    let func ← validateTypeIdx ty
    if table.elem ≠ .funcRef then H.fail .invalid
    else do
      popOperands [.i32]
      popOperands func.params
      pushOperands func.results
  | .drop => do
    let _ ← popOperand .unknown
    pure ()
  | .select => do
    popOperands [.i32]
    let t1 ← popOperand .unknown
    let t2 ← popOperand t1
    pushOperand t2
  | .localGet i => do
    let ty ← validateLocalIdx i
    pushOperands [ty]
  | .localSet i => do
    let ty ← validateLocalIdx i
    popOperands [ty]
  | .localTee i => do
    let ty ← validateLocalIdx i
    popOperands [ty]
    pushOperands [ty]
  | .globalGet i => do
    let ty ← validateGlobalIdx i
    pushOperands [ty.val]
  | .globalSet i => do
    let ty ← validateGlobalIdx i
    if ty.mt ≠ .var then H.fail .invalid
    else popOperands [ty.val]
  | .load op _offset align => validateLoad align (loadSig op).1 (loadSig op).2
  | .store op _offset align => validateStore align (storeSig op).1 (storeSig op).2
  | .memSize m => do
    let _ ← validateMemIdx m
    pushOperands [.i32]
  | .memGrow m => do
    let _ ← validateMemIdx m
    popOperands [.i32]
    pushOperands [.i32]
  | .constI32 _ => pushOperands [.i32]
  | .constI64 _ => pushOperands [.i64]
  | .constF32 _ => pushOperands [.f32]
  | .constF64 _ => pushOperands [.f64]
  | .num op => do
    popOperands (numSig op).1
    pushOperands (numSig op).2

/-- `Expr::validate`, `validation/instr.rs:5-14`. -/
def validateExpr : List Instr → H Unit
  | [] => pure ()
  | i :: is => do
    validateInstr i
    validateExpr is

end

/-- The check made before each instruction of a constant expression, `validation/instr.rs:21-35`. -/
def validateConstCheck : Instr → H Unit
  | .constI32 _ => pure ()
  | .constI64 _ => pure ()
  | .constF32 _ => pure ()
  | .constF64 _ => pure ()
  | .globalGet i => do
    let ty ← validateGlobalIdx i
    if ty.mt ≠ .const then H.fail .invalid else pure ()
  | _ => H.fail .invalid

/-- `ConstExpr::validate`, `validation/instr.rs:16-40`. -/
def validateConstExpr : List Instr → H Unit
  | [] => pure ()
  | i :: is => do
    validateConstCheck i
    validateInstr i
    validateConstExpr is

/-- `for x in xs.iter() { f(x)?; }`. -/
def forEach {α : Type} (f : α → H Unit) : List α → H Unit
  | [] => pure ()
  | x :: xs => do
    f x
    forEach f xs

/-- `for x in xs.iter() { let t = f(x)?; result.push(t); }`. -/
def collect {α β : Type} (f : α → H β) : List α → H (List β)
  | [] => pure []
  | x :: xs => do
    let y ← f x
    let ys ← collect f xs
    pure (y :: ys)

/-- `Context::use_types`, `validation/context.rs:18-22`. -/
def useTypes (types : List FuncTy) : H Unit := H.modify fun c =>
  { c with types := c.types ++ types }

/-- `Context::use_imported_funcs`, `validation/context.rs:24-32`. -/
def useImportedFuncs : List Import → H Unit :=
  forEach fun i =>
    match i.desc with
    | .func idx => do
      let ty ← validateTypeIdx idx
      H.modify fun c => { c with funcs := c.funcs ++ [ty] }
    | _ => pure ()

/-- `Context::use_imported_tables`, `validation/context.rs:34-40`. -/
def useImportedTables : List Import → H Unit :=
  forEach fun i =>
    match i.desc with
    | .table ty => H.modify fun c => { c with tables := c.tables ++ [ty] }
    | _ => pure ()

/-- `Context::use_imported_mems`, `validation/context.rs:42-48`. -/
def useImportedMems : List Import → H Unit :=
  forEach fun i =>
    match i.desc with
    | .mem ty => H.modify fun c => { c with mems := c.mems ++ [ty] }
    | _ => pure ()

/-- `Context::use_imported_globals`, `validation/context.rs:50-56`. -/
def useImportedGlobals : List Import → H Unit :=
  forEach fun i =>
    match i.desc with
    | .global ty => H.modify fun c => { c with globals := c.globals ++ [ty] }
    | _ => pure ()

/-- `Context::use_funcs`, `validation/context.rs:58-64`. -/
def useFuncs : List Func → H Unit :=
  forEach fun f => do
    let ty ← validateTypeIdx f.ty
    H.modify fun c => { c with funcs := c.funcs ++ [ty] }

/-- `Context::use_tables`, `validation/context.rs:66-70`. -/
def useTables : List Table → H Unit :=
  forEach fun t => H.modify fun c => { c with tables := c.tables ++ [t.ty] }

/-- `Context::use_mems`, `validation/context.rs:72-76`. -/
def useMems : List Mem → H Unit :=
  forEach fun m => H.modify fun c => { c with mems := c.mems ++ [m.ty] }

/-- `Context::use_globals`, `validation/context.rs:78-82`. -/
def useGlobals : List Global → H Unit :=
  forEach fun g => H.modify fun c => { c with globals := c.globals ++ [g.ty] }

/-- `Context::from`, `validation/context.rs:84-98`; the context built is the final state. -/
def contextFrom (m : Module) : H Unit := do
  useTypes m.types
  useImportedFuncs m.imports
  useImportedTables m.imports
  useImportedMems m.imports
  useImportedGlobals m.imports
  useFuncs m.funcs
  useTables m.tables
  useMems m.mems
  useGlobals m.globals

/-- `if !ctx.stacks.frames.is_empty() || !ctx.stacks.operands.is_empty() { return Err(..) }`. -/
def checkEmpty : H Unit := fun c =>
  if ¬ c.frames.isEmpty ∨ ¬ c.operands.isEmpty then (.error .invalid, c) else (.ok (), c)

/-- `module::Func::validate`, `validation/module.rs:95-114`. -/
def validateFunc (f : Func) : H FuncTy := do
  let ty ← validateTypeIdx f.ty
  let ret := ty.results
  H.modify fun c => { c with ret := some ret, locals := ty.params ++ f.locals }
  pushFrame ret ret
  validateExpr f.body
  let _ ← popFrame
  checkEmpty
  H.modify fun c => { c with locals := [], ret := none }
  pure ty

/-- `module::Table::validate`, `validation/module.rs:116-122`. -/
def validateTable (t : Table) : H TableTy := do
  validateTableTy t.ty
  pure t.ty

/-- `module::Mem::validate`, `validation/module.rs:124-130`. -/
def validateMem (m : Mem) : H MemTy := do
  validateMemTy m.ty
  pure m.ty

/-- The validation of an initializer or offset `init` of type `ret`: the common part of `module::Global`,
`Elem` and `Data::validate`, `validation/module.rs:138-143, 157-162, 177-182`. -/
def validateInit (ret : List Val) (init : ConstExpr) : H Unit := do
  pushFrame ret ret
  validateConstExpr init
  let _ ← popFrame
  checkEmpty

/-- `module::Global::validate`, `validation/module.rs:132-147`. -/
def validateGlobal (g : Global) : H GlobalTy := do
  validateGlobalTy g.ty
  validateInit [g.ty.val] g.init
  pure g.ty

/-- `module::Elem::validate`, `validation/module.rs:149-170`. -/
def validateElem (e : Elem) : H Unit := do
  let ty ← validateTableIdx e.table
  if ty.elem ≠ .funcRef then H.fail .invalid
  else do
    validateInit [.i32] e.offset
    forEach (fun i => do let _ ← validateFuncIdx i; pure ()) e.init

/-- `module::Data::validate`, `validation/module.rs:172-187`. -/
def validateData (d : Data) : H Unit := do
  let _ ← validateMemIdx d.mem
  validateInit [.i32] d.offset

/-- `module::Start::validate`, `validation/module.rs:189-198`. -/
def validateStart (s : Start) : H Unit := do
  let ty ← validateFuncIdx s.func
  if ty.params ≠ [] ∨ ty.results ≠ [] then H.fail .invalid else pure ()

/-- `module::desc::Import::validate`, `validation/module.rs:200-222`, called by `module::Import::validate`,
`validation/module.rs:248-253`. -/
def validateImport (i : Import) : H External :=
  match i.desc with
  | .func idx => do
    let ty ← validateTypeIdx idx
    pure (.func ty)
  | .table ty => do
    validateTableTy ty
    pure (.table ty)
  | .mem ty => do
    validateMemTy ty
    pure (.mem ty)
  | .global ty => do
    validateGlobalTy ty
    pure (.global ty)

/-- `module::desc::Export::validate`, `validation/module.rs:224-246`, called by `module::Export::validate`,
`validation/module.rs:255-260`. -/
def validateExport (e : Export) : H External :=
  match e.desc with
  | .func idx => do
    let ty ← validateFuncIdx idx
    pure (.func ty)
  | .table idx => do
    let ty ← validateTableIdx idx
    pure (.table ty)
  | .mem idx => do
    let ty ← validateMemIdx idx
    pure (.mem ty)
  | .global idx => do
    let ty ← validateGlobalIdx idx
    pure (.global ty)

/-- Run `f` on another context than the current one (the Rust passes `&mut ctx_globals`). -/
def withCtx {α : Type} (c' : Ctx) (f : H α) : H α := fun c =>
  match f c' with
  | (r, _) => (r, c)

/-- `Validate for module::Module`, `validation/module.rs:29-93`, after `Context::from`. The context
`ctx_globals` holds the module's *own* globals (lines 33-34); filling it is infallible and is done here right
before its use. -/
def validateModuleBody (m : Module) : H ModuleResult := do
  forEach validateFuncTy m.types
  forEach (fun f => do let _ ← validateFunc f; pure ()) m.funcs
  forEach (fun t => do let _ ← validateTable t; pure ()) m.tables
  forEach (fun x => do let _ ← validateMem x; pure ()) m.mems
  withCtx {} (do
    useGlobals m.globals
    forEach (fun g => do let _ ← validateGlobal g; pure ()) m.globals)
  forEach validateElem m.elem
  forEach validateData m.data
  match m.start with
    | some s => validateStart s
    | none => pure ()
  let imports ← collect validateImport m.imports
  let exports ← collect validateExport m.exports
  if ¬ (m.tables.length ≤ 1) then H.fail .invalid
  else if ¬ (m.mems.length ≤ 1) then H.fail .invalid
  else
    let exportNames := m.exports.map (·.name)
    let exportNames := dedup (sortNames exportNames)
    if exportNames.length ≠ m.exports.length then H.fail .invalid
    else pure { imports := imports, exports := exports }

/-- `<Module as Validate>::validate`, `validation/module.rs:29-93`: the context that is passed is not used (`_ctx`). -/
def validateModuleIn (m : Module) : H ModuleResult := withCtx {} (do contextFrom m; validateModuleBody m)

/-- `Module::validate` (`ValidationEntry`, `validation/module.rs:21-27`). -/
def validateModule (m : Module) : Except VErr ModuleResult := (validateModuleIn m {}).1

/-! ## What a caller can do with a context -/

/-- The calls of `Validate::validate` on parts of modules, `validation/{idx,ty,instr,module}.rs`. -/
inductive Item where
  | typeIdx (i : Idx)
  | funcIdx (i : Idx)
  | tableIdx (i : Idx)
  | memIdx (i : Idx)
  | globalIdx (i : Idx)
  | localIdx (i : Idx)
  | label (i : Idx)
  | limits (t : Limits)
  | funcTy (t : FuncTy)
  | tableTy (t : TableTy)
  | memTy (t : MemTy)
  | globalTy (t : GlobalTy)
  | retVal (t : RetVal)
  | instr (i : Instr)
  | expr (e : Expr)
  | constExpr (e : ConstExpr)
  | func (f : Func)
  | table (t : Table)
  | mem (m : Mem)
  | global (g : Global)
  | elem (e : Elem)
  | data (d : Data)
  | start (s : Start)
  | import (i : Import)
  | export (e : Export)
  | module (m : Module)

/-- The result is dropped: `Ok(_)`. -/
def drop {α : Type} (p : H α) : H Unit := do
  let _ ← p
  pure ()

/-- `item.validate(&mut ctx)`. -/
def Item.validate : Item → H Unit
  | .typeIdx i => drop (validateTypeIdx i)
  | .funcIdx i => drop (validateFuncIdx i)
  | .tableIdx i => drop (validateTableIdx i)
  | .memIdx i => drop (validateMemIdx i)
  | .globalIdx i => drop (validateGlobalIdx i)
  | .localIdx i => drop (validateLocalIdx i)
  | .label i => drop (validateLabel i)
  | .limits t => drop (validateLimits t)
  | .funcTy t => validateFuncTy t
  | .tableTy t => validateTableTy t
  | .memTy t => validateMemTy t
  | .globalTy t => validateGlobalTy t
  | .retVal t => drop (validateRetVal t)
  | .instr i => validateInstr i
  | .expr e => validateExpr e
  | .constExpr e => validateConstExpr e
  | .func f => drop (validateFunc f)
  | .table t => drop (validateTable t)
  | .mem m => drop (validateMem m)
  | .global g => drop (validateGlobal g)
  | .elem e => validateElem e
  | .data d => validateData d
  | .start s => validateStart s
  | .import i => drop (validateImport i)
  | .export e => drop (validateExport e)
  | .module m => drop (validateModuleIn m)

/-- The public functions that take a `&mut Context` or `&mut Stacks`. -/
inductive Call where
  | validate (x : Item)
  | pushOperand (op : Operand)
  | popOperand (op : Operand)
  | pushOperands (ops : List Val)
  | popOperands (ops : List Val)
  | pushFrame (label out : List Val)
  | popFrame
  | unreachable
  | useTypes (types : List FuncTy)
  | useImportedFuncs (imports : List Import)
  | useImportedTables (imports : List Import)
  | useImportedMems (imports : List Import)
  | useImportedGlobals (imports : List Import)
  | useFuncs (funcs : List Func)
  | useTables (tables : List Table)
  | useMems (mems : List Mem)
  | useGlobals (globals : List Global)

/-- The effect of a call; its result is only whether it succeeded. -/
def Call.run : Call → H Unit
  | .validate x => x.validate
  | .pushOperand op => Held.pushOperand op
  | .popOperand op => drop (Held.popOperand op)
  | .pushOperands ops => Held.pushOperands ops
  | .popOperands ops => Held.popOperands ops
  | .pushFrame label out => Held.pushFrame label out
  | .popFrame => drop Held.popFrame
  | .unreachable => setUnreachable
  | .useTypes l => Held.useTypes l
  | .useImportedFuncs l => Held.useImportedFuncs l
  | .useImportedTables l => Held.useImportedTables l
  | .useImportedMems l => Held.useImportedMems l
  | .useImportedGlobals l => Held.useImportedGlobals l
  | .useFuncs l => Held.useFuncs l
  | .useTables l => Held.useTables l
  | .useMems l => Held.useMems l
  | .useGlobals l => Held.useGlobals l

/-- One call after the other, whether they fail or not: their results, and the context at the end. -/
def runAll : List Call → Ctx → List (Except VErr Unit) × Ctx
  | [], c => ([], c)
  | k :: ks, c =>
    match k.run c with
    | (r, c') =>
      match runAll ks c' with
      | (rs, c'') => (r :: rs, c'')

/-- `Context::from(&module)`, `validation/context.rs:84-98`. -/
def contextOf (m : Module) : Except VErr Ctx :=
  match contextFrom m {} with
  | (.ok _, c) => .ok c
  | (.error e, _) => .error e

end Whasm.Held
