import Verif.Model.ValidModule

/-!
# Validation with its cost

The functions of `Model/Stacks.lean` to `Model/ValidModule.lean` once more, now counting steps and measuring the context. A *step* is: one operand pushed or popped,
one frame pushed or popped, one look at an index, label or type, one `truncate`, one comparison of two values, one local entered in the context, one
instruction or other item visited. The *peak* is the largest number of entries that the vectors of the context have together at any time.

Simplifications: collecting, sorting and comparing the names of exports is counted as one step for each export (`slice::sort` is outside of the crate); `Vec::push` is one step although it may
reallocate (amortised constant). The vectors `imports` and `exports` of the result are not part of the context.
-/

namespace Whasm.Meter

/-- A result, the steps done, and the largest context on the way. -/
structure Run (α : Type) where
  out : Except VErr (α × Ctx)
  steps : Nat
  peak : Nat

/-- Entries in the vectors of a context, `validation/context.rs:4-15`, `validation/stacks.rs:26-30`. -/
def entries (c : Ctx) : Nat :=
  c.types.length + c.funcs.length + c.tables.length + c.mems.length + c.globals.length + c.locals.length + c.operands.length + c.frames.length

/-- A validation step with its cost. -/
def T (α : Type) : Type := Ctx → Run α

namespace T

/-- `Ok(x)`. -/
protected def pure {α : Type} (x : α) : T α := fun c => ⟨.ok (x, c), 0, 0⟩

/-- The `?` operator. -/
protected def bind {α β : Type} (p : T α) (f : α → T β) : T β := fun c =>
  match p c with
  | ⟨.ok (x, c'), n, h⟩ => ⟨(f x c').out, n + (f x c').steps, max h (f x c').peak⟩
  | ⟨.error e, n, h⟩ => ⟨.error e, n, h⟩

instance : Monad T where
  pure := T.pure
  bind := T.bind

/-- `return Err(e)`. -/
def fail {α : Type} (e : VErr) : T α := fun _ => ⟨.error e, 0, 0⟩

/-- Read access to the context. -/
def get : T Ctx := fun c => ⟨.ok (c, c), 0, 0⟩

end T

/-- `v` does `n` steps. -/
def op {α : Type} (n : Nat) (v : V α) : T α := fun c => ⟨v c, n, match v c with | .ok (_, c') => entries c' | .error _ => 0⟩

/-- `n` steps that do not change the context. -/
def tick (n : Nat) : T Unit := op n (pure ())

/-- `Stacks::push_operand`, `validation/stacks.rs:33-35`. -/
def pushOperand (x : Operand) : T Unit := op 1 (Whasm.pushOperand x)

/-- `Stacks::pop_operand`, `validation/stacks.rs:37-52`. -/
def popOperand (x : Operand) : T Operand := op 1 (Whasm.popOperand x)

/-- `Stacks::push_operands`, `validation/stacks.rs:54-58`. -/
def pushOperands : List Val → T Unit
  | [] => pure ()
  | v :: vs => do
    pushOperand (.val v)
    pushOperands vs

/-- The loop of `Stacks::pop_operands` over the already reversed list. -/
def popReversed : List Val → T Unit
  | [] => pure ()
  | v :: vs => do
    let _ ← popOperand (.val v)
    popReversed vs

/-- `Stacks::pop_operands`, `validation/stacks.rs:60-65`. -/
def popOperands (ops : List Val) : T Unit := popReversed ops.reverse

/-- `Stacks::push_frame`, `validation/stacks.rs:67-74`. -/
def pushFrame (label out : List Val) : T Unit := op 1 (Whasm.pushFrame label out)

/-- `Stacks::pop_frame`, `validation/stacks.rs:76-86`. -/
def popFrame : T (List Val) := do
  let c ← T.get
  match c.frames with
  | [] => T.fail .invalid
  | frame :: _ => do
    let out := frame.out
    let height := frame.height
    popOperands out
    let c ← T.get
    if c.operands.length ≠ height then T.fail .invalid
    else
      match c.frames with
      | [] => T.fail .invalid
      | _ :: rest => do
        op 1 (V.set { c with frames := rest })
        pure out

/-- `Stacks::unreachable`, `validation/stacks.rs:88-94`; truncating a vector of `Copy` values is one step. -/
def setUnreachable : T Unit := op 1 Whasm.setUnreachable

/-- `idx::Type::validate`, `validation/idx.rs:4-13`. -/
def validateTypeIdx (i : Idx) : T FuncTy := op 1 (Whasm.validateTypeIdx i)
/-- `idx::Func::validate`, `validation/idx.rs:15-24`. -/
def validateFuncIdx (i : Idx) : T FuncTy := op 1 (Whasm.validateFuncIdx i)
/-- `idx::Table::validate`, `validation/idx.rs:26-35`. -/
def validateTableIdx (i : Idx) : T TableTy := op 1 (Whasm.validateTableIdx i)
/-- `idx::Mem::validate`, `validation/idx.rs:37-46`. -/
def validateMemIdx (i : Idx) : T MemTy := op 1 (Whasm.validateMemIdx i)
/-- `idx::Global::validate`, `validation/idx.rs:48-57`. -/
def validateGlobalIdx (i : Idx) : T GlobalTy := op 1 (Whasm.validateGlobalIdx i)
/-- `idx::Local::validate`, `validation/idx.rs:59-68`. -/
def validateLocalIdx (i : Idx) : T Val := op 1 (Whasm.validateLocalIdx i)
/-- `idx::Label::validate`, `validation/idx.rs:70-83`. -/
def validateLabel (i : Idx) : T Frame := op 1 (Whasm.validateLabel i)
/-- `ty::Func::validate`, `validation/ty.rs:16-24`. -/
def validateFuncTy (t : FuncTy) : T Unit := op 1 (Whasm.validateFuncTy t)
/-- `ty::Table::validate`, `validation/ty.rs:26-35`. -/
def validateTableTy (t : TableTy) : T Unit := op 1 (Whasm.validateTableTy t)
/-- `ty::Mem::validate`, `validation/ty.rs:37-46`. -/
def validateMemTy (t : MemTy) : T Unit := op 1 (Whasm.validateMemTy t)
/-- `ty::Global::validate`, `validation/ty.rs:48-53`. -/
def validateGlobalTy (t : GlobalTy) : T Unit := op 1 (Whasm.validateGlobalTy t)
/-- `ty::RetVal::validate`, `validation/ty.rs:55-60`. -/
def validateRetVal (r : RetVal) : T (List Val) := op 1 (Whasm.validateRetVal r)

/-- `validate_load`, `validation/instr.rs:763-773`: the alignment check is commented out in the source. -/
def validateLoad (_align : U32) (_size : Nat) (val : Val) : T Unit := do
  let _ ← validateMemIdx 0
  popOperands [.i32]
  pushOperands [val]

/-- `validate_store`, `validation/instr.rs:775-784`. -/
def validateStore (_align : U32) (_size : Nat) (val : Val) : T Unit := do
  let _ ← validateMemIdx 0
  popOperands [.i32, val]

/-- The match arm of `Instr::Else`, `validation/instr.rs:72-75`. -/
def validateElse : T Unit := do
  let ret ← popFrame
  pushFrame ret ret

/-- The match arm of `Instr::End`, `validation/instr.rs:77-80`. -/
def validateEnd : T Unit := do
  let ret ← popFrame
  pushOperands ret

/-- The loop over the labels of `br_table`, `validation/instr.rs:94-99`: comparing two slices takes at most one step per element. -/
def validateLabels (label : List Val) : List Idx → T Unit
  | [] => pure ()
  | l :: ls => do
    let frm ← validateLabel l
    tick label.length
    if label ≠ frm.label then T.fail .invalid
    else validateLabels label ls

mutual

/-- `Instr::validate`, `validation/instr.rs:42-761`. -/
def validateInstr : Instr → T Unit
  | .unreachable => setUnreachable
  | .nop => pure ()
  | .block ret body => do
    let ret ← validateRetVal ret
    pushFrame ret ret
    validateExpr body
    validateEnd
  | .loop ret body => do
    let ret ← validateRetVal ret
    pushFrame [] ret
    validateExpr body
    validateEnd
  | .ifElse ret thn els => do
    let ret ← validateRetVal ret
    popOperands [.i32]
    pushFrame ret ret
    validateExpr thn
    validateElse
    validateExpr els
    validateEnd
  | .elseMark => validateElse
  | .endMark => validateEnd
  | .br l => do
    let frame ← validateLabel l
    popOperands frame.label
    setUnreachable
  | .brIf l => do
    let frame ← validateLabel l
    popOperands [.i32]
    popOperands frame.label
    pushOperands frame.label
  | .brTable ls l => do
    let frame ← validateLabel l
    validateLabels frame.label ls
    popOperands [.i32]
    popOperands frame.label
    setUnreachable
  | .ret => do
    let c ← T.get
    match c.ret with
    | none => T.fail .invalid
    | some ret => do
      popOperands ret
      setUnreachable
  | .call f => do
    let func ← validateFuncIdx f
    popOperands func.params
    pushOperands func.results
  | .callIndirect ty table => do
    let table ← validateTableIdx table
    let func ← validateTypeIdx ty
    if table.elem ≠ .funcRef then T.fail .invalid
    else do
      popOperands [.i32]
      popOperands func.params
      pushOperands func.results
  | .drop => do
    let _ ← popOperand .unknown
    pure ()
  | .select => do
    popOperands [.i32]
    let t1 ← popOperand .unknown
    let t2 ← popOperand t1
    pushOperand t2
  | .localGet i => do
    let ty ← validateLocalIdx i
    pushOperands [ty]
  | .localSet i => do
    let ty ← validateLocalIdx i
    popOperands [ty]
  | .localTee i => do
    let ty ← validateLocalIdx i
    popOperands [ty]
    pushOperands [ty]
  | .globalGet i => do
    let ty ← validateGlobalIdx i
    pushOperands [ty.val]
  | .globalSet i => do
    let ty ← validateGlobalIdx i
    if ty.mt ≠ .var then T.fail .invalid
    else popOperands [ty.val]
  | .load op _offset align => validateLoad align (loadSig op).1 (loadSig op).2
  | .store op _offset align => validateStore align (storeSig op).1 (storeSig op).2
  | .memSize m => do
    let _ ← validateMemIdx m
    pushOperands [.i32]
  | .memGrow m => do
    let _ ← validateMemIdx m
    popOperands [.i32]
    pushOperands [.i32]
  | .constI32 _ => pushOperands [.i32]
  | .constI64 _ => pushOperands [.i64]
  | .constF32 _ => pushOperands [.f32]
  | .constF64 _ => pushOperands [.f64]
  | .num op => do
    popOperands (numSig op).1
    pushOperands (numSig op).2

/-- `Expr::validate`, `validation/instr.rs:5-14`. -/
def validateExpr : List Instr → T Unit
  | [] => pure ()
  | i :: is => do
    tick 1
    validateInstr i
    validateExpr is

end

/-- The check made before each instruction of a constant expression, `validation/instr.rs:21-35`. -/
def validateConstCheck : Instr → T Unit
  | .constI32 _ => pure ()
  | .constI64 _ => pure ()
  | .constF32 _ => pure ()
  | .constF64 _ => pure ()
  | .globalGet i => do
    let ty ← validateGlobalIdx i
    if ty.mt ≠ .const then T.fail .invalid else pure ()
  | _ => T.fail .invalid

/-- `ConstExpr::validate`, `validation/instr.rs:16-40`. -/
def validateConstExpr : List Instr → T Unit
  | [] => pure ()
  | i :: is => do
    tick 1
    validateConstCheck i
    validateInstr i
    validateConstExpr is

/-- `for x in xs.iter() { f(x)?; }`. -/
def forEach {α : Type} (f : α → T Unit) : List α → T Unit
  | [] => pure ()
  | x :: xs => do
    f x
    forEach f xs

/-- `for x in xs.iter() { let t = f(x)?; result.push(t); }`. -/
def collect {α β : Type} (f : α → T β) : List α → T (List β)
  | [] => pure []
  | x :: xs => do
    let y ← f x
    let ys ← collect f xs
    pure (y :: ys)

/-- `Context::use_types`, `validation/context.rs:18-22`. -/
def useTypes (types : List FuncTy) : T Unit := op types.length fun c =>
  .ok ((), { c with types := c.types ++ types })

/-- `Context::use_imported_funcs`, `validation/context.rs:24-32`. -/
def useImportedFuncs : List Import → T Unit :=
  forEach fun i =>
    match i.desc with
    | .func idx => do
      let ty ← validateTypeIdx idx
      op 1 fun c => .ok ((), { c with funcs := c.funcs ++ [ty] })
    | _ => tick 1

/-- `Context::use_imported_tables`, `validation/context.rs:34-40`. -/
def useImportedTables : List Import → T Unit :=
  forEach fun i =>
    match i.desc with
    | .table ty => op 1 fun c => .ok ((), { c with tables := c.tables ++ [ty] })
    | _ => tick 1

/-- `Context::use_imported_mems`, `validation/context.rs:42-48`. -/
def useImportedMems : List Import → T Unit :=
  forEach fun i =>
    match i.desc with
    | .mem ty => op 1 fun c => .ok ((), { c with mems := c.mems ++ [ty] })
    | _ => tick 1

/-- `Context::use_imported_globals`, `validation/context.rs:50-56`. -/
def useImportedGlobals : List Import → T Unit :=
  forEach fun i =>
    match i.desc with
    | .global ty => op 1 fun c => .ok ((), { c with globals := c.globals ++ [ty] })
    | _ => tick 1

/-- `Context::use_funcs`, `validation/context.rs:58-64`. -/
def useFuncs : List Func → T Unit :=
  forEach fun f => do
    let ty ← validateTypeIdx f.ty
    op 1 fun c => .ok ((), { c with funcs := c.funcs ++ [ty] })

/-- `Context::use_tables`, `validation/context.rs:66-70`. -/
def useTables : List Table → T Unit :=
  forEach fun t => op 1 fun c => .ok ((), { c with tables := c.tables ++ [t.ty] })

/-- `Context::use_mems`, `validation/context.rs:72-76`. -/
def useMems : List Mem → T Unit :=
  forEach fun m => op 1 fun c => .ok ((), { c with mems := c.mems ++ [m.ty] })

/-- `Context::use_globals`, `validation/context.rs:78-82`. -/
def useGlobals : List Global → T Unit :=
  forEach fun g => op 1 fun c => .ok ((), { c with globals := c.globals ++ [g.ty] })

/-- `Context::from`, `validation/context.rs:84-98`; the context built is the final state. -/
def contextFrom (m : Module) : T Unit := do
  useTypes m.types
  useImportedFuncs m.imports
  useImportedTables m.imports
  useImportedMems m.imports
  useImportedGlobals m.imports
  useFuncs m.funcs
  useTables m.tables
  useMems m.mems
  useGlobals m.globals

/-- `if !ctx.stacks.frames.is_empty() || !ctx.stacks.operands.is_empty() { return Err(..) }`. -/
def checkEmpty : T Unit := op 1 Whasm.checkEmpty

/-- `module::Func::validate`, `validation/module.rs:95-114`. -/
def validateFunc (f : Func) : T FuncTy := do
  let ty ← validateTypeIdx f.ty
  let ret := ty.results
  op (ty.params.length + f.locals.length) fun c => .ok ((), { c with ret := some ret, locals := ty.params ++ f.locals })
  pushFrame ret ret
  validateExpr f.body
  let _ ← popFrame
  checkEmpty
  op 1 fun c => .ok ((), { c with locals := [], ret := none })
  pure ty

/-- `module::Table::validate`, `validation/module.rs:116-122`. -/
def validateTable (t : Table) : T TableTy := do
  validateTableTy t.ty
  pure t.ty

/-- `module::Mem::validate`, `validation/module.rs:124-130`. -/
def validateMem (m : Mem) : T MemTy := do
  validateMemTy m.ty
  pure m.ty

/-- The validation of an initializer or offset `init` of type `ret`: the common part of `module::Global`,
`Elem` and `Data::validate`, `validation/module.rs:138-143, 157-162, 177-182`. -/
def validateInit (ret : List Val) (init : ConstExpr) : T Unit := do
  pushFrame ret ret
  validateConstExpr init
  let _ ← popFrame
  checkEmpty

/-- `module::Global::validate`, `validation/module.rs:132-147`. -/
def validateGlobal (g : Global) : T GlobalTy := do
  validateGlobalTy g.ty
  validateInit [g.ty.val] g.init
  pure g.ty

/-- `module::Elem::validate`, `validation/module.rs:149-170`. -/
def validateElem (e : Elem) : T Unit := do
  let ty ← validateTableIdx e.table
  if ty.elem ≠ .funcRef then T.fail .invalid
  else do
    validateInit [.i32] e.offset
    forEach (fun i => do let _ ← validateFuncIdx i; pure ()) e.init

/-- `module::Data::validate`, `validation/module.rs:172-187`. -/
def validateData (d : Data) : T Unit := do
  let _ ← validateMemIdx d.mem
  validateInit [.i32] d.offset

/-- `module::Start::validate`, `validation/module.rs:189-198`. -/
def validateStart (s : Start) : T Unit := do
  let ty ← validateFuncIdx s.func
  if ty.params ≠ [] ∨ ty.results ≠ [] then T.fail .invalid else pure ()

/-- `module::desc::Import::validate`, `validation/module.rs:200-222`, called by `module::Import::validate`,
`validation/module.rs:248-253`. -/
def validateImport (i : Import) : T External :=
  match i.desc with
  | .func idx => do
    let ty ← validateTypeIdx idx
    pure (.func ty)
  | .table ty => do
    validateTableTy ty
    pure (.table ty)
  | .mem ty => do
    validateMemTy ty
    pure (.mem ty)
  | .global ty => do
    validateGlobalTy ty
    pure (.global ty)

/-- `module::desc::Export::validate`, `validation/module.rs:224-246`, called by `module::Export::validate`,
`validation/module.rs:255-260`. -/
def validateExport (e : Export) : T External :=
  match e.desc with
  | .func idx => do
    let ty ← validateFuncIdx idx
    pure (.func ty)
  | .table idx => do
    let ty ← validateTableIdx idx
    pure (.table ty)
  | .mem idx => do
    let ty ← validateMemIdx idx
    pure (.mem ty)
  | .global idx => do
    let ty ← validateGlobalIdx idx
    pure (.global ty)

/-- Run `f` on another context than the current one (the Rust passes `&mut ctx_globals`); both exist meanwhile. -/
def withCtx {α : Type} (c' : Ctx) (f : T α) : T α := fun c =>
  match f c' with
  | ⟨.ok (x, _), n, h⟩ => ⟨.ok (x, c), n, entries c + h⟩
  | ⟨.error e, n, h⟩ => ⟨.error e, n, entries c + h⟩

/-- `Validate for module::Module`, `validation/module.rs:29-93`, after `Context::from`. The context
`ctx_globals` holds the module's *own* globals (lines 33-34); filling it is infallible and is done here right
before its use; its steps are counted at the beginning, its entries while it is used. -/
def validateModuleBody (m : Module) : T ModuleResult := do
  tick m.globals.length
  forEach validateFuncTy m.types
  forEach (fun f => do let _ ← validateFunc f; pure ()) m.funcs
  forEach (fun t => do let _ ← validateTable t; pure ()) m.tables
  forEach (fun x => do let _ ← validateMem x; pure ()) m.mems
  withCtx { globals := m.globals.map (·.ty) } (forEach (fun g => do let _ ← validateGlobal g; pure ()) m.globals)
  forEach validateElem m.elem
  forEach validateData m.data
  match m.start with
    | some s => validateStart s
    | none => pure ()
  let imports ← collect validateImport m.imports
  let exports ← collect validateExport m.exports
  if ¬ (m.tables.length ≤ 1) then T.fail .invalid
  else if ¬ (m.mems.length ≤ 1) then T.fail .invalid
  else
    tick m.exports.length
    let exportNames := m.exports.map (·.name)
    let exportNames := dedup (sortNames exportNames)
    if exportNames.length ≠ m.exports.length then T.fail .invalid
    else pure { imports := imports, exports := exports }

/-- `Module::validate` (`ValidationEntry`, `validation/module.rs:21-27`, and `Validate`, lines 29-93): starts
from `Context::default()`. -/
def validateModule (m : Module) : Run ModuleResult := (do contextFrom m; validateModuleBody m : T ModuleResult) {}

end Whasm.Meter
