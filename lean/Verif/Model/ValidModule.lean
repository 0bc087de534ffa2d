import Verif.Model.ValidInstr

/-!
# Validation of modules: `validation/context.rs`, `validation/module.rs`
-/

namespace Whasm

/-- `for x in xs.iter() { f(x)?; }`. -/
def forEach {α : Type} (f : α → V Unit) : List α → V Unit
  | [] => pure ()
  | x :: xs => do
    f x
    forEach f xs

/-- `for x in xs.iter() { let t = f(x)?; result.push(t); }`. -/
def collect {α β : Type} (f : α → V β) : List α → V (List β)
  | [] => pure []
  | x :: xs => do
    let y ← f x
    let ys ← collect f xs
    pure (y :: ys)

/-- `Context::use_types`, `validation/context.rs:18-22`. -/
def useTypes (types : List FuncTy) : V Unit := fun c =>
  .ok ((), { c with types := c.types ++ types })

/-- `Context::use_imported_funcs`, `validation/context.rs:24-32`. -/
def useImportedFuncs : List Import → V Unit :=
  forEach fun i =>
    match i.desc with
    | .func idx => do
      let ty ← validateTypeIdx idx
      fun c => .ok ((), { c with funcs := c.funcs ++ [ty] })
    | _ => pure ()

/-- `Context::use_imported_tables`, `validation/context.rs:34-40`. -/
def useImportedTables : List Import → V Unit :=
  forEach fun i =>
    match i.desc with
    | .table ty => fun c => .ok ((), { c with tables := c.tables ++ [ty] })
    | _ => pure ()

/-- `Context::use_imported_mems`, `validation/context.rs:42-48`. -/
def useImportedMems : List Import → V Unit :=
  forEach fun i =>
    match i.desc with
    | .mem ty => fun c => .ok ((), { c with mems := c.mems ++ [ty] })
    | _ => pure ()

/-- `Context::use_imported_globals`, `validation/context.rs:50-56`. -/
def useImportedGlobals : List Import → V Unit :=
  forEach fun i =>
    match i.desc with
    | .global ty => fun c => .ok ((), { c with globals := c.globals ++ [ty] })
    | _ => pure ()

/-- `Context::use_funcs`, `validation/context.rs:58-64`. -/
def useFuncs : List Func → V Unit :=
  forEach fun f => do
    let ty ← validateTypeIdx f.ty
    fun c => .ok ((), { c with funcs := c.funcs ++ [ty] })

/-- `Context::use_tables`, `validation/context.rs:66-70`. -/
def useTables : List Table → V Unit :=
  forEach fun t => fun c => .ok ((), { c with tables := c.tables ++ [t.ty] })

/-- `Context::use_mems`, `validation/context.rs:72-76`. -/
def useMems : List Mem → V Unit :=
  forEach fun m => fun c => .ok ((), { c with mems := c.mems ++ [m.ty] })

/-- `Context::use_globals`, `validation/context.rs:78-82`. -/
def useGlobals : List Global → V Unit :=
  forEach fun g => fun c => .ok ((), { c with globals := c.globals ++ [g.ty] })

/-- `Context::from`, `validation/context.rs:84-98`; the context built is the final state. -/
def contextFrom (m : Module) : V Unit := do
  useTypes m.types
  useImportedFuncs m.imports
  useImportedTables m.imports
  useImportedMems m.imports
  useImportedGlobals m.imports
  useFuncs m.funcs
  useTables m.tables
  useMems m.mems
  useGlobals m.globals

/-- `if !ctx.stacks.frames.is_empty() || !ctx.stacks.operands.is_empty() { return Err(..) }`. -/
def checkEmpty : V Unit := fun c =>
  if ¬ c.frames.isEmpty ∨ ¬ c.operands.isEmpty then .error .invalid else .ok ((), c)

/-- `module::Func::validate`, `validation/module.rs:95-114`. -/
def validateFunc (f : Func) : V FuncTy := do
  let ty ← validateTypeIdx f.ty
  let ret := ty.results
  (fun c => .ok ((), { c with ret := some ret, locals := ty.params ++ f.locals }) : V Unit)
  pushFrame ret ret
  validateExpr f.body
  let _ ← popFrame
  checkEmpty
  (fun c => .ok ((), { c with locals := [], ret := none }) : V Unit)
  pure ty

/-- `module::Table::validate`, `validation/module.rs:116-122`. -/
def validateTable (t : Table) : V TableTy := do
  validateTableTy t.ty
  pure t.ty

/-- `module::Mem::validate`, `validation/module.rs:124-130`. -/
def validateMem (m : Mem) : V MemTy := do
  validateMemTy m.ty
  pure m.ty

/-- The validation of an initializer or offset `init` of type `ret`: the common part of `module::Global`,
`Elem` and `Data::validate`, `validation/module.rs:138-143, 157-162, 177-182`. -/
def validateInit (ret : List Val) (init : ConstExpr) : V Unit := do
  pushFrame ret ret
  validateConstExpr init
  let _ ← popFrame
  checkEmpty

/-- `module::Global::validate`, `validation/module.rs:132-147`. -/
def validateGlobal (g : Global) : V GlobalTy := do
  validateGlobalTy g.ty
  validateInit [g.ty.val] g.init
  pure g.ty

/-- `module::Elem::validate`, `validation/module.rs:149-170`. -/
def validateElem (e : Elem) : V Unit := do
  let ty ← validateTableIdx e.table
  if ty.elem ≠ .funcRef then V.fail .invalid
  else do
    validateInit [.i32] e.offset
    forEach (fun i => do let _ ← validateFuncIdx i; pure ()) e.init

/-- `module::Data::validate`, `validation/module.rs:172-187`. -/
def validateData (d : Data) : V Unit := do
  let _ ← validateMemIdx d.mem
  validateInit [.i32] d.offset

/-- `module::Start::validate`, `validation/module.rs:189-198`. -/
def validateStart (s : Start) : V Unit := do
  let ty ← validateFuncIdx s.func
  if ty.params ≠ [] ∨ ty.results ≠ [] then V.fail .invalid else pure ()

/-- `module::desc::Import::validate`, `validation/module.rs:200-222`, called by `module::Import::validate`,
`validation/module.rs:248-253`. -/
def validateImport (i : Import) : V External :=
  match i.desc with
  | .func idx => do
    let ty ← validateTypeIdx idx
    pure (.func ty)
  | .table ty => do
    validateTableTy ty
    pure (.table ty)
  | .mem ty => do
    validateMemTy ty
    pure (.mem ty)
  | .global ty => do
    validateGlobalTy ty
    pure (.global ty)

/-- `module::desc::Export::validate`, `validation/module.rs:224-246`, called by `module::Export::validate`,
`validation/module.rs:255-260`. -/
def validateExport (e : Export) : V External :=
  match e.desc with
  | .func idx => do
    let ty ← validateFuncIdx idx
    pure (.func ty)
  | .table idx => do
    let ty ← validateTableIdx idx
    pure (.table ty)
  | .mem idx => do
    let ty ← validateMemIdx idx
    pure (.mem ty)
  | .global idx => do
    let ty ← validateGlobalIdx idx
    pure (.global ty)

/-- `impl Ord for String`: byte-wise lexicographic comparison `a <= b`. -/
def nameLe : Name → Name → Bool
  | [], _ => true
  | _ :: _, [] => false
  | a :: as, b :: bs => if a < b then true else if b < a then false else nameLe as bs

/-- Inserts a name in a sorted list. -/
def insertName (a : Name) : List Name → List Name
  | [] => [a]
  | b :: rest => if nameLe a b then a :: b :: rest else b :: insertName a rest

/-- `Vec::sort`. Which sorting algorithm is used does not matter: the order is total, so the result is determined. -/
def sortNames : List Name → List Name
  | [] => []
  | a :: rest => insertName a (sortNames rest)

/-- `Vec::dedup`: removes consecutive repeated elements. -/
def dedup : List Name → List Name
  | [] => []
  | [a] => [a]
  | a :: b :: rest => if a = b then dedup (b :: rest) else a :: dedup (b :: rest)

/-- Run `f` on another context than the current one (the Rust passes `&mut ctx_globals`). -/
def withCtx {α : Type} (c' : Ctx) (f : V α) : V α := fun c =>
  match f c' with
  | .ok (x, _) => .ok (x, c)
  | .error e => .error e

/-- `Validate for module::Module`, `validation/module.rs:29-93`, after `Context::from`. The context
`ctx_globals` holds the module's *own* globals (lines 33-34); filling it is infallible and is done here right
before its use. -/
def validateModuleBody (m : Module) : V ModuleResult := do
  forEach validateFuncTy m.types
  forEach (fun f => do let _ ← validateFunc f; pure ()) m.funcs
  forEach (fun t => do let _ ← validateTable t; pure ()) m.tables
  forEach (fun x => do let _ ← validateMem x; pure ()) m.mems
  withCtx {} (do
    useGlobals m.globals
    forEach (fun g => do let _ ← validateGlobal g; pure ()) m.globals)
  forEach validateElem m.elem
  forEach validateData m.data
  match m.start with
    | some s => validateStart s
    | none => pure ()
  let imports ← collect validateImport m.imports
  let exports ← collect validateExport m.exports
  if ¬ (m.tables.length ≤ 1) then V.fail .invalid
  else if ¬ (m.mems.length ≤ 1) then V.fail .invalid
  else
    let exportNames := m.exports.map (·.name)
    let exportNames := dedup (sortNames exportNames)
    if exportNames.length ≠ m.exports.length then V.fail .invalid
    else pure { imports := imports, exports := exports }

/-- `Module::validate` (`ValidationEntry`, `validation/module.rs:21-27`, and `Validate`, lines 29-93): starts
from `Context::default()`. -/
def validateModule (m : Module) : Except VErr ModuleResult :=
  match (do contextFrom m; validateModuleBody m : V ModuleResult) {} with
  | .ok (r, _) => .ok r
  | .error e => .error e

end Whasm
