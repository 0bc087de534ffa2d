import Verif.Spec.Typing
import Verif.Model.Context

/-!
# Validity of modules (W3C document, sections 3.2, 3.3.7, 3.4)

Written from the document. The places where the crate departs from the document are parameters, collected in `Rules`; `Rules.w3c` is the
document. Only the result types `External` and `ModuleResult` are taken from the model of the validator.
-/

namespace Whasm.Spec

/-! ## Index spaces (3.4.10) -/

def importedFuncs (m : Module) : List FuncTy := m.imports.filterMap fun i =>
  match i.desc with
  | .func x => m.types[x.toNat]?
  | _ => none

def importedTables (m : Module) : List TableTy := m.imports.filterMap fun i =>
  match i.desc with
  | .table t => some t
  | _ => none

def importedMems (m : Module) : List MemTy := m.imports.filterMap fun i =>
  match i.desc with
  | .mem t => some t
  | _ => none

def importedGlobals (m : Module) : List GlobalTy := m.imports.filterMap fun i =>
  match i.desc with
  | .global t => some t
  | _ => none

def ownGlobals (m : Module) : List GlobalTy := m.globals.map (·.ty)

/-- Types of all functions: imports first. -/
def funcSpace (m : Module) : List FuncTy := importedFuncs m ++ m.funcs.filterMap fun f => m.types[f.ty.toNat]?
def tableSpace (m : Module) : List TableTy := importedTables m ++ m.tables.map (·.ty)
def memSpace (m : Module) : List MemTy := importedMems m ++ m.mems.map (·.ty)
def globalSpace (m : Module) : List GlobalTy := importedGlobals m ++ ownGlobals m

/-! ## Rules -/

/-- Where document and crate differ. -/
structure Rules where
  /-- alignment of memory accesses is checked (3.3.4) -/
  aligned : Bool
  /-- the body of a function can be left by a branch (3.4.1) -/
  funcLabel : Bool
  /-- largest number of pages of a memory (3.2.4) -/
  maxPages : Nat
  /-- globals visible in the initializers of globals (3.4.10) -/
  initGlobals : Module → List GlobalTy
  /-- number of tables and memories that must not exceed 1 (3.4.10) -/
  tableCount : Module → Nat
  memCount : Module → Nat

/-- The document. -/
def Rules.w3c : Rules where
  aligned := true
  funcLabel := true
  maxPages := 65536
  initGlobals := importedGlobals
  tableCount m := (tableSpace m).length
  memCount m := (memSpace m).length

/-- The crate. -/
def Rules.code : Rules where
  aligned := false
  funcLabel := false
  maxPages := 65535
  initGlobals := ownGlobals
  tableCount m := m.tables.length
  memCount m := m.mems.length

/-- The context of a module (3.4.10), without locals, labels and return type. -/
def moduleEnv (R : Rules) (m : Module) : Env where
  types := m.types
  funcs := funcSpace m
  tables := tableSpace m
  mems := memSpace m
  globals := globalSpace m
  aligned := R.aligned

/-- Limits are valid within range `k` (3.2.1). -/
def LimitsOk (k : Nat) (l : Limits) : Prop :=
  l.min.toNat ≤ k ∧ ∀ n, l.max = some n → n.toNat ≤ k ∧ l.min.toNat ≤ n.toNat

/-- Constant expressions of type `t` (3.3.7). -/
def ConstOk (C : Env) (e : Expr) (t : Val) : Prop :=
  ExprType C e [t] ∧ ∀ i ∈ e, (∃ v, i = .constI32 v) ∨ (∃ v, i = .constI64 v) ∨ (∃ v, i = .constF32 v) ∨ (∃ v, i = .constF64 v) ∨
    ∃ x g, i = .globalGet x ∧ C.globals[x.toNat]? = some g ∧ g.mt = .const

/-- Context of the body of a function of type `t` with additional locals `ls` (3.4.1). -/
def bodyEnv (R : Rules) (m : Module) (t : FuncTy) (ls : List Val) : Env :=
  { moduleEnv R m with locals := t.params ++ ls, labels := if R.funcLabel then [t.results] else [], ret := some t.results }

/-- Functions (3.4.1). -/
def FuncOk (R : Rules) (m : Module) (f : Func) : Prop :=
  ∃ t, m.types[f.ty.toNat]? = some t ∧ ExprType (bodyEnv R m t f.locals) f.body t.results

/-- Element segments (3.4.5). -/
def ElemOk (R : Rules) (m : Module) (e : Elem) : Prop :=
  (∃ t, (tableSpace m)[e.table.toNat]? = some t ∧ t.elem = .funcRef) ∧ ConstOk (moduleEnv R m) e.offset .i32 ∧
    ∀ x ∈ e.init, x.toNat < (funcSpace m).length

/-- Data segments (3.4.6). -/
def DataOk (R : Rules) (m : Module) (d : Data) : Prop :=
  d.mem.toNat < (memSpace m).length ∧ ConstOk (moduleEnv R m) d.offset .i32

/-- External type of an import (3.4.9). -/
def importType (m : Module) (i : Import) : Option External :=
  match i.desc with
  | .func x => m.types[x.toNat]?.map .func
  | .table t => some (.table t)
  | .mem t => some (.mem t)
  | .global t => some (.global t)

/-- External type of an export (3.4.8). -/
def exportType (m : Module) (e : Export) : Option External :=
  match e.desc with
  | .func x => (funcSpace m)[x.toNat]?.map .func
  | .table x => (tableSpace m)[x.toNat]?.map .table
  | .mem x => (memSpace m)[x.toNat]?.map .mem
  | .global x => (globalSpace m)[x.toNat]?.map .global

/-- Valid modules (3.4.10): everything but the functions. -/
structure DeclsOk (R : Rules) (m : Module) : Prop where
  types : ∀ t ∈ m.types, t.results.length ≤ 1
  tables : ∀ t ∈ m.tables, LimitsOk (2 ^ 32) t.ty.lim
  mems : ∀ x ∈ m.mems, LimitsOk R.maxPages x.ty.lim
  globals : ∀ g ∈ m.globals, ConstOk { globals := R.initGlobals m, aligned := R.aligned } g.init g.ty.val
  elem : ∀ e ∈ m.elem, ElemOk R m e
  data : ∀ d ∈ m.data, DataOk R m d
  start : ∀ s, m.start = some s → (funcSpace m)[s.func.toNat]? = some ⟨[], []⟩
  imports : ∀ i ∈ m.imports, (importType m i).isSome = true
  importTables : ∀ t ∈ importedTables m, LimitsOk (2 ^ 32) t.lim
  importMems : ∀ t ∈ importedMems m, LimitsOk R.maxPages t.lim
  exports : ∀ e ∈ m.exports, (exportType m e).isSome = true
  oneTable : R.tableCount m ≤ 1
  oneMem : R.memCount m ≤ 1
  names : (m.exports.map (·.name)).Nodup

/-- Valid modules (3.4.10). -/
structure Valid (R : Rules) (m : Module) : Prop extends DeclsOk R m where
  funcs : ∀ f ∈ m.funcs, FuncOk R m f

/-- The types of imports and exports. -/
def externals (m : Module) : ModuleResult where
  imports := m.imports.filterMap (importType m)
  exports := m.exports.filterMap (exportType m)

/-- What the rules see of a validation state: the branch targets are the labels of all frames but the outermost one. -/
def viewOf (c : Ctx) : Env :=
  { types := c.types, funcs := c.funcs, tables := c.tables, mems := c.mems, globals := c.globals, locals := c.locals,
    labels := c.frames.dropLast.map (·.label), ret := c.ret, aligned := false }

end Whasm.Spec
