import Verif.Spec.Validity
import Verif.Spec.Occurs

/-!
# Renumbering the definitions of a module, and removing unused ones
-/

namespace Whasm.Spec

/-- New indices for old ones, by index space. -/
structure Renaming where
  types : Idx → Idx := id
  funcs : Idx → Idx := id
  tables : Idx → Idx := id
  mems : Idx → Idx := id
  globals : Idx → Idx := id

mutual

/-- The instruction with new indices; `loc` is for the locals. Labels stay. -/
def renameI (ρ : Renaming) (loc : Idx → Idx) : Instr → Instr
  | .block t b => .block t (renameL ρ loc b)
  | .loop t b => .loop t (renameL ρ loc b)
  | .ifElse t a b => .ifElse t (renameL ρ loc a) (renameL ρ loc b)
  | .call x => .call (ρ.funcs x)
  | .callIndirect x y => .callIndirect (ρ.types x) (ρ.tables y)
  | .localGet x => .localGet (loc x)
  | .localSet x => .localSet (loc x)
  | .localTee x => .localTee (loc x)
  | .globalGet x => .globalGet (ρ.globals x)
  | .globalSet x => .globalSet (ρ.globals x)
  | .memSize x => .memSize (ρ.mems x)
  | .memGrow x => .memGrow (ρ.mems x)
  | .unreachable => .unreachable
  | .nop => .nop
  | .br l => .br l
  | .brIf l => .brIf l
  | .brTable ls l => .brTable ls l
  | .ret => .ret
  | .drop => .drop
  | .select => .select
  | .load op o a => .load op o a
  | .store op o a => .store op o a
  | .constI32 v => .constI32 v
  | .constI64 v => .constI64 v
  | .constF32 v => .constF32 v
  | .constF64 v => .constF64 v
  | .num op => .num op
  | .elseMark => .elseMark
  | .endMark => .endMark

def renameL (ρ : Renaming) (loc : Idx → Idx) : List Instr → List Instr
  | [] => []
  | i :: is => renameI ρ loc i :: renameL ρ loc is

end

/-- What `x` denotes in `a` is what `f x` denotes in `b`. -/
def SameAt {α : Type} (f : Idx → Idx) (a b : List α) (x : Idx) : Prop := b[(f x).toNat]? = a[x.toNat]?

/-- Each index of the instruction denotes in `C` what the new index denotes in `C'`. Loads and stores refer to memory 0, before and after. -/
def Meets (ρ : Renaming) (loc : Idx → Idx) (C C' : Env) : Instr → Prop
  | .call x => SameAt ρ.funcs C.funcs C'.funcs x
  | .callIndirect x y => SameAt ρ.types C.types C'.types x ∧ SameAt ρ.tables C.tables C'.tables y
  | .localGet x => SameAt loc C.locals C'.locals x
  | .localSet x => SameAt loc C.locals C'.locals x
  | .localTee x => SameAt loc C.locals C'.locals x
  | .globalGet x => SameAt ρ.globals C.globals C'.globals x
  | .globalSet x => SameAt ρ.globals C.globals C'.globals x
  | .memSize x => SameAt ρ.mems C.mems C'.mems x
  | .memGrow x => SameAt ρ.mems C.mems C'.mems x
  | .load _ _ _ => C'.mems[0]? = C.mems[0]?
  | .store _ _ _ => C'.mems[0]? = C.mems[0]?
  | _ => True

/-- `f'` in `m'` is `f` in `m` with other indices. -/
def FuncFrom (ρ : Renaming) (m m' : Module) (f f' : Func) : Prop :=
  ∃ loc : Idx → Idx, f'.ty = ρ.types f.ty ∧ f'.body = renameL ρ loc f.body ∧ SameAt ρ.types m.types m'.types f.ty ∧
    ∀ t, m.types[f.ty.toNat]? = some t → ∀ j, Occurs j f.body →
      Meets ρ loc (bodyEnv .code m t f.locals) (bodyEnv .code m' t f'.locals) j

/-- `e'` is `e` with other indices; `gs` and `gs'` are the globals. -/
def ConstFrom (ρ : Renaming) (gs gs' : List GlobalTy) (e e' : Expr) : Prop :=
  e' = renameL ρ id e ∧ ∀ x, Instr.globalGet x ∈ e → SameAt ρ.globals gs gs' x

def ElemFrom (ρ : Renaming) (m m' : Module) (e e' : Elem) : Prop :=
  e'.table = ρ.tables e.table ∧ SameAt ρ.tables (tableSpace m) (tableSpace m') e.table ∧
    ConstFrom ρ (globalSpace m) (globalSpace m') e.offset e'.offset ∧
    e'.init = e.init.map ρ.funcs ∧ ∀ x ∈ e.init, SameAt ρ.funcs (funcSpace m) (funcSpace m') x

def DataFrom (ρ : Renaming) (m m' : Module) (d d' : Data) : Prop :=
  d'.mem = ρ.mems d.mem ∧ SameAt ρ.mems (memSpace m) (memSpace m') d.mem ∧
    ConstFrom ρ (globalSpace m) (globalSpace m') d.offset d'.offset

/-- The names of the import may change. -/
def ImportFrom (ρ : Renaming) (m m' : Module) (i i' : Import) : Prop :=
  match i.desc with
  | .func x => i'.desc = .func (ρ.types x) ∧ SameAt ρ.types m.types m'.types x
  | d => i'.desc = d

/-- The name of the export may change. -/
def ExportFrom (ρ : Renaming) (m m' : Module) (e e' : Export) : Prop :=
  match e.desc with
  | .func x => e'.desc = .func (ρ.funcs x) ∧ SameAt ρ.funcs (funcSpace m) (funcSpace m') x
  | .table x => e'.desc = .table (ρ.tables x) ∧ SameAt ρ.tables (tableSpace m) (tableSpace m') x
  | .mem x => e'.desc = .mem (ρ.mems x) ∧ SameAt ρ.mems (memSpace m) (memSpace m') x
  | .global x => e'.desc = .global (ρ.globals x) ∧ SameAt ρ.globals (globalSpace m) (globalSpace m') x

/-- Each element of `b` stems from one of `a`. -/
def AllFrom {α : Type} (R : α → α → Prop) (a b : List α) : Prop := ∀ y ∈ b, ∃ x ∈ a, R x y

/-- Each element of `a` can be found in `b`. -/
def AllIn {α : Type} (R : α → α → Prop) (a b : List α) : Prop := ∀ x ∈ a, ∃ y ∈ b, R x y

/-- `g'` is `g` with other indices. The indices in initializers belong to the space of all globals. -/
def GlobalFrom (ρ : Renaming) (m m' : Module) (g g' : Global) : Prop :=
  g'.ty = g.ty ∧ ConstFrom ρ (globalSpace m) (globalSpace m') g.init g'.init

/-- `m'` consists of parts of `m`, with other indices and in any order. -/
structure PartOf (ρ : Renaming) (m m' : Module) : Prop where
  types : AllFrom Eq m.types m'.types
  funcs : AllFrom (FuncFrom ρ m m') m.funcs m'.funcs
  tables : AllFrom Eq m.tables m'.tables
  mems : AllFrom Eq m.mems m'.mems
  globals : AllFrom (GlobalFrom ρ m m') m.globals m'.globals
  elem : AllFrom (ElemFrom ρ m m') m.elem m'.elem
  data : AllFrom (DataFrom ρ m m') m.data m'.data
  start : ∀ s', m'.start = some s' → ∃ s, m.start = some s ∧ s'.func = ρ.funcs s.func ∧ SameAt ρ.funcs (funcSpace m) (funcSpace m') s.func
  imports : AllFrom (ImportFrom ρ m m') m.imports m'.imports
  exports : AllFrom (ExportFrom ρ m m') m.exports m'.exports
  tableCount : m'.tables.length ≤ m.tables.length
  memCount : m'.mems.length ≤ m.mems.length
  names : (m.exports.map (·.name)).Nodup → (m'.exports.map (·.name)).Nodup

/-- `m'` has the same parts as `m`, with other indices and in any order. -/
structure Renumbered (ρ : Renaming) (m m' : Module) : Prop extends PartOf ρ m m' where
  allTypes : AllIn Eq m.types m'.types
  allFuncs : AllIn (FuncFrom ρ m m') m.funcs m'.funcs
  allTables : AllIn Eq m.tables m'.tables
  allMems : AllIn Eq m.mems m'.mems
  allGlobals : AllIn (GlobalFrom ρ m m') m.globals m'.globals
  allElem : AllIn (ElemFrom ρ m m') m.elem m'.elem
  allData : AllIn (DataFrom ρ m m') m.data m'.data
  hasStart : ∀ s, m.start = some s → ∃ s', m'.start = some s' ∧ s'.func = ρ.funcs s.func ∧ SameAt ρ.funcs (funcSpace m) (funcSpace m') s.func
  allImports : AllIn (ImportFrom ρ m m') m.imports m'.imports
  allExports : AllIn (ExportFrom ρ m m') m.exports m'.exports
  sameTableCount : m'.tables.length = m.tables.length
  sameMemCount : m'.mems.length = m.mems.length
  sameNames : (m'.exports.map (·.name)).Nodup → (m.exports.map (·.name)).Nodup

/-- The initializers of globals find the same also if their indices are taken for indices into the list of the module's own globals. This holds
if no initializer reads a global. -/
def InitsAgree (ρ : Renaming) (m m' : Module) : Prop :=
  ∀ g ∈ m.globals, ∀ x, Instr.globalGet x ∈ g.init → SameAt ρ.globals (ownGlobals m) (ownGlobals m') x

/-! ## Removing one definition -/

/-- Indices after the removal of number `n`. -/
def closeUp (n : Nat) (x : Idx) : Idx := if n < x.toNat then x - 1 else x

def isFuncImport (i : Import) : Bool :=
  match i.desc with
  | .func _ => true
  | _ => false

def renameExport (ρ : Renaming) : ExportDesc → ExportDesc
  | .func x => .func (ρ.funcs x)
  | .table x => .table (ρ.tables x)
  | .mem x => .mem (ρ.mems x)
  | .global x => .global (ρ.globals x)

def renameImport (ρ : Renaming) : ImportDesc → ImportDesc
  | .func x => .func (ρ.types x)
  | d => d

/-- All indices of a module replaced, but for those of locals and labels. -/
def renameAll (ρ : Renaming) (m : Module) : Module where
  types := m.types
  funcs := m.funcs.map fun f => { f with ty := ρ.types f.ty, body := renameL ρ id f.body }
  tables := m.tables
  mems := m.mems
  globals := m.globals.map fun g => { g with init := renameL ρ id g.init }
  elem := m.elem.map fun e => ⟨ρ.tables e.table, renameL ρ id e.offset, e.init.map ρ.funcs⟩
  data := m.data.map fun d => { d with mem := ρ.mems d.mem, offset := renameL ρ id d.offset }
  start := m.start.map fun s => ⟨ρ.funcs s.func⟩
  imports := m.imports.map fun i => { i with desc := renameImport ρ i.desc }
  exports := m.exports.map fun e => { e with desc := renameExport ρ e.desc }

/-- The number in the index space of the `k`-th function of the module itself. -/
def funcNumber (m : Module) (k : Nat) : Nat := m.imports.countP isFuncImport + k

/-- The module without its `k`-th function. -/
def dropFunc (m : Module) (k : Nat) : Module :=
  renameAll { funcs := closeUp (funcNumber m k) } { m with funcs := m.funcs.eraseIdx k }

/-- Function number `n` is mentioned nowhere. -/
structure FuncUnused (m : Module) (n : Nat) : Prop where
  calls : ∀ f ∈ m.funcs, ∀ x, Occurs (.call x) f.body → x.toNat ≠ n
  elem : ∀ e ∈ m.elem, ∀ x ∈ e.init, x.toNat ≠ n
  start : ∀ s, m.start = some s → s.func.toNat ≠ n
  exports : ∀ e ∈ m.exports, ∀ x, e.desc = .func x → x.toNat ≠ n

/-- The module without its `n`-th type. -/
def dropType (m : Module) (n : Nat) : Module :=
  renameAll { types := closeUp n } { m with types := m.types.eraseIdx n }

/-- Type number `n` is mentioned nowhere. -/
structure TypeUnused (m : Module) (n : Nat) : Prop where
  funcs : ∀ f ∈ m.funcs, f.ty.toNat ≠ n
  calls : ∀ f ∈ m.funcs, ∀ x y, Occurs (.callIndirect x y) f.body → x.toNat ≠ n
  imports : ∀ i ∈ m.imports, ∀ x, i.desc = .func x → x.toNat ≠ n

end Whasm.Spec
