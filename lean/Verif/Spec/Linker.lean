import Verif.Spec.Extend
import Verif.Spec.Renumber
import Verif.Spec.Depth

/-!
# Modules put together from several modules
-/

namespace Whasm.Spec

/-! ## Parts of several modules -/

/-- A module, and the numbers its definitions get in the module that is put together. -/
structure Source where
  ρ : Renaming
  m : Module

/-- Each element of `b` stems from an element of one of the sources. -/
def FromSome {α : Type} (ss : List Source) (get : Module → List α) (R : Renaming → Module → α → α → Prop) (b : List α) : Prop :=
  ∀ y ∈ b, ∃ s ∈ ss, ∃ x ∈ get s.m, R s.ρ s.m x y

/-- `m'` consists of parts of the sources: in any order, each with indices that denote in `m'` what they denoted in the source. In particular, what was an import in
one of them can be a definition of another. -/
structure Assembled (ss : List Source) (m' : Module) : Prop where
  types : FromSome ss Module.types (fun _ _ => Eq) m'.types
  funcs : FromSome ss Module.funcs (fun ρ m => FuncFrom ρ m m') m'.funcs
  tables : FromSome ss Module.tables (fun _ _ => Eq) m'.tables
  mems : FromSome ss Module.mems (fun _ _ => Eq) m'.mems
  globals : FromSome ss Module.globals (fun ρ m => GlobalFrom ρ m m') m'.globals
  elem : FromSome ss Module.elem (fun ρ m => ElemFrom ρ m m') m'.elem
  data : FromSome ss Module.data (fun ρ m => DataFrom ρ m m') m'.data
  start : ∀ s', m'.start = some s' → ∃ s ∈ ss, ∃ f, s.m.start = some f ∧ s'.func = s.ρ.funcs f.func ∧
    SameAt s.ρ.funcs (funcSpace s.m) (funcSpace m') f.func
  imports : FromSome ss Module.imports (fun ρ m => ImportFrom ρ m m') m'.imports
  exports : FromSome ss Module.exports (fun ρ m => ExportFrom ρ m m') m'.exports
  oneTable : (tableSpace m').length ≤ 1
  oneMem : (memSpace m').length ≤ 1
  names : (m'.exports.map (·.name)).Nodup

/-! ## A linker -/

/-- Index `x` of a space that is appended to one with `n` elements. -/
def shiftBy (n : Nat) (x : Idx) : Idx := BitVec.ofNat 32 (x.toNat + n)

/-- The new numbers of a module that is linked to `lib`; its `k`-th function import becomes function `targets[k]` of `lib`. -/
def linkRenaming (lib : Module) (targets : List Idx) : Renaming where
  types := shiftBy lib.types.length
  funcs x := match targets[x.toNat]? with
    | some y => y
    | none => BitVec.ofNat 32 (x.toNat - targets.length + (funcSpace lib).length)
  tables := shiftBy (tableSpace lib).length
  mems := shiftBy (memSpace lib).length
  globals := shiftBy (globalSpace lib).length

/-- `m`, which imports functions only, linked to `lib`: the definitions of `m` follow those of `lib`. -/
def link (lib m : Module) (targets : List Idx) : Module :=
  extend lib (renameAll (linkRenaming lib targets) { m with imports := [] })

/-- `m` imports functions of `lib` only, with the types they have there. The index spaces of both together are small enough for indices of 32 bits. At most one table and
one memory are there, and exports have different names. Initializers of globals of `m` read no globals; by the document they could read imported ones only (3.4.10). -/
structure Linkable (lib m : Module) (targets : List Idx) : Prop where
  imports : ∀ i ∈ m.imports, isFuncImport i = true
  targets : targets.map (fun x => (funcSpace lib)[x.toNat]?) = (importedFuncs m).map some
  types : lib.types.length + m.types.length ≤ 2 ^ 32
  funcs : (funcSpace lib).length + (funcSpace m).length ≤ 2 ^ 32
  globals : (globalSpace lib).length + (globalSpace m).length ≤ 2 ^ 32
  oneTable : (tableSpace lib).length + (tableSpace m).length ≤ 1
  oneMem : (memSpace lib).length + (memSpace m).length ≤ 1
  names : ((lib.exports ++ m.exports).map (·.name)).Nodup
  inits : ∀ g ∈ m.globals, ∀ x, Instr.globalGet x ∉ g.init

end Whasm.Spec
