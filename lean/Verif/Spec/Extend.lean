import Verif.Spec.Validity

/-!
# Appending definitions to a module
-/

namespace Whasm.Spec

/-- The definitions of `a` appended to those of `m`; `m` keeps its imports, and its start function if it has one. -/
def extend (m a : Module) : Module where
  types := m.types ++ a.types
  funcs := m.funcs ++ a.funcs
  tables := m.tables ++ a.tables
  mems := m.mems ++ a.mems
  globals := m.globals ++ a.globals
  elem := m.elem ++ a.elem
  data := m.data ++ a.data
  start := m.start.orElse fun _ => a.start
  imports := m.imports
  exports := m.exports ++ a.exports

/-- What remains to be checked of the new definitions: each by itself in the extended module, the number of tables and memories, and the
names of the exports. -/
structure NewOk (m a : Module) : Prop where
  types : ∀ t ∈ a.types, t.results.length ≤ 1
  funcs : ∀ f ∈ a.funcs, FuncOk .code (extend m a) f
  tables : ∀ t ∈ a.tables, LimitsOk (2 ^ 32) t.ty.lim
  mems : ∀ x ∈ a.mems, LimitsOk 65535 x.ty.lim
  globals : ∀ g ∈ a.globals, ConstOk { globals := ownGlobals (extend m a), aligned := false } g.init g.ty.val
  elem : ∀ e ∈ a.elem, ElemOk .code (extend m a) e
  data : ∀ d ∈ a.data, DataOk .code (extend m a) d
  start : m.start = none → ∀ s, a.start = some s → (funcSpace (extend m a))[s.func.toNat]? = some ⟨[], []⟩
  exports : ∀ e ∈ a.exports, (exportType (extend m a) e).isSome = true
  oneTable : (m.tables ++ a.tables).length ≤ 1
  oneMem : (m.mems ++ a.mems).length ≤ 1
  names : ((m.exports ++ a.exports).map (·.name)).Nodup

end Whasm.Spec
