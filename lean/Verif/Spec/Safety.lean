import Verif.Spec.Run
import Verif.Spec.Validity

/-!
# Instances of a module and well-formed stores (W3C document, sections 4.5.4 and 7.4 "Soundness")
-/

namespace Whasm.Run
open Spec

/-- A memory of type `t`: no smaller than the minimum, and never larger than the maximum. -/
structure MemOk (t : MemTy) (x : MemInst) : Prop where
  min : t.lim.min.toNat ≤ x.pages
  limit : x.pages ≤ pageLimit x
  max : ∀ n, t.lim.max = some n → pageLimit x ≤ n.toNat

/-- A table of type `t`, holding functions with an address below `k`. -/
structure TableOk (k : Nat) (t : TableTy) (x : List (Option Nat)) : Prop where
  min : t.lim.min.toNat ≤ x.length
  max : ∀ n, t.lim.max = some n → x.length ≤ n.toNat
  entries : ∀ a, some a ∈ x → a < k

/-- Every element is related to the type at the same place. -/
def Each {α β : Type} (R : α → β → Prop) (ts : List α) (xs : List β) : Prop :=
  xs.length = ts.length ∧ ∀ (i : Nat) t x, ts[i]? = some t → xs[i]? = some x → R t x

/-- The store fits the index spaces of module `m`; `k` is the number of functions. -/
structure StoreOk (m : Module) (k : Nat) (st : Store) : Prop where
  globals : st.globals.map Value.type = (globalSpace m).map (·.val)
  mems : Each MemOk (memSpace m) st.mems
  tables : Each (TableOk k) (tableSpace m) st.tables

/-- What may happen to a store (7.4): constants stay, memories only grow, tables keep their size. -/
structure Evolves (m : Module) (st st' : Store) : Prop where
  const : ∀ (i : Nat) (g : GlobalTy), (globalSpace m)[i]? = some g → g.mt = .const → st'.globals[i]? = st.globals[i]?
  pages : ∀ (i : Nat) (x : MemInst), st.mems[i]? = some x → ∃ y, st'.mems[i]? = some y ∧ x.pages ≤ y.pages
  tables : st'.tables.map List.length = st.tables.map List.length

/-- The functions that module `m` defines. -/
def ownFuncs (m : Module) : List FuncInst := m.funcs.filterMap fun f => m.types[f.ty.toNat]?.map (.own · f)

/-- `M` is a machine with an instance of `m`: the functions are the imported ones and those of the module. The functions not from the module are
host functions. -/
structure Instance (m : Module) (M : Machine) : Prop where
  types : M.types = m.types
  funcs : ∃ imported : List FuncInst, M.funcs = imported ++ ownFuncs m ∧ imported.map FuncInst.type = importedFuncs m ∧
    ∀ fi ∈ imported ++ M.foreign, ∃ t id, fi = .host t id

/-- The numeric operators return values of the right type. -/
def NumOk (M : Machine) : Prop :=
  ∀ op args v, args.map Value.type = (numType op).1 → M.num op args = some v → [v.type] = (numType op).2

/-- Host functions return values of the right type and leave a well-formed store (4.4.7.3, 7.4). -/
def HostOk (m : Module) (M : Machine) : Prop :=
  ∀ t id, .host t id ∈ M.all → ∀ st args, StoreOk m M.all.length st → args.map Value.type = t.params →
    ∀ st' res, M.host id st args = (st', res) → StoreOk m M.all.length st' ∧ Evolves m st st' ∧
      ∀ vs, res = some vs → vs.map Value.type = t.results

/-- The outcomes of a call allowed by validation: results of the right types or a trap, with a well-formed store, or no result (yet). -/
def CallOk (m : Module) (M : Machine) (st : Store) (t : FuncTy) : Called → Prop
  | .values vs st' => vs.map Value.type = t.results ∧ StoreOk m M.all.length st' ∧ Evolves m st st'
  | .trap st' => StoreOk m M.all.length st' ∧ Evolves m st st'
  | .timeout => True
  | .stuck => False

end Whasm.Run
