import Verif.Spec.Instantiate
import Verif.Spec.Link

/-!
# A module alone in the store

Execution is specified twice: `Spec/Run` and `Spec/Instantiate` are about one module, whose indices are used as addresses, with a store that holds no
functions; `Spec/Link` is about a store shared by instances of several modules. Here is what they have in common when only one module has been
instantiated, in a store with nothing else than its imports, in the order of its index spaces.
-/

namespace Whasm.Link
open Spec
open Run (Value)

/-- What `Spec/Run` has of a store: no functions, no maxima of tables, and no mutability of globals, which are known from the module. -/
def plain (st : Store) : Run.Store := ⟨st.globals.map (·.value), st.mems, st.tables.map (·.elem), st.world⟩

def plainFunc : FuncInst → Run.FuncInst
  | .own t _ f => .own t f
  | .host t id => .host t id

def plainCalled : Called → Run.Called
  | .values vs st => .values vs (plain st)
  | .trap st => .trap (plain st)
  | .timeout => .timeout
  | .stuck => .stuck

def plainStarted : Started → Run.Started
  | .ok _ st => .ok (plain st)
  | .fail _ => .fail
  | .trap st => .trap (plain st)
  | .timeout => .timeout
  | .stuck => .stuck

/-- What the host provides, in the sense of `Spec/Instantiate`. -/
def provided (st : Store) : Run.Provided := ⟨st.globals.map (·.value), st.mems, st.tables.map (·.elem), st.world⟩

/-- The imports are all there is in the store, in this order, and the functions among them are host functions. -/
structure OnlyImports (imports : List Extern) (st : Store) : Prop where
  funcs : imports.filterMap Extern.func? = List.range st.funcs.length
  tables : imports.filterMap Extern.table? = List.range st.tables.length
  mems : imports.filterMap Extern.mem? = List.range st.mems.length
  globals : imports.filterMap Extern.global? = List.range st.globals.length
  hosts : ∀ fi ∈ st.funcs, ∃ t id, fi = .host t id

/-- Addresses are indices, as far as there are any. -/
structure Ident (R : Run.Machine) (inst : Inst) : Prop where
  types : ∀ (x : Nat) t, inst.types[x]? = some t → R.types[x]? = some t
  funcs : ∀ (x : Nat) a, inst.funcs[x]? = some a → a = x
  tables : ∀ (x : Nat) a, inst.tables[x]? = some a → a = x
  mems : ∀ (x : Nat) a, inst.mems[x]? = some a → a = x
  globals : ∀ (x : Nat) a, inst.globals[x]? = some a → a = x

/-- The function is that of `Spec/Run`. -/
inductive SameFunc (R : Run.Machine) : FuncInst → Run.FuncInst → Prop
  | own {t : FuncTy} {inst : Inst} {f : Func} : Ident R inst → SameFunc R (.own t inst f) (.own t f)
  | host {t : FuncTy} {id : Nat} : SameFunc R (.host t id) (.host t id)

/-- All functions of the store are those of the machine `R`, with the same addresses. -/
def Alone (R : Run.Machine) (st : Store) : Prop :=
  ∀ (a : Nat) fi, st.funcs[a]? = some fi → ∃ fi', R.funcs[a]? = some fi' ∧ SameFunc R fi fi'

/-- The parameters of both machines agree: the numeric operators, whether memories can grow, and the host functions. -/
structure SameMachine (M : Machine) (R : Run.Machine) : Prop where
  num : M.num = R.num
  grow : ∀ st, Alone R st → ∀ x n, M.grow st x n = R.grow (plain st) x n
  host : ∀ id st, Alone R st → ∀ args, Alone R (M.host id st args).1 ∧ R.host id (plain st) args = (plain (M.host id st args).1, (M.host id st args).2)

/-- The store after a call, if there is one. -/
def Called.AloneIn (R : Run.Machine) : Called → Prop
  | .values _ st | .trap st => Alone R st
  | .timeout | .stuck => True

/-- The store after instantiation, if there is one. -/
def Started.AloneIn (R : Run.Machine) : Started → Prop
  | .ok inst st => Alone R st ∧ Ident R inst
  | .fail st | .trap st => Alone R st
  | .timeout | .stuck => True

end Whasm.Link
