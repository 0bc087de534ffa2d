import Verif.Spec.Link

/-!
# Parts of a store that are separate from the rest

What code can get at is given by addresses: those of the instance it runs in, those of the functions in tables it can get at, and so on.
-/

namespace Whasm.Link
open Run (Value)

/-- A part of a store: some of the addresses of functions, tables, memories and globals, also of those that do not exist yet; and maybe what host
functions have outside of the store. -/
structure Area where
  funcs : Nat → Prop
  tables : Nat → Prop
  mems : Nat → Prop
  globals : Nat → Prop
  world : Prop

def Area.Has (A : Area) : Extern → Prop
  | .func a => A.funcs a
  | .table a => A.tables a
  | .mem a => A.mems a
  | .global a => A.globals a

/-- All that an instance refers to. -/
structure Area.Holds (A : Area) (inst : Inst) : Prop where
  funcs : ∀ a ∈ inst.funcs, A.funcs a
  tables : ∀ a ∈ inst.tables, A.tables a
  mems : ∀ a ∈ inst.mems, A.mems a
  globals : ∀ a ∈ inst.globals, A.globals a

/-- No way leads out: the functions of the part run in instances of the part, its tables have functions of the part. -/
structure Sealed (A : Area) (st : Store) : Prop where
  funcs : ∀ a t inst f, A.funcs a → st.funcs[a]? = some (.own t inst f) → A.Holds inst
  tables : ∀ a tb, A.tables a → st.tables[a]? = some tb → ∀ b, some b ∈ tb.elem → A.funcs b

/-- New objects belong to the part. -/
structure Area.New (A : Area) (st : Store) : Prop where
  funcs : ∀ a, st.funcs.length ≤ a → A.funcs a
  tables : ∀ a, st.tables.length ≤ a → A.tables a
  mems : ∀ a, st.mems.length ≤ a → A.mems a
  globals : ∀ a, st.globals.length ≤ a → A.globals a

/-- The two stores differ only in the part `A` and what is new. -/
structure Untouched (A : Area) (st st' : Store) : Prop where
  funcs : ∃ l, st'.funcs = st.funcs ++ l
  tables : ∀ a, ¬ A.tables a → st'.tables[a]? = st.tables[a]?
  mems : ∀ a, ¬ A.mems a → st'.mems[a]? = st.mems[a]?
  globals : ∀ a, ¬ A.globals a → st'.globals[a]? = st.globals[a]?
  world : ¬ A.world → st'.world = st.world

/-- The two stores are the same in the part `A`. -/
structure SameIn (A : Area) (st st' : Store) : Prop where
  funcs : ∀ a, A.funcs a → st'.funcs[a]? = st.funcs[a]?
  tables : ∀ a, A.tables a → st'.tables[a]? = st.tables[a]?
  mems : ∀ a, A.mems a → st'.mems[a]? = st.mems[a]?
  globals : ∀ a, A.globals a → st'.globals[a]? = st.globals[a]?
  world : A.world → st'.world = st.world

/-- Two parts have nothing in common. -/
structure Area.Apart (A B : Area) : Prop where
  funcs : ∀ a, A.funcs a → ¬ B.funcs a
  tables : ∀ a, A.tables a → ¬ B.tables a
  mems : ∀ a, A.mems a → ¬ B.mems a
  globals : ∀ a, A.globals a → ¬ B.globals a
  world : A.world → ¬ B.world

/-- Host functions of the part change only the part. -/
def HostKeeps (M : Machine) (A : Area) : Prop :=
  ∀ a t id st args, A.funcs a → st.funcs[a]? = some (.host t id) → Sealed A st →
    Sealed A (M.host id st args).1 ∧ Untouched A st (M.host id st args).1

/-- Host functions of the part, and the decision whether a memory of the part may grow, depend only on the part. -/
structure HostBlind (M : Machine) (A : Area) : Prop where
  grow : ∀ a n st st', A.mems a → SameIn A st st' → M.grow st' a n = M.grow st a n
  host : ∀ a t id st st' args, A.funcs a → st.funcs[a]? = some (.host t id) → Sealed A st → SameIn A st st' →
    SameIn A (M.host id st args).1 (M.host id st' args).1 ∧ (M.host id st' args).2 = (M.host id st args).2 ∧ Sealed A (M.host id st args).1

/-- Outcomes of a call that are the same as far as the part `A` goes. -/
def SameCalled (A : Area) : Called → Called → Prop
  | .values vs st, .values vs' st' => vs' = vs ∧ SameIn A st st'
  | .trap st, .trap st' => SameIn A st st'
  | .timeout, .timeout => True
  | .stuck, .stuck => True
  | _, _ => False

/-- The outcome of a call changes only the part `A`. -/
def CalledWithin (A : Area) (st : Store) : Called → Prop
  | .values _ st' => Sealed A st' ∧ Untouched A st st'
  | .trap st' => Sealed A st' ∧ Untouched A st st'
  | .timeout | .stuck => True

/-- The outcome of an instantiation changes only the part `A`, and the new instance belongs to it. -/
def StartedWithin (A : Area) (st : Store) : Started → Prop
  | .ok inst st' => A.Holds inst ∧ Sealed A st' ∧ Untouched A st st'
  | .fail st' => Sealed A st' ∧ Untouched A st st'
  | .trap st' => Sealed A st' ∧ Untouched A st st'
  | .timeout | .stuck => True

/-- New objects get the same addresses. -/
structure SameSize (st st' : Store) : Prop where
  funcs : st'.funcs.length = st.funcs.length
  tables : st'.tables.length = st.tables.length
  mems : st'.mems.length = st.mems.length
  globals : st'.globals.length = st.globals.length

/-- Outcomes of an instantiation that are the same as far as the part `A` goes. -/
def SameStarted (A : Area) : Started → Started → Prop
  | .ok inst st, .ok inst' st' => inst' = inst ∧ SameIn A st st'
  | .fail st, .fail st' => SameIn A st st'
  | .trap st, .trap st' => SameIn A st st'
  | .timeout, .timeout => True
  | .stuck, .stuck => True
  | _, _ => False

end Whasm.Link
