import Verif.Lemmas.Isolate
import Verif.Props.Link

/-!
# C98: modules are isolated from one another except for what they import and export

`Spec/Isolate.lean` says what a part of a store is. Modules are accepted by the validator and linked by the types it reports, as in C70.
-/

namespace Whasm
open Spec
open Link
open Run (Value)

/-- Everything that can be imported or called belongs to the part. -/
def PoolIn (A : Area) (pool : Pool) : Prop := ∀ e t, (e, t) ∈ pool → A.Has e

theorem resolved_has {A : Area} {pool : Pool} (hp : PoolIn A pool) {ts : List External} {imports : List Extern} (hr : Resolved pool ts imports) :
    ∀ e ∈ imports, A.Has e := by
  intro e he
  obtain ⟨i, hi⟩ := List.getElem?_of_mem he
  have hl : i < ts.length := by rw [← hr.1]; exact (List.getElem?_eq_some_iff.mp hi).1
  obtain ⟨t', h1, _⟩ := hr.2 i _ _ (List.getElem?_eq_getElem hl) hi
  exact hp e t' h1

theorem exportVal_has {A : Area} {inst : Inst} (h : A.Holds inst) {e : Export} {v : Extern} (hv : exportVal inst e = some v) : A.Has v := by
  unfold exportVal at hv
  split at hv
  all_goals
    obtain ⟨a, ha, rfl⟩ := Option.map_eq_some_iff.mp hv
    first
      | exact h.funcs a (List.mem_of_getElem? ha)
      | exact h.tables a (List.mem_of_getElem? ha)
      | exact h.mems a (List.mem_of_getElem? ha)
      | exact h.globals a (List.mem_of_getElem? ha)

/-- **C98, calls.** A call of a function of the part changes only the part, whatever functions of whatever modules it leads to, and gives away nothing
of the rest. Nor is it stuck. -/
theorem C98_call {M : Machine} (hn : NumOk M) (hh : HostOk M) {s : System} (hs : SystemOk s) {A : Area} (hk : HostKeeps M A) (hA : Sealed A s.store)
    (hp : PoolIn A s.pool) {a : Nat} {t : FuncTy} (ha : (.func a, .func t) ∈ s.pool) {args : List Value} (hargs : args.map Value.type = t.params)
    (fuel : Nat) : CalledWithin A s.store (invoke M fuel a args s.store) ∧ CallOk s t (invoke M fuel a args s.store) :=
  ⟨invoke_within hk hA (hp _ _ ha) fuel args, C70_call_partial hn hh hs ha hargs fuel⟩

/-- **C98, instantiation.** A module that is accepted gets at nothing but what it imports: if its imports are of the part then its
initialization changes only the part, it becomes a member of it, and everything that it exports is of the part. -/
theorem C98_instantiate {M : Machine} (hn : NumOk M) (hh : HostOk M) {s : System} (hs : SystemOk s) {A : Area} (hk : HostKeeps M A)
    (hA : Sealed A s.store) (hnew : A.New s.store) (hp : PoolIn A s.pool) {m : Module} {r : ModuleResult} (h : Linkable m r) {imports : List Extern}
    (hr : Resolved s.pool r.imports imports) (fuel : Nat) :
    StartedWithin A s.store (instantiate M m imports fuel s.store) ∧ StartedOk s m r (instantiate M m imports fuel s.store) ∧
    ∀ inst st, instantiate M m imports fuel s.store = .ok inst st → ∀ e ∈ m.exports, ∀ v, exportVal inst e = some v → A.Has v := by
  have h1 := instantiate_within (m := m) hk hA hnew (resolved_has hp hr) fuel
  refine ⟨h1, C70_instantiate_partial hn hh hs h hr fuel, fun inst st he e _ v hv => ?_⟩
  rw [he] at h1
  exact exportVal_has h1.1 hv

/-- Stores do not lose objects. -/
theorem extends_length {st st' : Store} (h : Extends st st') : st.funcs.length ≤ st'.funcs.length ∧ st.tables.length ≤ st'.tables.length ∧
    st.mems.length ≤ st'.mems.length ∧ st.globals.length ≤ st'.globals.length := by
  have key : ∀ {α β : Type} {l : List α} {l' : List β}, (∀ (a : Nat) (x : α), l[a]? = some x → ∃ y, l'[a]? = some y) → l.length ≤ l'.length := by
    intro α β l l' h
    rcases Nat.lt_or_ge l'.length l.length with hl | hl
    · obtain ⟨y, hy⟩ := h l'.length l[l'.length] (List.getElem?_eq_getElem hl)
      simp at hy
    · exact hl
  refine ⟨?_, key fun a x hx => ?_, key fun a x hx => ?_, key fun a x hx => ?_⟩
  · obtain ⟨l, hl⟩ := h.funcs
    simp [hl]
  · obtain ⟨y, hy, _⟩ := h.tables a x hx
    exact ⟨y, hy⟩
  · obtain ⟨y, hy, _⟩ := h.mems a x hx
    exact ⟨y, hy⟩
  · obtain ⟨y, hy, _⟩ := h.globals a x hx
    exact ⟨y, hy⟩

theorem new_extends {A : Area} {st st' : Store} (h : A.New st) (he : Extends st st') : A.New st' := by
  obtain ⟨h1, h2, h3, h4⟩ := extends_length he
  exact ⟨fun a ha => h.funcs a (Nat.le_trans h1 ha), fun a ha => h.tables a (Nat.le_trans h2 ha), fun a ha => h.mems a (Nat.le_trans h3 ha),
    fun a ha => h.globals a (Nat.le_trans h4 ha)⟩

/-- **C98, any history.** Any number of modules that are accepted, and any calls, starting with what is exported from the part: what is outside of the part
stays as it was, to the last byte, and is never given away. -/
theorem C98_history {M : Machine} (hn : NumOk M) (hh : HostOk M) {s s' : System} (hs : SystemOk s) {A : Area} (hk : HostKeeps M A)
    (hA : Sealed A s.store) (hnew : A.New s.store) (hp : PoolIn A s.pool) (h : Reaches M Linkable s s') :
    Untouched A s.store s'.store ∧ Sealed A s'.store ∧ PoolIn A s'.pool := by
  induction h with
  | refl => exact ⟨untouched_refl A _, hA, hp⟩
  | @module s' m r imports fuel inst st hr0 hl hr hi ih =>
    obtain ⟨hs', he, _⟩ := C70_history_partial hn hh hs hr0
    obtain ⟨h1, _, h3⟩ := C98_instantiate hn hh hs' hk ih.2.1 (new_extends hnew he) ih.2.2 hl hr fuel
    rw [hi] at h1
    refine ⟨untouched_trans ih.1 h1.2.2, h1.2.1, fun e t hm => ?_⟩
    rcases List.mem_append.mp hm with hm | hm
    · exact ih.2.2 e t hm
    · obtain ⟨x, hx, hv⟩ := List.mem_filterMap.mp (List.of_mem_zip hm).1
      exact h3 inst st hi x hx e hv
  | @failed s' m r imports fuel st hr0 hl hr hi ih =>
    obtain ⟨hs', he, _⟩ := C70_history_partial hn hh hs hr0
    have h1 := (C98_instantiate hn hh hs' hk ih.2.1 (new_extends hnew he) ih.2.2 hl hr fuel).1
    rcases hi with hi | hi <;> rw [hi] at h1 <;> exact ⟨untouched_trans ih.1 h1.2, h1.1, ih.2.2⟩
  | @call s' a fuel t args st hr0 ha hargs hi ih =>
    have h1 := invoke_within hk ih.2.1 (ih.2.2 _ _ ha) fuel args
    rcases hi with ⟨vs, hi⟩ | hi <;> rw [hi] at h1 <;> exact ⟨untouched_trans ih.1 h1.2, h1.1, ih.2.2⟩

/-- **C98, what calls depend on.** Calls of functions of the part return the same, and do the same to the part, whatever the rest of the store is. -/
theorem C98_blind_call {M : Machine} {A : Area} (hb : HostBlind M A) {st st' : Store} (hA : Sealed A st) (hsame : SameIn A st st') {a : Nat}
    (ha : A.funcs a) (fuel : Nat) (args : List Value) : SameCalled A (invoke M fuel a args st) (invoke M fuel a args st') :=
  (invoke_twin hb ⟨hA, hsame⟩ ha fuel args).1

/-- **C98, what instantiation depends on.** The same for instantiation of whatever module, if new objects get the same addresses. -/
theorem C98_blind_instantiate {M : Machine} {A : Area} (hb : HostBlind M A) {st st' : Store} (hA : Sealed A st) (hsame : SameIn A st st')
    (hsize : SameSize st st') (hnew : A.New st) {imports : List Extern} (hi : ∀ e ∈ imports, A.Has e) (m : Module) (fuel : Nat) :
    SameStarted A (instantiate M m imports fuel st) (instantiate M m imports fuel st') :=
  instantiate_twin hb ⟨hA, hsame⟩ hsize hnew hi fuel

/-- **C98, two parts.** Two parts that have nothing in common: whatever modules are added to the one, and whatever is called in it, a call in the other
does what it would have done before. -/
theorem C98_apart {M : Machine} (hn : NumOk M) (hh : HostOk M) {s s' : System} (hs : SystemOk s) {A B : Area} (hab : A.Apart B) (hb : HostBlind M A)
    (hk : HostKeeps M B) (hA : Sealed A s.store) (hB : Sealed B s.store) (hnew : B.New s.store) (hp : PoolIn B s.pool) (h : Reaches M Linkable s s')
    {a : Nat} (ha : A.funcs a) (fuel : Nat) (args : List Value) :
    SameIn A s.store s'.store ∧ SameCalled A (invoke M fuel a args s.store) (invoke M fuel a args s'.store) := by
  obtain ⟨hu, _, _⟩ := C98_history hn hh hs hk hB hnew hp h
  have hsame : SameIn A s.store s'.store := by
    refine ⟨fun a ha => ?_, fun a ha => hu.tables a (hab.tables a ha), fun a ha => hu.mems a (hab.mems a ha),
      fun a ha => hu.globals a (hab.globals a ha), fun hw => hu.world (hab.world hw)⟩
    obtain ⟨l, hl⟩ := hu.funcs
    rw [hl, List.getElem?_append_left (Nat.lt_of_not_le fun h' => hab.funcs a ha (hnew.funcs a h'))]
  exact ⟨hsame, C98_blind_call hb hA hsame ha fuel args⟩

/-! ## An example: a module with a secret -/

theorem linkMachine_keeps (A : Area) : HostKeeps linkMachine A := fun _ _ _ _ _ _ _ h => ⟨h, untouched_refl A _⟩

theorem linkMachine_blind (A : Area) : HostBlind linkMachine A :=
  ⟨fun _ _ _ _ _ _ => rfl, fun _ _ _ _ _ _ _ _ h hs => ⟨hs, rfl, h⟩⟩

/-- (module (type (func (param i32) (result i32))) (memory 1) (global (mut i32) (i32.const 9)) (global (mut i32) (i32.const 1))
  (func (type 0) (global.set 1 (i32.add (global.get 1) (i32.load (local.get 0)))) (global.get 1))
  (data (i32.const 4) "\2A") (export "g" (global 0))) -/
def secretModule : Module :=
  { types := [⟨[.i32], [.i32]⟩], mems := [⟨⟨⟨1, none⟩⟩⟩], globals := [⟨⟨.var, .i32⟩, [.constI32 9]⟩, ⟨⟨.var, .i32⟩, [.constI32 1]⟩],
    funcs := [⟨0, [], [.globalGet 1, .localGet 0, .load .i32Load 0 0, .num .i32Add, .globalSet 1, .globalGet 1]⟩],
    data := [⟨0, [.constI32 4], [0x2A]⟩], exports := [⟨[0x67], .global 0⟩] }

theorem secretModule_linkable : Linkable secretModule ⟨[], [.global ⟨.var, .i32⟩]⟩ := by
  refine ⟨by decide +kernel, ?_, ?_⟩
  · intro f hf
    refine (plain_iff.mp ?_).2
    simp only [secretModule, List.mem_cons, List.not_mem_nil, or_false] at hf
    subst hf
    simp [plainL, plainI]
  · intro g hg x hx
    simp only [secretModule, List.mem_cons, List.not_mem_nil, or_false] at hg
    rcases hg with rfl | rfl <;> simp at hx

/-- The store with that module, of which others get the first global. -/
def secretSystem : System := ⟨startedStore (instantiate linkMachine secretModule [] 9 {}), [(.global 0, .global ⟨.var, .i32⟩)]⟩

theorem emptySystem_ok : SystemOk ⟨{}, []⟩ :=
  ⟨⟨fun _ h => (by cases h), fun _ h => (by cases h), fun _ h => (by cases h)⟩, fun _ _ h => (by cases h)⟩

theorem secretSystem_ok : SystemOk secretSystem :=
  (C70_instantiate_partial linkMachine_num linkMachine_host emptySystem_ok secretModule_linkable (imports := [])
    ⟨rfl, fun i t x h => (by simp at h)⟩ 9).1

/-- All but the function, the memory and the second global. -/
def openPart : Area := ⟨fun a => a ≠ 0, fun _ => True, fun a => a ≠ 0, fun a => a ≠ 1, True⟩

theorem secret_funcs : secretSystem.store.funcs.length = 1 := rfl
theorem secret_tables : secretSystem.store.tables = [] := rfl
theorem secret_mems : secretSystem.store.mems.length = 1 := rfl
theorem secret_globals : secretSystem.store.globals.length = 2 := rfl

theorem openPart_sealed : Sealed openPart secretSystem.store := by
  refine ⟨fun a t inst f ha h => ?_, fun a tb _ h => ?_⟩
  · have := (List.getElem?_eq_some_iff.mp h).1
    rw [secret_funcs] at this
    exact absurd (by omega) ha
  · rw [secret_tables] at h
    cases h

theorem openPart_new : openPart.New secretSystem.store :=
  ⟨fun a h => (by rw [secret_funcs] at h; exact fun e => by omega), fun _ _ => trivial,
    fun a h => (by rw [secret_mems] at h; exact fun e => by omega), fun a h => (by rw [secret_globals] at h; exact fun e => by omega)⟩

theorem openPart_pool : PoolIn openPart secretSystem.pool := by
  intro e t h
  simp only [secretSystem, List.mem_cons, List.not_mem_nil, or_false] at h
  cases h
  exact fun e => by cases e

-- whatever other modules do with the first global: nothing of the memory changes, and nothing of the second global
example (s : System) (h : Reaches linkMachine Linkable secretSystem s) :
    s.store.mems[0]? = secretSystem.store.mems[0]? ∧ s.store.globals[1]? = secretSystem.store.globals[1]? := by
  have h1 := (C98_history linkMachine_num linkMachine_host secretSystem_ok (linkMachine_keeps openPart) openPart_sealed openPart_new openPart_pool h).1
  exact ⟨h1.mems 0 fun e => e rfl, h1.globals 1 fun e => e rfl⟩

/-- (module (type (func)) (import "" "g" (global (mut i32))) (memory 1) (func (type 0) (i32.store (i32.const 4) (i32.const 5)) (global.set 0 (i32.load (i32.const 4))))
  (start 0)) -/
def curiousModule : Module :=
  { types := [⟨[], []⟩], imports := [⟨[], [0x67], .global ⟨.var, .i32⟩⟩], mems := [⟨⟨⟨1, none⟩⟩⟩], start := some ⟨0⟩,
    funcs := [⟨0, [], [.constI32 4, .constI32 5, .store .i32Store 0 0, .constI32 4, .load .i32Load 0 0, .globalSet 0]⟩] }

/-- The store after that module was added and did its work. -/
def curiousStore : Store := startedStore (instantiate linkMachine curiousModule [.global 0] 9 secretSystem.store)

theorem curiousModule_linkable : Linkable curiousModule ⟨[.global ⟨.var, .i32⟩], []⟩ := by
  refine ⟨by decide +kernel, ?_, ?_⟩
  · intro f hf
    refine (plain_iff.mp ?_).2
    simp only [curiousModule, List.mem_cons, List.not_mem_nil, or_false] at hf
    subst hf
    simp [plainL, plainI]
  · intro g hg x hx
    simp [curiousModule] at hg

theorem curious_reached : Reaches linkMachine Linkable secretSystem ⟨curiousStore, secretSystem.pool⟩ :=
  Reaches.module (m := curiousModule) (r := ⟨[.global ⟨.var, .i32⟩], []⟩) (imports := [.global 0]) (fuel := 9)
    (inst := startedInst (instantiate linkMachine curiousModule [.global 0] 9 secretSystem.store)) (.refl _) curiousModule_linkable
    ⟨rfl, fun i t x h1 h2 => by
      cases i with
      | zero => cases h1; cases h2; exact ⟨_, by simp [secretSystem], .global _⟩
      | succ i => simp at h1⟩ rfl

-- there is such a history: the module writes 5 to address 4 of its own memory, and to the global that is shared; the other keeps its 42
example : curiousStore.globals.map (·.value) = [.i32 5, .i32 1] ∧ curiousStore.mems.map (·.byte 4) = [42, 5] := by decide +kernel

/-- What belongs to the first module alone. -/
def secretPart : Area := ⟨fun a => a = 0, fun _ => False, fun a => a = 0, fun a => a ≤ 1, False⟩

/-- What is to come. -/
def laterPart : Area := ⟨fun a => a ≠ 0, fun _ => True, fun a => a ≠ 0, fun a => 1 < a, True⟩

-- if others do not get the global either, then calls of the first module return what they would have returned without them: 1 + 42
example (s : System) (h : Reaches linkMachine Linkable ⟨secretSystem.store, []⟩ s) :
    (calledValues (invoke linkMachine 9 0 [.i32 4] s.store)).1 = some [.i32 43] := by
  have hf : ∀ (st : Store) a (t : FuncTy) (inst : Inst) (f : Func), st.funcs.length = 1 → a ≠ 0 → st.funcs[a]? = some (.own t inst f) → False := by
    intro st a t inst f h0 ha h
    have := (List.getElem?_eq_some_iff.mp h).1
    omega
  have h1 := (C98_apart (s := ⟨secretSystem.store, []⟩) (A := secretPart) (B := laterPart) linkMachine_num linkMachine_host ⟨secretSystem_ok.1, fun _ _ h => by cases h⟩
    ⟨fun a h e => e h, fun _ h => h.elim, fun a h e => e h, fun a h e => absurd h (Nat.not_le.mpr e), fun h => h.elim⟩
    (linkMachine_blind _) (linkMachine_keeps _)
    ⟨fun a t inst f ha h => by
      cases ha
      cases h
      have hi : newInst secretModule [] {} = ⟨secretModule.types, [0], [], [0], [0, 1]⟩ := rfl
      rw [hi]
      exact ⟨fun a h => List.mem_singleton.mp h, (fun _ h => by cases h), fun a h => List.mem_singleton.mp h, fun a h => by
        simp only [List.mem_cons, List.not_mem_nil, or_false] at h
        show a ≤ 1
        omega⟩, fun _ _ h => h.elim⟩
    ⟨fun a t inst f ha h => (hf _ a t inst f secret_funcs ha h).elim, fun a tb _ h => by rw [secret_tables] at h; cases h⟩
    ⟨fun a h => (by rw [secret_funcs] at h; exact fun e => by omega), fun _ _ => trivial,
      fun a h => (by rw [secret_mems] at h; exact fun e => by omega), fun a h => (by rw [secret_globals] at h; show 1 < a; omega)⟩
    (fun _ _ h => by cases h) h (a := 0) rfl 9 [.i32 4]).2
  have h2 : (calledValues (invoke linkMachine 9 0 [.i32 4] secretSystem.store)).1 = some [.i32 43] := by decide +kernel
  generalize invoke linkMachine 9 0 [.i32 4] secretSystem.store = o, invoke linkMachine 9 0 [.i32 4] s.store = o' at h1 h2
  cases o <;> cases o' <;> first | exact h1.elim | skip
  · obtain ⟨h3, _⟩ := h1
    subst h3
    exact h2
  all_goals cases h2

-- the function of the first module does change its second global: a part that has the function has to have the global as well
example : (calledValues (invoke linkMachine 9 0 [.i32 4] secretSystem.store)).2.globals.map (·.value) = [.i32 9, .i32 43] := by decide +kernel

end Whasm
