import Verif.Lemmas.LinkInst
import Verif.Props.Run

/-!
# C70: linking by the types that validation reports

`Spec/Link.lean` has several modules in a common store, instantiated one after the other; the imports of a module are resolved by looking at the
types that `Module::validate` returned, and at nothing else.
-/

namespace Whasm
open Spec
open Link
open Run (Value)

/-- A module that is accepted, with the types reported. The last condition is that of the document on the initial values of globals, which the
validator does not ensure (C41, C62). -/
structure Linkable (m : Module) (r : ModuleResult) : Prop where
  accepted : validateModule m = .ok r
  noElse : NoElse m
  inits : ∀ g ∈ m.globals, ∀ x, .globalGet x ∈ g.init → (importedGlobals m)[x.toNat]? = some ⟨.const, g.ty.val⟩

theorem linkable_ok {m : Module} {r : ModuleResult} (h : Linkable m r) : ModuleOk m ∧ r = externals m := by
  obtain ⟨h1, h2, h3⟩ := C40_module h.accepted
  obtain ⟨hv, rfl⟩ := validate_any_iff.mp h.accepted
  refine ⟨⟨hv.1, fun g hm => ?_, h2, h3, fun f hf => C30_typed h.accepted h.noElse hf⟩, rfl⟩
  have h4 := h1 g hm
  have h5 := h.inits g hm
  generalize g.init = e at h4 h5
  generalize g.ty.val = t at h4 h5
  cases h4 with
  | i32 v => exact .i32 v
  | i64 v => exact .i64 v
  | f32 v => exact .f32 v
  | f64 v => exact .f64 v
  | @global x t h => exact .global (h5 x (by simp))

/-- **C70, instantiation, partial.** An accepted module, with imports chosen from what is there by the types reported: instantiation is not stuck, and
if it succeeds then the exports have the types reported.
Missing for C70: modules whose global initializers break the rules of the document, see `C70_negation`. -/
theorem C70_instantiate_partial {M : Machine} (hn : NumOk M) (hh : HostOk M) {s : System} (hs : SystemOk s) {m : Module} {r : ModuleResult}
    (h : Linkable m r) {imports : List Extern} (hr : Resolved s.pool r.imports imports) (fuel : Nat) :
    StartedOk s m r (instantiate M m imports fuel s.store) := by
  obtain ⟨hm, rfl⟩ := linkable_ok h
  exact instantiate_ok hn hh hm hs hr fuel

/-- **C70, calls, partial.** A call of something that was reported to be a function, with arguments of the types reported, returns
results of the types reported, traps, or does not return. -/
theorem C70_call_partial {M : Machine} (hn : NumOk M) (hh : HostOk M) {s : System} (hs : SystemOk s) {a : Nat} {t : FuncTy}
    (ha : (.func a, .func t) ∈ s.pool) {args : List Value} (hargs : args.map Value.type = t.params) (fuel : Nat) :
    CallOk s t (invoke M fuel a args s.store) := by
  obtain ⟨fi, hf, rfl⟩ := hs.pool _ _ ha
  have := invoke_ok hn hh hf hs.store hargs fuel
  cases ho : invoke M fuel a args s.store with
  | values vs st =>
    rw [ho] at this
    exact ⟨this.1, hs.extend this.2.1 this.2.2, this.2.2⟩
  | trap st =>
    rw [ho] at this
    exact ⟨hs.extend this.1 this.2, this.2⟩
  | timeout => trivial
  | stuck => rw [ho] at this; exact this

/-- **C70, any history, partial.** Whatever modules were instantiated before, with whatever imports, and whatever was called: the next module can be
instantiated, the next function can be called. Constants never change, memories never shrink. -/
theorem C70_history_partial {M : Machine} (hn : NumOk M) (hh : HostOk M) {s s' : System} (hs : SystemOk s) (h : Reaches M Linkable s s') :
    SystemOk s' ∧ Extends s.store s'.store ∧
    (∀ m r imports, Linkable m r → Resolved s'.pool r.imports imports → ∀ fuel, StartedOk s' m r (instantiate M m imports fuel s'.store)) ∧
    ∀ a t args, (.func a, .func t) ∈ s'.pool → args.map Value.type = t.params → ∀ fuel, CallOk s' t (invoke M fuel a args s'.store) := by
  have key : SystemOk s' ∧ Extends s.store s'.store := by
    induction h with
    | refl => exact ⟨hs, extends_refl _⟩
    | @module s' m r imports fuel inst st _ hl hr hi ih =>
      have := C70_instantiate_partial hn hh ih.1 hl hr fuel
      rw [hi] at this
      exact ⟨this.1, extends_trans ih.2 this.2.1⟩
    | @failed s' m r imports fuel st _ hl hr hi ih =>
      have := C70_instantiate_partial hn hh ih.1 hl hr fuel
      rcases hi with hi | hi <;> rw [hi] at this <;> exact ⟨this.1, extends_trans ih.2 this.2⟩
    | @call s' a fuel t args st _ ha hargs hi ih =>
      have := C70_call_partial hn hh ih.1 ha hargs fuel
      rcases hi with ⟨vs, hi⟩ | hi <;> rw [hi] at this
      · exact ⟨this.2.1, extends_trans ih.2 this.2.2⟩
      · exact ⟨this.1, extends_trans ih.2 this.2⟩
  exact ⟨key.1, key.2, fun _ _ _ hl hr fuel => C70_instantiate_partial hn hh key.1 hl hr fuel,
    fun _ _ _ ha hargs fuel => C70_call_partial hn hh key.1 ha hargs fuel⟩

/-! ## An example: two modules that share a table, a memory and a global -/

/-- (module (type (func (param i32) (result i32))) (table 2 funcref) (memory 1 2) (global (mut i32) (i32.const 0))
  (func (type 0) (global.set 0 (i32.add (local.get 0) (global.get 0))) (global.get 0))
  (func (type 0) (call_indirect (type 0) (local.get 0) (i32.const 1)))
  (export "a" (func 0)) (export "b" (func 1)) (export "t" (table 0)) (export "m" (memory 0)) (export "g" (global 0))) -/
def providerModule : Module :=
  { types := [⟨[.i32], [.i32]⟩], tables := [⟨⟨⟨2, none⟩, .funcRef⟩⟩], mems := [⟨⟨⟨1, some 2⟩⟩⟩], globals := [⟨⟨.var, .i32⟩, [.constI32 0]⟩],
    funcs := [⟨0, [], [.localGet 0, .globalGet 0, .num .i32Add, .globalSet 0, .globalGet 0]⟩,
      ⟨0, [], [.localGet 0, .constI32 1, .callIndirect 0 0]⟩],
    exports := [⟨[0x61], .func 0⟩, ⟨[0x62], .func 1⟩, ⟨[0x74], .table 0⟩, ⟨[0x6D], .mem 0⟩, ⟨[0x67], .global 0⟩] }

/-- (module (type (func (param i32) (result i32))) (import "" "a" (func (type 0))) (import "" "b" (func (type 0))) (import "" "t" (table 1 funcref))
  (import "" "m" (memory 1)) (import "" "g" (global (mut i32)))
  (func (type 0) (i32.load (local.get 0)))
  (func (type 0) (drop (call 0 (local.get 0))) (i32.store (i32.const 16) (global.get 0)) (call 1 (i32.const 16)))
  (elem (i32.const 1) 2) (export "c" (func 3))) -/
def userModule : Module :=
  { types := [⟨[.i32], [.i32]⟩],
    imports := [⟨[], [0x61], .func 0⟩, ⟨[], [0x62], .func 0⟩, ⟨[], [0x74], .table ⟨⟨1, none⟩, .funcRef⟩⟩, ⟨[], [0x6D], .mem ⟨⟨1, none⟩⟩⟩,
      ⟨[], [0x67], .global ⟨.var, .i32⟩⟩],
    funcs := [⟨0, [], [.localGet 0, .load .i32Load 0 0]⟩,
      ⟨0, [], [.localGet 0, .call 0, .drop, .constI32 16, .globalGet 0, .store .i32Store 0 0, .constI32 16, .call 1]⟩],
    elem := [⟨0, [.constI32 1], [2]⟩], exports := [⟨[0x63], .func 3⟩] }

/-- The types reported for the first module. -/
def providerResult : ModuleResult :=
  ⟨[], [.func ⟨[.i32], [.i32]⟩, .func ⟨[.i32], [.i32]⟩, .table ⟨⟨2, none⟩, .funcRef⟩, .mem ⟨⟨1, some 2⟩⟩, .global ⟨.var, .i32⟩]⟩

def userResult : ModuleResult :=
  ⟨[.func ⟨[.i32], [.i32]⟩, .func ⟨[.i32], [.i32]⟩, .table ⟨⟨1, none⟩, .funcRef⟩, .mem ⟨⟨1, none⟩⟩, .global ⟨.var, .i32⟩],
    [.func ⟨[.i32], [.i32]⟩]⟩

/-- A machine with the right `i32.add`, and without host functions. -/
def linkMachine : Machine where
  num op args :=
    match op, args with
    | .i32Add, [.i32 a, .i32 b] => some (.i32 (a + b))
    | op, _ => (numType op).2.head?.map Run.zero
  grow _ _ _ := true
  host _ st _ := (st, none)

theorem linkMachine_num : NumOk linkMachine := by
  intro op args v h hv
  have h1 : ∃ t, (numType op).2 = [t] := by rw [numType_eq]; cases op <;> exact ⟨_, rfl⟩
  obtain ⟨t, ht⟩ := h1
  simp only [linkMachine] at hv
  split at hv
  · cases hv; rfl
  · rw [ht] at hv
    cases hv
    rw [ht, Run.zero_type]

theorem linkMachine_host : HostOk linkMachine := by
  intro t id st args st' res hst hm hargs h
  cases h
  exact ⟨hst, extends_refl _, fun vs hv => by cases hv⟩

theorem providerModule_linkable : Linkable providerModule providerResult := by
  refine ⟨by decide +kernel, ?_, ?_⟩
  · intro f hf
    refine (plain_iff.mp ?_).2
    simp only [providerModule, List.mem_cons, List.not_mem_nil, or_false] at hf
    rcases hf with rfl | rfl <;> simp [plainL, plainI]
  · intro g hg x hx
    simp only [providerModule, List.mem_cons, List.not_mem_nil, or_false] at hg
    subst hg
    simp at hx

theorem userModule_linkable : Linkable userModule userResult := by
  refine ⟨by decide +kernel, ?_, ?_⟩
  · intro f hf
    refine (plain_iff.mp ?_).2
    simp only [userModule, List.mem_cons, List.not_mem_nil, or_false] at hf
    rcases hf with rfl | rfl <;> simp [plainL, plainI]
  · intro g hg x hx
    simp [userModule] at hg

def startedStore : Started → Store
  | .ok _ st => st
  | _ => {}

def startedInst : Started → Inst
  | .ok inst _ => inst
  | _ => {}

def calledValues : Called → Option (List Value) × Store
  | .values vs st => (some vs, st)
  | .trap st => (none, st)
  | _ => (none, {})

/-- The store with both modules. -/
def twoModules : Store :=
  startedStore (instantiate linkMachine userModule [.func 0, .func 1, .table 0, .mem 0, .global 0] 9
    (startedStore (instantiate linkMachine providerModule [] 9 {})))

-- function 3 calls the first module, which calls through the table a function of the second, which reads the common memory: 5, then 5 + 7
example : (calledValues (invoke linkMachine 9 3 [.i32 5] twoModules)).1 = some [.i32 5] ∧
    (calledValues (invoke linkMachine 9 3 [.i32 7] (calledValues (invoke linkMachine 9 3 [.i32 5] twoModules)).2)).1 = some [.i32 12] := by
  decide +kernel

-- the theorem covers it
example (s : System) (h : Reaches linkMachine Linkable ⟨{}, []⟩ s) (a : Nat) (v : BitVec 32) (ha : (.func a, .func ⟨[.i32], [.i32]⟩) ∈ s.pool)
    (fuel : Nat) : CallOk s ⟨[.i32], [.i32]⟩ (invoke linkMachine fuel a [.i32 v] s.store) :=
  (C70_history_partial linkMachine_num linkMachine_host
    (s := ⟨{}, []⟩) ⟨⟨fun _ h => (by cases h), fun _ h => (by cases h), fun _ h => (by cases h)⟩, fun _ _ h => (by cases h)⟩ h).2.2.2 a _ _ ha rfl fuel

-- any module can be given to an empty store if it has no imports
example (fuel : Nat) : StartedOk ⟨{}, []⟩ providerModule providerResult (instantiate linkMachine providerModule [] fuel {}) :=
  C70_instantiate_partial linkMachine_num linkMachine_host
    ⟨⟨fun _ h => (by cases h), fun _ h => (by cases h), fun _ h => (by cases h)⟩, fun _ _ h => (by cases h)⟩ providerModule_linkable
    ⟨rfl, fun i t x h => (by simp [providerResult] at h)⟩ fuel

-- the types matter: with the memory in the place of the table and the table in that of the memory, or without the imports, the second is stuck
example : instantiate linkMachine userModule [.func 0, .func 1, .mem 0, .global 0] 9
      (startedStore (instantiate linkMachine providerModule [] 9 {})) = .stuck ∧
    instantiate linkMachine userModule [] 9 (startedStore (instantiate linkMachine providerModule [] 9 {})) = .stuck :=
  ⟨rfl, rfl⟩

/-! ## The code accepts modules that confuse the others -/

/-- (module (global i64 (i64.const 7)) (export "" (global 0))) -/
def longModule : Module :=
  { globals := [⟨⟨.const, .i64⟩, [.constI64 7]⟩], exports := [⟨[], .global 0⟩] }

/-- (module (type (func (result i32))) (import "" "" (global i64)) (global i32 (global.get 0)) (func (type 0) (global.get 1)) (export "" (func 0))) -/
def confusedModule : Module :=
  { types := [⟨[], [.i32]⟩], imports := [⟨[], [], .global ⟨.const, .i64⟩⟩], globals := [⟨⟨.const, .i32⟩, [.globalGet 0]⟩],
    funcs := [⟨0, [], [.globalGet 1]⟩], exports := [⟨[], .func 0⟩] }

/-- The store with both. -/
def confusedStore : Store :=
  startedStore (instantiate linkMachine confusedModule [.global 0] 0 (startedStore (instantiate linkMachine longModule [] 0 {})))

/-- The module was read from a binary and accepted with these types. -/
def ReadAndAccepted (m : Module) (r : ModuleResult) : Prop :=
  (∃ bytes, parseModule bytes = (.ok m, [])) ∧ validateModule m = .ok r

/-- **C70 fails**: two modules that the code reads and accepts, linked by the types that it reports; an exported function is then stuck. -/
theorem C70_negation : ∃ s, Reaches linkMachine ReadAndAccepted ⟨{}, []⟩ s ∧ (.func 0, .func ⟨[], [.i32]⟩) ∈ s.pool ∧
    ∀ fuel, invoke linkMachine (fuel + 1) 0 [] s.store = .stuck := by
  refine ⟨⟨confusedStore, [(.global 0, .global ⟨.const, .i64⟩), (.func 0, .func ⟨[], [.i32]⟩)]⟩, ?_, by simp, fun _ => rfl⟩
  have h1 : Reaches linkMachine ReadAndAccepted ⟨{}, []⟩
      ⟨startedStore (instantiate linkMachine longModule [] 0 {}), [(.global 0, .global ⟨.const, .i64⟩)]⟩ :=
    Reaches.module (m := longModule) (r := ⟨[], [.global ⟨.const, .i64⟩]⟩) (imports := []) (fuel := 0)
      (inst := startedInst (instantiate linkMachine longModule [] 0 {})) (.refl _)
      ⟨⟨encModule longModule, by decide +kernel⟩, by decide +kernel⟩ ⟨rfl, fun i t x h => by simp at h⟩ rfl
  exact Reaches.module (m := confusedModule) (r := ⟨[.global ⟨.const, .i64⟩], [.func ⟨[], [.i32]⟩]⟩) (imports := [.global 0]) (fuel := 0)
    (inst := startedInst (instantiate linkMachine confusedModule [.global 0] 0 (startedStore (instantiate linkMachine longModule [] 0 {})))) h1
    ⟨⟨encModule confusedModule, by decide +kernel⟩, by decide +kernel⟩
    ⟨rfl, fun i t x h1 h2 => by
      cases i with
      | zero => cases h1; cases h2; exact ⟨_, by simp, .global _⟩
      | succ i => simp at h1⟩ rfl

end Whasm
