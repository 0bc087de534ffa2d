import Verif.Lemmas.Instantiate
import Verif.Lemmas.Fuel
import Verif.Props.Exact
import Verif.Props.Encode

/-!
# C61, C62: what validation is good for

`Spec/Run.lean` is a reference interpreter for WebAssembly, `Spec/Instantiate.lean` instantiation; the places where the document relies on
validation are the outcome `stuck`.
-/

namespace Whasm
open Spec Run

/-! ## C61 -/

theorem ownFuncs_types (m : Module) : (ownFuncs m).map FuncInst.type = m.funcs.filterMap fun f => m.types[f.ty.toNat]? := by
  rw [ownFuncs, List.map_filterMap]
  congr
  funext f
  cases m.types[f.ty.toNat]? <;> rfl

/-- An instance of an accepted module is all that execution needs. -/
theorem fit_of_accepted {m : Module} {r : ModuleResult} (h : validateModule m = .ok r) (he : NoElse m) {M : Machine} (hM : Instance m M)
    (hn : NumOk M) (hh : HostOk m M) : Fit m M := by
  obtain ⟨ht, imp, hf, hi, hx⟩ := hM
  refine ⟨ht, fun i t hi' => ?_, fun t f hm => ?_, hn, hh⟩
  · have h1 : M.funcs.map FuncInst.type = funcSpace m := by rw [hf, List.map_append, hi, ownFuncs_types]; rfl
    rw [← h1, List.getElem?_map] at hi'
    cases hg : M.funcs[i]? with
    | none => rw [hg] at hi'; cases hi'
    | some fi => rw [hg] at hi'; exact ⟨fi, rfl, Option.some.inj hi'⟩
  · have hm' : .own t f ∈ ownFuncs m := by
      rw [Machine.all, hf] at hm
      simp only [List.mem_append] at hm
      have no : ∀ {l : List FuncInst}, (∀ fi ∈ l, fi ∈ imp ++ M.foreign) → .own t f ∉ l := by
        intro l hl hm
        obtain ⟨_, _, h⟩ := hx _ (hl _ hm)
        cases h
      rcases hm with (hm | hm) | hm
      · exact (no (fun _ h => List.mem_append_left _ h) hm).elim
      · exact hm
      · exact (no (fun _ h => List.mem_append_right _ h) hm).elim
    obtain ⟨g, hg, hgt⟩ := List.mem_filterMap.mp hm'
    cases ht' : m.types[g.ty.toNat]? with
    | none => rw [ht'] at hgt; cases hgt
    | some t' =>
      rw [ht'] at hgt
      cases hgt
      obtain ⟨t'', h1, h2⟩ := C30_typed h he hg
      rw [ht'] at h1
      cases h1
      exact h2

/-- **C61, modules built by hand.** Every call of a function of an accepted module, with arguments of the right types, returns results of the right
types, traps, or does not return: it never gets stuck. The store stays well formed, immutable globals keep their values, memories only grow. -/
theorem C61_call {m : Module} {r : ModuleResult} (h : validateModule m = .ok r) (he : NoElse m) {M : Machine} (hM : Instance m M)
    (hn : NumOk M) (hh : HostOk m M) {st : Store} (hst : StoreOk m M.all.length st) {a : Nat} {t : FuncTy} (ha : (funcSpace m)[a]? = some t)
    {args : List Value} (hargs : args.map Value.type = t.params) (fuel : Nat) : CallOk m M st t (invoke M fuel a args st) := by
  have H := fit_of_accepted h he hM hn hh
  obtain ⟨fi, hf, rfl⟩ := H.funcs a t ha
  exact invoke_ok H hf hst hargs fuel

/-- **C61, parsed modules.** -/
theorem C61_parsed {s rest : List Byte} {m : Module} (hs : parseModule s = (.ok m, rest)) {r : ModuleResult} (h : validateModule m = .ok r)
    {M : Machine} (hM : Instance m M) (hn : NumOk M) (hh : HostOk m M) {st : Store} (hst : StoreOk m M.all.length st) {a : Nat} {t : FuncTy}
    (ha : (funcSpace m)[a]? = some t) {args : List Value} (hargs : args.map Value.type = t.params) (fuel : Nat) :
    CallOk m M st t (invoke M fuel a args st) :=
  C61_call h (parsed_noElse hs) hM hn hh hst ha hargs fuel

/-- **C61, any history of calls.** Whatever has been called before, with whatever result. -/
theorem C61_history {m : Module} {r : ModuleResult} (h : validateModule m = .ok r) (he : NoElse m) {M : Machine} (hM : Instance m M)
    (hn : NumOk M) (hh : HostOk m M) {st st' : Store} (hst : StoreOk m M.all.length st) (hr : Reaches m M st st') :
    StoreOk m M.all.length st' ∧ Evolves m st st' ∧ ∀ a t args, (funcSpace m)[a]? = some t → args.map Value.type = t.params →
      ∀ fuel, CallOk m M st' t (invoke M fuel a args st') := by
  have key : StoreOk m M.all.length st' ∧ Evolves m st st' := by
    induction hr with
    | refl => exact ⟨hst, evolves_refl m st⟩
    | values _ ha hargs hv ih =>
      obtain ⟨h1, h2⟩ := ih
      have := (hv ▸ C61_call h he hM hn hh h1 ha hargs _ : CallOk m M _ _ (.values _ _))
      exact ⟨this.2.1, evolves_trans h2 this.2.2⟩
    | trap _ ha hargs hv ih =>
      obtain ⟨h1, h2⟩ := ih
      have := (hv ▸ C61_call h he hM hn hh h1 ha hargs _ : CallOk m M _ ⟨_, _⟩ (.trap _))
      exact ⟨this.1, evolves_trans h2 this.2⟩
  exact ⟨key.1, key.2, fun a t args ha hargs fuel => C61_call h he hM hn hh key.1 ha hargs fuel⟩

/-- **C61, results do not depend on the amount of fuel**: the outcome of a call is well defined. -/
theorem C61_fuel {M : Machine} {n k a : Nat} {args : List Value} {st : Store} (h : invoke M n a args st ≠ .timeout) :
    invoke M (n + k) a args st = invoke M n a args st := invoke_fuel h

/-- A module built by hand with a stray `Else`. -/
def elseModule : Module := { types := [⟨[], []⟩], funcs := [⟨0, [], [.elseMark]⟩] }

/-- **C61, the hypothesis on modules built by hand is needed**: this one is accepted and gets stuck. -/
theorem C61_else {num : NumOp → List Value → Option Value} {grow : Store → Nat → Nat → Bool}
    {host : Nat → Store → List Value → Store × Option (List Value)} (st : Store) (fuel : Nat) :
    validateModule elseModule = .ok ⟨[], []⟩ ∧ Instance elseModule ⟨[⟨[], []⟩], ownFuncs elseModule, [], num, grow, host⟩ ∧
    invoke ⟨[⟨[], []⟩], ownFuncs elseModule, [], num, grow, host⟩ (fuel + 1) 0 [] st = .stuck :=
  ⟨by decide +kernel, ⟨rfl, [], rfl, rfl, by simp⟩, rfl⟩

/-! An example that uses everything: a loop, an import, a table, a memory with data, globals. -/

/-- (module (type (func (param i32) (result i32))) (type (func)) (import "" "" (func (type 0)))
  (func (type 0) (local i32)  (local.set 1 (i32.const 1))
    block loop (br_if 1 (i32.eqz (local.get 0))) (local.set 1 (i32.mul (local.get 1) (local.get 0)))
      (local.set 0 (i32.sub (local.get 0) (i32.const 1))) (br 0) end end (local.get 1))
  (func (type 0) (call_indirect (type 0) (i32.load8_u (i32.const 8)) (local.get 0)))
  (func (type 1) (global.set 1 (i32.add (global.get 0) (i32.const 4))))
  (table 2 funcref) (elem (i32.const 0) 1 0) (memory 1 2) (data (i32.const 8) "\05")
  (global i32 (i32.const 3)) (global (mut i32) (i32.const 0)) (start 3) (export "i" (func 2))) -/
def factModule : Module :=
  { types := [⟨[.i32], [.i32]⟩, ⟨[], []⟩], imports := [⟨[], [], .func 0⟩],
    funcs := [⟨0, [.i32], [.constI32 1, .localSet 1, .block [] [.loop [] [.localGet 0, .num .i32Eqz, .brIf 1, .localGet 1, .localGet 0, .num .i32Mul,
        .localSet 1, .localGet 0, .constI32 1, .num .i32Sub, .localSet 0, .br 0]], .localGet 1]⟩,
      ⟨0, [], [.constI32 8, .load .i32Load8U 0 0, .localGet 0, .callIndirect 0 0]⟩,
      ⟨1, [], [.globalGet 0, .constI32 4, .num .i32Add, .globalSet 1]⟩],
    tables := [⟨⟨⟨2, none⟩, .funcRef⟩⟩], elem := [⟨0, [.constI32 0], [1, 0]⟩], mems := [⟨⟨⟨1, some 2⟩⟩⟩], data := [⟨0, [.constI32 8], [5]⟩],
    globals := [⟨⟨.const, .i32⟩, [.constI32 3]⟩, ⟨⟨.var, .i32⟩, [.constI32 0]⟩], start := some ⟨3⟩, exports := [⟨[0x69], .func 2⟩] }

/-- A machine for it. The numeric operators are right for the few operators used; the host function adds one and counts the calls. -/
def factMachine : Machine where
  types := factModule.types
  funcs := .host ⟨[.i32], [.i32]⟩ 0 :: ownFuncs factModule
  num op args :=
    match op, args with
    | .i32Add, [.i32 a, .i32 b] => some (.i32 (a + b))
    | .i32Sub, [.i32 a, .i32 b] => some (.i32 (a - b))
    | .i32Mul, [.i32 a, .i32 b] => some (.i32 (a * b))
    | .i32Eqz, [.i32 a] => some (.i32 (if a = 0 then 1 else 0))
    | op, _ => (numType op).2.head?.map zero
  grow _ _ _ := true
  host _ st args :=
    match args with
    | [.i32 a] => ({ st with world := st.world + 1 }, some [.i32 (a + 1)])
    | _ => (st, none)

theorem factModule_ok : validateModule factModule = .ok ⟨[.func ⟨[.i32], [.i32]⟩], [.func ⟨[.i32], [.i32]⟩]⟩ := by decide +kernel

theorem factModule_noElse : NoElse factModule := by
  intro f hf
  refine (plain_iff.mp ?_).2
  simp only [factModule, List.mem_cons, List.not_mem_nil, or_false] at hf
  rcases hf with rfl | rfl | rfl <;> simp [plainL, plainI]

theorem factMachine_instance : Instance factModule factMachine :=
  ⟨rfl, [.host ⟨[.i32], [.i32]⟩ 0], rfl, rfl, fun fi h => by
    simp only [factMachine, List.append_nil, List.mem_singleton] at h
    exact ⟨_, _, h⟩⟩

theorem factMachine_num : NumOk factMachine := by
  intro op args v h hv
  have h1 : ∃ t, (numType op).2 = [t] := by rw [numType_eq]; cases op <;> exact ⟨_, rfl⟩
  obtain ⟨t, ht⟩ := h1
  simp only [factMachine] at hv
  split at hv
  · cases hv; rfl
  · cases hv; rfl
  · cases hv; rfl
  · cases hv; rfl
  · rw [ht] at hv
    cases hv
    rw [ht, zero_type]

theorem factMachine_host : HostOk factModule factMachine := by
  intro t id hm st args hst hargs st' res h
  have ht : t = ⟨[.i32], [.i32]⟩ := by
    simp only [Machine.all, factMachine, ownFuncs, factModule, List.mem_append, List.mem_cons] at hm
    simp at hm
    exact hm.1
  subst ht
  simp only [factMachine] at h
  split at h
  · cases h
    refine ⟨⟨hst.globals, hst.mems, hst.tables⟩, ⟨fun _ _ _ _ => rfl, fun _ x h => ⟨x, h, Nat.le_refl _⟩, rfl⟩, fun vs hv => ?_⟩
    cases hv
    rfl
  · cases h
    exact ⟨hst, evolves_refl _ _, fun vs hv => by cases hv⟩

theorem factMachine_provided : ProvidedOk factModule factMachine.all.length {} :=
  ⟨rfl, ⟨rfl, fun i t x h => by simp [importedMems, factModule] at h⟩, ⟨rfl, fun i t x h => by simp [importedTables, factModule] at h⟩⟩

/-! ## C62 -/

/-- **C62.** Full statement: instantiating an accepted module with imports of the right types succeeds, is refused because a segment does not fit, traps
or does not return, and the resulting store is well formed, so that all later calls are safe. This is proved for modules whose global
initializers mention immutable imported globals of the right type only, as the document demands; the validator does not ensure this (C41). -/
theorem C62_partial {m : Module} {r : ModuleResult} (h : validateModule m = .ok r) (he : NoElse m)
    (hg : ∀ g ∈ m.globals, ∀ x, .globalGet x ∈ g.init → (importedGlobals m)[x.toNat]? = some ⟨.const, g.ty.val⟩)
    {M : Machine} (hM : Instance m M) (hn : NumOk M) (hh : HostOk m M) {p : Provided} (hp : ProvidedOk m M.all.length p) (fuel : Nat) :
    ∃ gs, all (fun (g : Global) => evalConst M (beforeGlobals p) g.init) m.globals = some gs ∧
      StoreOk m M.all.length (allocated m p gs) ∧ StartedOk m M (allocated m p gs) (instantiate M m p fuel) := by
  obtain ⟨h1, h2, h3⟩ := C40_module h
  refine instantiate_ok (fit_of_accepted h he hM hn hh) (validate_any_iff.mp h).1.1 (fun g hm => ?_) h2 h3 hp fuel
  have h4 := h1 g hm
  have h5 := hg g hm
  generalize g.init = e at h4 h5
  generalize g.ty.val = t at h4 h5
  cases h4 with
  | i32 v => exact .i32 v
  | i64 v => exact .i64 v
  | f32 v => exact .f32 v
  | f64 v => exact .f64 v
  | global _ => exact .global (h5 _ List.mem_cons_self)

/-- **C62, from bytes to any history of calls.** -/
theorem C62_history_partial {s rest : List Byte} {m : Module} (hs : parseModule s = (.ok m, rest)) {r : ModuleResult}
    (h : validateModule m = .ok r)
    (hg : ∀ g ∈ m.globals, ∀ x, .globalGet x ∈ g.init → (importedGlobals m)[x.toNat]? = some ⟨.const, g.ty.val⟩)
    {M : Machine} (hM : Instance m M) (hn : NumOk M) (hh : HostOk m M) {p : Provided} (hp : ProvidedOk m M.all.length p) {fuel : Nat} {st st' : Store}
    (hi : instantiate M m p fuel = .ok st) (hr : Reaches m M st st') {a : Nat} {t : FuncTy} (ha : (funcSpace m)[a]? = some t)
    {args : List Value} (hargs : args.map Value.type = t.params) (fuel' : Nat) : CallOk m M st' t (invoke M fuel' a args st') := by
  obtain ⟨gs, _, _, h1⟩ := C62_partial h (parsed_noElse hs) hg hM hn hh hp fuel
  rw [hi] at h1
  exact (C61_history h (parsed_noElse hs) hM hn hh h1.1 hr).2.2 a t args ha hargs fuel'

def resultOf : Called → Option (List Value)
  | .values vs _ => some vs
  | _ => none

def isTrap : Called → Bool
  | .trap _ => true
  | _ => false

/-- Instantiates the example and calls a function. -/
def factCall (a fuel : Nat) (args : List Value) : Called :=
  match instantiate factMachine factModule {} 20 with
  | .ok st => invoke factMachine fuel a args st
  | _ => .stuck

-- 5! through the table; the imported function through the table; beyond the table; not enough fuel; the start function has set the global
example : resultOf (factCall 2 20 [.i32 0]) = some [.i32 120] ∧ resultOf (factCall 2 20 [.i32 1]) = some [.i32 6] ∧
    isTrap (factCall 2 20 [.i32 2]) = true ∧ resultOf (factCall 2 7 [.i32 0]) = none ∧
    (match instantiate factMachine factModule {} 20 with | .ok st => st.globals | _ => []) = [.i32 3, .i32 7] := by decide +kernel

-- the theorem applies to it
example (fuel : Nat) : ∃ gs, StartedOk factModule factMachine (allocated factModule {} gs) (instantiate factMachine factModule {} fuel) := by
  obtain ⟨gs, _, _, h⟩ := C62_partial factModule_ok factModule_noElse (by
    intro g hg x hx
    simp only [factModule, List.mem_cons, List.not_mem_nil, or_false] at hg
    rcases hg with rfl | rfl <;> simp at hx) factMachine_instance factMachine_num factMachine_host factMachine_provided fuel
  exact ⟨gs, h⟩

-- and C61 to every store that instantiation may lead to
example (st st' : Store) (hst : StoreOk factModule factMachine.all.length st) (hr : Reaches factModule factMachine st st') (a : BitVec 32) (fuel : Nat) :
    CallOk factModule factMachine st' ⟨[.i32], [.i32]⟩ (invoke factMachine fuel 2 [.i32 a] st') :=
  (C61_history factModule_ok factModule_noElse factMachine_instance factMachine_num factMachine_host hst hr).2.2 2 _ _ rfl rfl fuel

/-- A machine for modules without imports. -/
def plainMachine (m : Module) : Machine where
  types := m.types
  funcs := ownFuncs m
  num op _ := (numType op).2.head?.map zero
  grow _ _ _ := true
  host _ st _ := (st, none)

/-- **C62 is false of the code**: this module can be parsed and is accepted, but its global is initialized with itself. -/
theorem C62_negation : parseModule (encModule selfGlobal) = (.ok selfGlobal, []) ∧ validateModule selfGlobal = .ok ⟨[], []⟩ ∧
    Instance selfGlobal (plainMachine selfGlobal) ∧ ProvidedOk selfGlobal 0 {} ∧
    ∀ fuel, instantiate (plainMachine selfGlobal) selfGlobal {} fuel = .stuck :=
  ⟨by decide +kernel, by decide +kernel, ⟨rfl, [], rfl, rfl, by simp [plainMachine]⟩,
    ⟨rfl, ⟨rfl, fun i t x h => by simp [importedMems, selfGlobal] at h⟩, ⟨rfl, fun i t x h => by simp [importedTables, selfGlobal] at h⟩⟩,
    fun _ => rfl⟩

/-- (module (import "" "" (global i64)) (global i32 (global.get 0)) (func (result i32) (global.get 1))). The validator resolves index 0 to the
module's own global, of type i32; in WebAssembly it is the imported one, of type i64. -/
def confused : Module :=
  { types := [⟨[], [.i32]⟩], imports := [⟨[], [], .global ⟨.const, .i64⟩⟩], globals := [⟨⟨.const, .i32⟩, [.globalGet 0]⟩],
    funcs := [⟨0, [], [.globalGet 1]⟩] }

/-- **C62, type confusion**: an accepted module can be instantiated, and then a function with result i32 gets stuck since the global holds an i64. -/
theorem C62_confused_negation : parseModule (encModule confused) = (.ok confused, []) ∧
    validateModule confused = .ok ⟨[.global ⟨.const, .i64⟩], []⟩ ∧ Instance confused (plainMachine confused) ∧
    ProvidedOk confused 1 { globals := [.i64 7] } ∧ ∀ fuel,
    instantiate (plainMachine confused) confused { globals := [.i64 7] } fuel = .ok ⟨[.i64 7, .i64 7], [], [], 0⟩ ∧
    invoke (plainMachine confused) (fuel + 1) 0 [] ⟨[.i64 7, .i64 7], [], [], 0⟩ = .stuck :=
  ⟨by decide +kernel, by decide +kernel, ⟨rfl, [], rfl, rfl, by simp [plainMachine]⟩,
    ⟨rfl, ⟨rfl, fun i t x h => by simp [importedMems, confused] at h⟩, ⟨rfl, fun i t x h => by simp [importedTables, confused] at h⟩⟩,
    fun _ => ⟨rfl, rfl⟩⟩

end Whasm
