import Verif.Lemmas.Preserve
import Verif.Lemmas.Reduce
import Verif.Props.Run

/-!
# C83: execution by the rules of the document

`Spec/Reduce.lean` has the reduction rules of the W3C document, one for each way in which an instruction can be executed. Nothing here mentions fuel, or an outcome `stuck`.
-/

namespace Whasm
open Spec Run

/-- What the interpreter says is what the rules do: an invocation from a call. -/
theorem sim_invoke {M : Machine} {a : Nat} {fi : FuncInst} (ha : M.funcs[a]? = some fi) (fuel : Nat) (args : List Value) (st : Store) :
    match Run.invoke M fuel a args st with
    | .values vs st' => ∃ k c, Steps M k (called args st) [.invoke fi] c [] ∧ c.stack.reverse = vs ∧ c.store = st'
    | .trap st' => ∃ k c es, Steps M k (called args st) [.invoke fi] c (.trap :: es) ∧ c.store = st'
    | .timeout => ∃ k c es, fuel ≤ k ∧ Steps M k (called args st) [.invoke fi] c es
    | .stuck => ∃ k c es, Steps M k (called args st) [.invoke fi] c es ∧ ¬ Final es ∧ ∀ c' fs, ¬ Step M c es c' fs := by
  have h := sim_call (sim_exec (M := M) fuel) fi (called args st) []
  unfold Run.invoke
  rw [ha]
  dsimp only
  show match (match call M (exec M fuel) fi (called args st) with | .normal c => Called.values c.stack.reverse c.store | .trap st => .trap st | .timeout => .timeout | _ => .stuck) with
    | .values vs st' => _ | .trap st' => _ | .timeout => _ | .stuck => _
  have hb : ∀ {c es}, Blocked M c es → ¬ Final es := fun h hf => by
    cases hf with
    | values => exact h.nil rfl
    | trap => exact h.trap _ rfl
  have hnf : ∀ i es, ¬ Final (.plain i :: es) := fun i es h => by cases h
  cases ho : call M (exec M fuel) fi (called args st) with
  | normal c' => rw [ho] at h; obtain ⟨k, h⟩ := h; exact ⟨k, c', h, rfl, rfl⟩
  | trap st' => rw [ho] at h; obtain ⟨k, c', es, hc, h⟩ := h; exact ⟨k, c', es, h, hc⟩
  | timeout => rw [ho] at h; exact h
  | stuck => rw [ho] at h; obtain ⟨k, c', es, h, hs⟩ := h; exact ⟨k, c', es, h, hb hs, hs.step⟩
  | br l c' => rw [ho] at h; obtain ⟨k, i, es, _, h⟩ := h; exact ⟨k, c', _, h, hnf _ _, fun _ _ => not_step_br⟩
  | ret c' => rw [ho] at h; obtain ⟨k, es, h⟩ := h; exact ⟨k, c', _, h, hnf _ _, fun _ _ => not_step_ret⟩

/-- **C83, the rules leave no choice.** -/
theorem C83_deterministic {M : Machine} {c c1 c2 : Conf} {es es1 es2 : List Admin} (h : Step M c es c1 es1) (h' : Step M c es c2 es2) : c1 = c2 ∧ es1 = es2 := step_det h h'

/-- **C83, progress.** In every state that a call of a function of an accepted module gets into, with arguments of the right types, a rule applies, unless it has come to an end. -/
theorem C83_progress {m : Module} {r : ModuleResult} (h : validateModule m = .ok r) (he : NoElse m) {M : Machine} (hM : Instance m M)
    (hn : NumOk M) (hh : HostOk m M) {st : Store} (hst : StoreOk m M.all.length st) {a : Nat} {t : FuncTy} (ht : (funcSpace m)[a]? = some t)
    {fi : FuncInst} (ha : M.funcs[a]? = some fi) {args : List Value} (hargs : args.map Value.type = t.params)
    {k : Nat} {c : Conf} {es : List Admin} (hs : Steps M k (called args st) [.invoke fi] c es) : Final es ∨ ∃ c' es', Step M c es c' es' := by
  have hc := C61_call h he hM hn hh hst ht hargs (k + 1)
  have hi := sim_invoke ha (k + 1) args st
  have on : ∀ {j c1 es1}, Steps M j (called args st) [.invoke fi] c1 es1 → Final es1 → Final es ∨ ∃ c' es', Step M c es c' es' := by
    intro j c1 es1 h1 hf
    by_cases hj : j ≤ k
    · obtain ⟨d, rfl⟩ := Nat.exists_eq_add_of_le hj
      have hd := steps_det h1 hs
      generalize d = d' at hd
      cases hd with
      | zero => exact .inl hf
      | succ h2 _ => exact (final_stops hf h2).elim
    · obtain ⟨d, rfl⟩ := Nat.exists_eq_add_of_lt (Nat.lt_of_not_le hj)
      have hd := steps_det (b := d + 1) hs h1
      cases hd with
      | succ h2 _ => exact .inr ⟨_, _, h2⟩
  cases ho : Run.invoke M (k + 1) a args st with
  | values vs st' => rw [ho] at hi; obtain ⟨j, c1, h1, _, _⟩ := hi; exact on h1 .values
  | trap st' => rw [ho] at hi; obtain ⟨j, c1, es1, h1, _⟩ := hi; exact on h1 .trap
  | timeout =>
    rw [ho] at hi
    obtain ⟨j, c1, es1, hj, h1⟩ := hi
    obtain ⟨d, rfl⟩ := Nat.exists_eq_add_of_lt (show k < j from hj)
    have hd := steps_det (b := d + 1) hs h1
    cases hd with
    | succ h2 _ => exact .inr ⟨_, _, h2⟩
  | stuck => rw [ho] at hc; exact hc.elim

theorem steps_take {M : Machine} {a b : Nat} {c c2 : Conf} {es es2 : List Admin} (h : Steps M b c es c2 es2) (hab : a ≤ b) : ∃ c1 es1, Steps M a c es c1 es1 := by
  induction h generalizing a with
  | zero => obtain rfl : a = 0 := by omega
            exact ⟨_, _, .zero⟩
  | succ h _ ih =>
    cases a with
    | zero => exact ⟨_, _, .zero⟩
    | succ a =>
      obtain ⟨c1, es1, h1⟩ := ih (Nat.le_of_succ_le_succ hab)
      exact ⟨c1, es1, .succ h h1⟩

/-- If the rules come to a state without a next one then the interpreter, given enough fuel, says which. -/
theorem invoke_of_stop {M : Machine} {a : Nat} {fi : FuncInst} (ha : M.funcs[a]? = some fi) {args : List Value} {st : Store} {k : Nat} {c : Conf} {es : List Admin}
    (hs : Steps M k (called args st) [.invoke fi] c es) (hn : ∀ c' fs, ¬ Step M c es c' fs) :
    match Run.invoke M (k + 1) a args st with
    | .values vs st' => es = [] ∧ c.stack.reverse = vs ∧ c.store = st'
    | .trap st' => (∃ fs, es = .trap :: fs) ∧ c.store = st'
    | .timeout => False
    | .stuck => ¬ Final es := by
  have hi := sim_invoke ha (k + 1) args st
  cases ho : Run.invoke M (k + 1) a args st with
  | values vs st' =>
    rw [ho] at hi
    obtain ⟨j, c1, h1, hv, hst⟩ := hi
    obtain ⟨_, rfl, rfl⟩ := ends_same hs h1 hn fun _ _ => final_stops .values
    exact ⟨rfl, hv, hst⟩
  | trap st' =>
    rw [ho] at hi
    obtain ⟨j, c1, es1, h1, hst⟩ := hi
    obtain ⟨_, rfl, rfl⟩ := ends_same hs h1 hn fun _ _ => final_stops .trap
    exact ⟨⟨_, rfl⟩, hst⟩
  | timeout =>
    rw [ho] at hi
    obtain ⟨j, c1, es1, hj, h1⟩ := hi
    obtain ⟨d, rfl⟩ := Nat.exists_eq_add_of_lt (show k < j from hj)
    have hd := steps_det (b := d + 1) hs h1
    cases hd with
    | succ h2 _ => exact hn _ _ h2
  | stuck =>
    rw [ho] at hi
    obtain ⟨j, c1, es1, h1, hf, hst⟩ := hi
    obtain ⟨_, rfl, rfl⟩ := ends_same hs h1 hn hst
    exact hf

/-- **C83, the interpreter of C61 is right**, for accepted modules and others: it returns values iff the rules end with these values, it traps iff the rules end with a trap, each
with the same store; whatever the fuel it does not return iff the rules can be applied forever; and it is stuck iff the rules come to a state that is not an end and has no next one. -/
theorem C83_interpreter {M : Machine} {a : Nat} {fi : FuncInst} (ha : M.funcs[a]? = some fi) (args : List Value) (st : Store) :
    (∀ vs st', (∃ fuel, Run.invoke M fuel a args st = .values vs st') ↔ ∃ k c, Steps M k (called args st) [.invoke fi] c [] ∧ c.stack.reverse = vs ∧ c.store = st') ∧
    (∀ st', (∃ fuel, Run.invoke M fuel a args st = .trap st') ↔ ∃ k c es, Steps M k (called args st) [.invoke fi] c (.trap :: es) ∧ c.store = st') ∧
    ((∀ fuel, Run.invoke M fuel a args st = .timeout) ↔ ∀ k, ∃ c es, Steps M k (called args st) [.invoke fi] c es) ∧
    ((∃ fuel, Run.invoke M fuel a args st = .stuck) ↔ ∃ k c es, Steps M k (called args st) [.invoke fi] c es ∧ ¬ Final es ∧ ∀ c' fs, ¬ Step M c es c' fs) := by
  have endless : ∀ {k c es}, Steps M k (called args st) [.invoke fi] c es → (∀ c' fs, ¬ Step M c es c' fs) →
      ¬ ∀ k, ∃ c es, Steps M k (called args st) [.invoke fi] c es := by
    intro k c es hs hn hall
    obtain ⟨c1, es1, h1⟩ := hall (k + 1)
    have hd := steps_det (b := 1) hs h1
    cases hd with
    | succ h2 _ => exact hn _ _ h2
  refine ⟨fun vs st' => ⟨fun ⟨fuel, hf⟩ => ?_, fun ⟨k, c, hs, hv, hst⟩ => ⟨k + 1, ?_⟩⟩, fun st' => ⟨fun ⟨fuel, hf⟩ => ?_, fun ⟨k, c, es, hs, hst⟩ => ⟨k + 1, ?_⟩⟩,
    ⟨fun hall k => ?_, fun hall fuel => ?_⟩, ⟨fun ⟨fuel, hf⟩ => ?_, fun ⟨k, c, es, hs, hfin, hn⟩ => ⟨k + 1, ?_⟩⟩⟩
  · have hi := sim_invoke ha fuel args st
    rw [hf] at hi
    exact hi
  · have hi := invoke_of_stop ha hs fun _ _ => final_stops .values
    cases ho : Run.invoke M (k + 1) a args st with
    | values vs1 st1 => rw [ho] at hi; obtain ⟨_, rfl, rfl⟩ := hi; rw [hv, hst]
    | trap st1 => rw [ho] at hi; obtain ⟨⟨_, h⟩, _⟩ := hi; cases h
    | timeout => rw [ho] at hi; exact hi.elim
    | stuck => rw [ho] at hi; exact (hi .values).elim
  · have hi := sim_invoke ha fuel args st
    rw [hf] at hi
    exact hi
  · have hi := invoke_of_stop ha hs fun _ _ => final_stops .trap
    cases ho : Run.invoke M (k + 1) a args st with
    | values vs1 st1 => rw [ho] at hi; obtain ⟨h, _⟩ := hi; cases h
    | trap st1 => rw [ho] at hi; obtain ⟨_, rfl⟩ := hi; rw [hst]
    | timeout => rw [ho] at hi; exact hi.elim
    | stuck => rw [ho] at hi; exact (hi .trap).elim
  · have hi := sim_invoke ha k args st
    rw [hall k] at hi
    obtain ⟨j, c, es, hj, hs⟩ := hi
    exact steps_take hs hj
  · have hi := sim_invoke ha fuel args st
    cases ho : Run.invoke M fuel a args st with
    | values vs1 st1 => rw [ho] at hi; obtain ⟨j, c, hs, _⟩ := hi; exact (endless hs (fun _ _ => final_stops .values) hall).elim
    | trap st1 => rw [ho] at hi; obtain ⟨j, c, es, hs, _⟩ := hi; exact (endless hs (fun _ _ => final_stops .trap) hall).elim
    | timeout => rfl
    | stuck => rw [ho] at hi; obtain ⟨j, c, es, hs, _, hn⟩ := hi; exact (endless hs hn hall).elim
  · have hi := sim_invoke ha fuel args st
    rw [hf] at hi
    exact hi
  · have hi := invoke_of_stop ha hs hn
    cases ho : Run.invoke M (k + 1) a args st with
    | values vs1 st1 => rw [ho] at hi; obtain ⟨rfl, _⟩ := hi; exact (hfin .values).elim
    | trap st1 => rw [ho] at hi; obtain ⟨⟨_, rfl⟩, _⟩ := hi; exact (hfin .trap).elim
    | timeout => rw [ho] at hi; exact hi.elim
    | stuck => rfl

/-- **C83, what comes out.** If the rules end without a trap then they leave values of the result types and nothing else; and however they end the store is well formed, with the immutable
globals as before and no memory smaller. -/
theorem C83_results {m : Module} {r : ModuleResult} (h : validateModule m = .ok r) (he : NoElse m) {M : Machine} (hM : Instance m M)
    (hn : NumOk M) (hh : HostOk m M) {st : Store} (hst : StoreOk m M.all.length st) {a : Nat} {t : FuncTy} (ht : (funcSpace m)[a]? = some t)
    {fi : FuncInst} (ha : M.funcs[a]? = some fi) {args : List Value} (hargs : args.map Value.type = t.params)
    {k : Nat} {c : Conf} {es : List Admin} (hs : Steps M k (called args st) [.invoke fi] c es) (hf : Final es) :
    StoreOk m M.all.length c.store ∧ Evolves m st c.store ∧ (es = [] → c.stack.reverse.map Value.type = t.results) := by
  cases hf with
  | values =>
    obtain ⟨fuel, h1⟩ := ((C83_interpreter ha args st).1 _ _).mpr ⟨k, c, hs, rfl, rfl⟩
    have h2 := C61_call h he hM hn hh hst ht hargs fuel
    rw [h1] at h2
    exact ⟨h2.2.1, h2.2.2, fun _ => h2.1⟩
  | trap =>
    obtain ⟨fuel, h1⟩ := ((C83_interpreter ha args st).2.1 _).mpr ⟨k, c, _, hs, rfl⟩
    have h2 := C61_call h he hM hn hh hst ht hargs fuel
    rw [h1] at h2
    exact ⟨h2.1, h2.2, fun h => by cases h⟩

/-- **C83, every state on the way**, also of an execution that never ends: the store is well formed, it still has the immutable globals of the start and no memory is smaller, and no step changes an
immutable global or makes a memory smaller. -/
theorem C83_store {m : Module} {r : ModuleResult} (h : validateModule m = .ok r) (he : NoElse m) {M : Machine} (hM : Instance m M)
    (hn : NumOk M) (hh : HostOk m M) {st : Store} (hst : StoreOk m M.all.length st) {a : Nat} {t : FuncTy} (ht : (funcSpace m)[a]? = some t)
    {fi : FuncInst} (ha : M.funcs[a]? = some fi) {args : List Value} (hargs : args.map Value.type = t.params)
    {k : Nat} {c : Conf} {es : List Admin} (hs : Steps M k (called args st) [.invoke fi] c es) :
    StoreOk m M.all.length c.store ∧ Evolves m st c.store ∧ ∀ {j c' es'}, Steps M j c es c' es' → Evolves m c.store c'.store := by
  have H := fit_of_accepted h he hM hn hh
  obtain ⟨fi', ha', rfl⟩ := H.funcs a t ht
  rw [ha] at ha'
  cases ha'
  obtain ⟨C, hC, h1, h2⟩ := called_ok (M := M) (List.mem_append_left _ (List.mem_of_getElem? ha)) hargs hst
  obtain ⟨us, h3, h4⟩ := steps_keep H hs hC h1 h2
  refine ⟨h3.store, h3.evolves, fun hj => ?_⟩
  obtain ⟨_, h5, _⟩ := steps_keep (st := c.store) H hj hC ⟨h3.store, evolves_refl m _, h3.locals, h3.stack⟩ h4
  exact h5.evolves

/-- **C83, calls on the way.** Whatever function is called on the way, of the module, imported or out of a table, is one of the machine and gets arguments of the types of its parameters; so the host sees
well-formed stores and arguments of the right types only. -/
theorem C83_calls {m : Module} {r : ModuleResult} (h : validateModule m = .ok r) (he : NoElse m) {M : Machine} (hM : Instance m M)
    (hn : NumOk M) (hh : HostOk m M) {st : Store} (hst : StoreOk m M.all.length st) {a : Nat} {t : FuncTy} (ht : (funcSpace m)[a]? = some t)
    {fi : FuncInst} (ha : M.funcs[a]? = some fi) {args : List Value} (hargs : args.map Value.type = t.params)
    {k : Nat} {c : Conf} {es : List Admin} (hs : Steps M k (called args st) [.invoke fi] c es) {fj : FuncInst} {ws : List Value} (hc : Calling c.stack es fj ws) :
    fj ∈ M.all ∧ ws.map Value.type = fj.type.params ∧ StoreOk m M.all.length c.store := by
  have H := fit_of_accepted h he hM hn hh
  obtain ⟨fi', ha', rfl⟩ := H.funcs a t ht
  rw [ha] at ha'
  cases ha'
  obtain ⟨C, hC, h1, h2⟩ := called_ok (M := M) (List.mem_append_left _ (List.mem_of_getElem? ha)) hargs hst
  obtain ⟨us, h3, h4⟩ := steps_keep H hs hC h1 h2
  obtain ⟨h5, h6⟩ := calling_ok hc h3.stack h4
  exact ⟨h5, h6, h3.store⟩

/-- **C83, parsed modules.** All of it for modules that come out of the parser. -/
theorem C83_parsed {s rest : List Byte} {m : Module} (hp : parseModule s = (.ok m, rest)) {r : ModuleResult} (h : validateModule m = .ok r)
    {M : Machine} (hM : Instance m M) (hn : NumOk M) (hh : HostOk m M) {st : Store} (hst : StoreOk m M.all.length st) {a : Nat} {t : FuncTy}
    (ht : (funcSpace m)[a]? = some t) {args : List Value} (hargs : args.map Value.type = t.params) :
    ∃ fi, M.funcs[a]? = some fi ∧ fi.type = t ∧ ∀ k c es, Steps M k (called args st) [.invoke fi] c es →
      (∃ c' es', Step M c es c' es') ∨
      Final es ∧ StoreOk m M.all.length c.store ∧ Evolves m st c.store ∧ (es = [] → c.stack.reverse.map Value.type = t.results) := by
  have he := parsed_noElse hp
  obtain ⟨fi, ha, hty⟩ := (fit_of_accepted h he hM hn hh).funcs a t ht
  refine ⟨fi, ha, hty, fun k c es hs => ?_⟩
  rcases C83_progress h he hM hn hh hst ht ha hargs hs with hf | hstep
  · exact .inr ⟨hf, C83_results h he hM hn hh hst ht ha hargs hs hf⟩
  · exact .inl hstep

/-- **C83, the hypothesis on modules built by hand is needed**: in this accepted module the rules come to a state that is no end and has no next one. -/
theorem C83_else {num : NumOp → List Value → Option Value} {grow : Store → Nat → Nat → Bool}
    {host : Nat → Store → List Value → Store × Option (List Value)} (st : Store) :
    validateModule elseModule = .ok ⟨[], []⟩ ∧ ∃ fi k c es, Steps ⟨[⟨[], []⟩], ownFuncs elseModule, [], num, grow, host⟩ k (called [] st) [.invoke fi] c es ∧ ¬ Final es ∧
      ∀ c' fs, ¬ Step ⟨[⟨[], []⟩], ownFuncs elseModule, [], num, grow, host⟩ c es c' fs := by
  obtain ⟨h1, _, h2⟩ := C61_else (num := num) (grow := grow) (host := host) st 0
  have ha : (ownFuncs elseModule)[0]? = some (.own ⟨[], []⟩ ⟨0, [], [.elseMark]⟩) := rfl
  exact ⟨h1, _, ((C83_interpreter (M := ⟨[⟨[], []⟩], ownFuncs elseModule, [], num, grow, host⟩) ha [] st).2.2.2).mp ⟨1, h2⟩⟩

/-! Examples. -/

/-- The store of the example of C61 after instantiation. -/
def factStore : Store :=
  match instantiate factMachine factModule {} 20 with
  | .ok st => st
  | _ => ⟨[], [], [], 0⟩

-- the rules compute 5!
example : ∃ fi k c, factMachine.funcs[2]? = some fi ∧ Steps factMachine k (called [.i32 0] factStore) [.invoke fi] c [] ∧ c.stack = [.i32 120] := by
  have h : resultOf (Run.invoke factMachine 20 2 [.i32 0] factStore) = some [.i32 120] := by decide +kernel
  cases ho : Run.invoke factMachine 20 2 [.i32 0] factStore with
  | values vs st =>
    rw [ho] at h
    cases h
    obtain ⟨k, c, hs, hv, _⟩ := ((C83_interpreter (M := factMachine) (a := 2) rfl [.i32 0] factStore).1 _ _).mp ⟨20, ho⟩
    refine ⟨_, k, c, rfl, hs, ?_⟩
    rw [← List.reverse_reverse c.stack, hv]
    rfl
  | trap st => rw [ho] at h; cases h
  | timeout => rw [ho] at h; cases h
  | stuck => rw [ho] at h; cases h

-- a few steps one by one: `block (result i32) i32.const 7 br 0 end`
example (M : Machine) (st : Store) :
    Steps M 4 (called [] st) [.invoke (.own ⟨[], [.i32]⟩ ⟨0, [], [.block [.i32] [.constI32 7, .br 0]]⟩)] ⟨st, [], []⟩ [.frame [.i32] [] [] [.label [.i32] [] [.i32 7] []]] :=
  .succ (.invokeOwn rfl) <| .succ (.inFrame (.inLabel .block)) <| .succ (.inFrame (.inLabel (.inLabel .constI32))) <|
    .succ (.inFrame (.inLabel (.brHere rfl rfl))) .zero

-- progress for the example of C61
example (st : Store) (hst : StoreOk factModule factMachine.all.length st) (x : BitVec 32) (fi : FuncInst) (ha : factMachine.funcs[2]? = some fi) (k : Nat) (c : Conf) (es : List Admin)
    (hs : Steps factMachine k (called [.i32 x] st) [.invoke fi] c es) : Final es ∨ ∃ c' es', Step factMachine c es c' es' :=
  C83_progress factModule_ok factModule_noElse factMachine_instance factMachine_num factMachine_host hst (t := ⟨[.i32], [.i32]⟩) rfl ha rfl hs

-- the store on the way, and a call on the way
example (st : Store) (hst : StoreOk factModule factMachine.all.length st) (x : BitVec 32) (fi : FuncInst) (ha : factMachine.funcs[2]? = some fi) (k : Nat) (c : Conf) (es : List Admin)
    (hs : Steps factMachine k (called [.i32 x] st) [.invoke fi] c es) : StoreOk factModule factMachine.all.length c.store ∧ ∀ ws, Calling c.stack es fi ws → ws.map Value.type = [.i32] := by
  refine ⟨(C83_store factModule_ok factModule_noElse factMachine_instance factMachine_num factMachine_host hst (t := ⟨[.i32], [.i32]⟩) rfl ha rfl hs).1, fun ws hw => ?_⟩
  have h := (C83_calls factModule_ok factModule_noElse factMachine_instance factMachine_num factMachine_host hst (t := ⟨[.i32], [.i32]⟩) rfl ha rfl hs hw).2.1
  cases ha
  exact h

example (f : Func) : Calling [] [.frame [] [] [] [.label [] [] [.i64 1, .i32 2] [.invoke (.own ⟨[.i32, .i64], []⟩ f)]]] (.own ⟨[.i32, .i64], []⟩ f) [.i32 2, .i64 1] :=
  .frame (.label (.here rfl))

end Whasm
