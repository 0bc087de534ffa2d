import Verif.Lemmas.SpaceCalls
import Verif.Props.Points

/-!
# C102: the operand stack of validation is the operand stack of execution

An engine that executes what the crate has accepted wants to know before a call how much room the operands of the function will take, and a compiler in one pass where in its frame each of them is. Both take
the operand stack of the validator for the one of the machine. C84 is about the operands of the innermost block; this is about all of a call: in every state of the execution of a function of an accepted
module there are exactly as many operands and as many labels as validation had at that place, and never more than it had at some place; so its highest stack is enough. That number is not returned by the
crate, but the number of instructions of the body is never less.
-/

namespace Whasm
open Spec Run

theorem plains_all {es : List Instr} : allL (plains es) = 0 := by
  induction es with
  | nil => rfl
  | cons i is ih => show 0 + allL (plains is) = 0; rw [ih]

theorem plains_held {es : List Instr} : heldL (plains es) = 0 := held_plains [] es

theorem plains_calls {es : List Instr} : callsL (plains es) = 0 := by
  induction es with
  | nil => rfl
  | cons i is ih => show 0 + callsL (plains is) = 0; rw [ih]

/-- The functions of the machine that are no host functions are those of the module. -/
theorem own_mem {m : Module} {M : Machine} (hM : Instance m M) {t : FuncTy} {f : Func} (h : .own t f ∈ M.all) : f ∈ m.funcs ∧ m.types[f.ty.toNat]? = some t := by
  obtain ⟨_, imp, hf, _, hx⟩ := hM
  have hm' : .own t f ∈ ownFuncs m := by
    rw [Machine.all, hf] at h
    simp only [List.mem_append] at h
    have no : ∀ {l : List FuncInst}, (∀ fi ∈ l, fi ∈ imp ++ M.foreign) → .own t f ∉ l := by
      intro l hl hm
      obtain ⟨_, _, h⟩ := hx _ (hl _ hm)
      cases h
    rcases h with (hm | hm) | hm
    · exact (no (fun _ h => List.mem_append_left _ h) hm).elim
    · exact hm
    · exact (no (fun _ h => List.mem_append_right _ h) hm).elim
  obtain ⟨g, hg, hgt⟩ := List.mem_filterMap.mp hm'
  cases ht' : m.types[g.ty.toNat]? with
  | none => rw [ht'] at hgt; cases hgt
  | some t' =>
    rw [ht'] at hgt
    cases hgt
    exact ⟨hg, ht'⟩

theorem funcs_one {m : Module} {M : Machine} (hM : Instance m M) (hone : ∀ t ∈ m.types, t.results.length ≤ 1) : ∀ fi ∈ M.funcs, fi.type.results.length ≤ 1 := by
  obtain ⟨_, imp, hf, hi, _⟩ := hM
  intro fi hfi
  rw [hf, List.mem_append] at hfi
  rcases hfi with hfi | hfi
  · have h1 : fi.type ∈ importedFuncs m := by rw [← hi]; exact List.mem_map_of_mem hfi
    unfold importedFuncs at h1
    obtain ⟨x, _, h2⟩ := List.mem_filterMap.mp h1
    split at h2
    · exact hone _ (List.mem_of_getElem? h2)
    · cases h2
  · obtain ⟨g, _, hgt⟩ := List.mem_filterMap.mp hfi
    cases ht' : m.types[g.ty.toNat]? with
    | none => rw [ht'] at hgt; cases hgt
    | some t' =>
      rw [ht'] at hgt
      cases hgt
      exact hone _ (List.mem_of_getElem? ht')

/-- What is left of a label when it ends has been in it. -/
theorem label_ends {M : Machine} {c' : Conf} {r : List Val} : ∀ {j : Nat} {st : Store} {ls vs ws : List Value} {fs : List Admin}, Steps M j ⟨st, ls, vs⟩ [.label r [] ws fs] c' [] →
    ∃ j' c1 fs', Steps M j' ⟨st, ls, ws⟩ fs c1 fs' ∧ c'.stack.length ≤ vs.length + c1.stack.length
  | 0, _, _, _, _, _, h => by cases h
  | j + 1, st, ls, vs, ws, fs, h => by
    cases h with
    | succ hs ht =>
      cases hs with
      | inLabel hi =>
        obtain ⟨j', c1, fs', h1, h2⟩ := label_ends ht
        exact ⟨_, c1, fs', .succ hi h1, h2⟩
      | endLabel =>
        cases ht with
        | zero => exact ⟨0, _, _, .zero, by dsimp only; rw [List.length_append]; omega⟩
        | succ h _ => exact (not_step_nil h).elim
      | brHere hl hp =>
        cases ht with
        | zero => exact ⟨0, _, _, .zero, by have := popArgs_len hp; dsimp only; rw [List.length_append, List.length_reverse]; omega⟩
        | succ h _ => exact (not_step_nil h).elim
      | brOut hl => cases (stop_next ht fun _ _ => not_step_br).2
      | retOut => cases (stop_next ht fun _ _ => not_step_ret).2
      | trapOut => cases (stop_next ht fun _ _ => not_step_trap).2

section
variable {m : Module} {r : ModuleResult} (h : validateModule m = .ok r) (he : NoElse m) {M : Machine} (hM : Instance m M) (hn : NumOk M) (hh : HostOk m M)
include h he hM hn hh

/-- **C102, what a call is.** Every call of a function of an accepted module that has not returned is an execution of the body of this function from arguments of the types of its parameters, with the other
local variables zero, that has come this far. -/
theorem C102_activation {st : Store} (hst : StoreOk m M.all.length st) {a : Nat} {t : FuncTy} (ht : (funcSpace m)[a]? = some t) {fi : FuncInst} (ha : M.funcs[a]? = some fi)
    {args : List Value} (hargs : args.map Value.type = t.params) {k : Nat} {c : Conf} {es : List Admin} (hs : Steps M k (called args st) [.invoke fi] c es)
    {ls vs : List Value} {fs : List Admin} (hc : Activation es ls vs fs) :
    ∃ f ∈ m.funcs, ∃ t, m.types[f.ty.toNat]? = some t ∧ ∃ st0 args j, StoreOk m M.all.length st0 ∧ args.map Value.type = t.params ∧
      Steps M j ⟨st0, args ++ f.locals.map zero, []⟩ [.label t.results [] [] (plains f.body)] ⟨c.store, ls, vs⟩ fs := by
  have H := fit_of_accepted h he hM hn hh
  obtain ⟨fi', ha', rfl⟩ := H.funcs a t ht
  rw [ha] at ha'
  cases ha'
  obtain ⟨C, hC, h1, h2⟩ := called_ok (M := M) (List.mem_append_left _ (List.mem_of_getElem? ha)) hargs hst
  obtain ⟨t', f, st0, args', j, h3, h4, h5, h6⟩ := org_act (steps_org H hs hC h1 h2 (.invoke fi [])) hc
  obtain ⟨h7, h8⟩ := own_mem hM h3
  exact ⟨f, h7, t', h8, st0, args', j, h4, h5, h6⟩

/-- **C102.** A call of `f` that has not returned has no more operands, in all of its blocks together, than validation had on its operand stack at some place in the body of `f`, and no more labels than there
were frames; and if an instruction comes next (other than a jump, which may be on its way out of blocks), then it is the one at this place, there are exactly as many operands and labels, and validation knew
the types of those of the innermost block. -/
theorem C102_stack {st : Store} (hst : StoreOk m M.all.length st) {f : Func} (hf : f ∈ m.funcs) {t : FuncTy} (ht : m.types[f.ty.toNat]? = some t) {args : List Value}
    (hargs : args.map Value.type = t.params) {j : Nat} {c : Conf} {fs : List Admin}
    (hs : Steps M j ⟨st, args ++ f.locals.map zero, []⟩ [.label t.results [] [] (plains f.body)] c fs) :
    ∃ p x, arriveFunc f p (spaces m) = .ok ((), x) ∧ operands c.stack fs ≤ x.operands.length ∧ nestL fs ≤ x.frames.length ∧
      ∀ i us, Next c.stack fs i us → (∀ l, i ≠ .br l) → i ≠ .ret →
        p.instr f.body = some i ∧ AgreeAt x ⟨c.store, c.locals, us⟩ ∧ operands c.stack fs = x.operands.length ∧ nestL fs = x.frames.length := by
  have inside : ∀ {k c fs}, Steps M k ⟨st, args ++ f.locals.map zero, []⟩ (plains f.body) c fs → ∃ p x, arriveFunc f p (spaces m) = .ok ((), x) ∧ operands c.stack fs ≤ x.operands.length ∧
      1 + nestL fs ≤ x.frames.length ∧ ∀ i us, Next c.stack fs i us → (∀ l, i ≠ .br l) → i ≠ .ret →
        p.instr f.body = some i ∧ AgreeAt x ⟨c.store, c.locals, us⟩ ∧ operands c.stack fs = x.operands.length ∧ 1 + nestL fs = x.frames.length := by
    intro k c fs hs
    obtain ⟨p, c', B, F, h1, h2, h3, h4, _⟩ := steps_all (B := []) (F := [(t.results, 0)]) hs
    obtain ⟨x, h5, h6, h7, _, h8⟩ := gets_func h he hM hn hh hst hf ht hargs h1
    refine ⟨p, x, h5, by rw [h7, List.length_map, List.length_append]; exact h2, by rw [h8]; omega, fun i us hi g1 g2 => ?_⟩
    obtain ⟨d1, rfl, d3, d4, _⟩ := h4 _ _ (spot_next hi) (fun l h => g1 l (Option.some.inj h)) fun h => g2 (Option.some.inj h)
    exact ⟨d1, h6, by rw [h7, List.length_map, List.length_append]; exact d3, by rw [d4, h8]⟩
  by_cases hX : fs = []
  · subst hX
    obtain ⟨j', c1, fs', h1, h2⟩ := label_ends hs
    obtain ⟨p, x, h3, h4, h5, _⟩ := inside h1
    refine ⟨p, x, h3, ?_, Nat.zero_le _, fun i us hi _ _ => by cases hi⟩
    unfold operands at h4
    show c.stack.length + 0 ≤ _
    rw [List.length_nil] at h2
    omega
  · rcases label_all hX hs with ⟨j', ws', fs', hj, h1, h2, rfl⟩ | ⟨j1, j2, c1, hj, hj1, h1, h2⟩ | ⟨j', e, fs', i, hj, h1, rfl, hi⟩ | ⟨rfl, h1⟩
    · obtain ⟨p, x, h3, h4, h5, h6⟩ := inside h1
      have e1 : operands c.stack [.label t.results [] ws' fs'] = operands ws' fs' := by
        rw [h2]; simp [operands, heldL, heldA]
      have e2 : nestL [.label t.results [] ws' fs'] = 1 + nestL fs' := by simp [nestL, nestA]
      refine ⟨p, x, h3, by rw [e1]; exact h4, by rw [e2]; exact h5, fun i us hi g1 g2 => ?_⟩
      cases hi with
      | label hi =>
        obtain ⟨d1, d2, d3, d4⟩ := h6 i us hi g1 g2
        exact ⟨d1, d2, by rw [e1]; exact d3, by rw [e2]; exact d4⟩
    · exact (hX (stop_nil h2)).elim
    · obtain ⟨p, x, h3, h4, h5, _⟩ := inside h1
      refine ⟨p, x, h3, ?_, Nat.zero_le _, fun i' us hi' g1 g2 => ?_⟩
      · unfold operands at h4
        show c.stack.length + 0 ≤ _
        omega
      · cases hi'
        rcases hi with ⟨l, _, _, rfl⟩ | ⟨_, rfl⟩
        · exact (g1 _ rfl).elim
        · exact (g2 rfl).elim
    · obtain ⟨p, x, h3, h4, h5, _⟩ := inside .zero
      refine ⟨p, x, h3, ?_, Nat.zero_le _, fun i us hi _ _ => by cases hi⟩
      show c.stack.length + 0 ≤ _
      rw [h1]
      exact Nat.zero_le _

/-- **C102, how much room is enough.** In every state of an execution that begins with a call of a function of an accepted module, every call that has not returned is one of a function of the module; it has
the parameters and local variables of this function, no more operands than the body has instructions, and no more labels than blocks are nested there, with the one around the body. -/
theorem C102_room {st : Store} (hst : StoreOk m M.all.length st) {a : Nat} {t : FuncTy} (ht : (funcSpace m)[a]? = some t) {fi : FuncInst} (ha : M.funcs[a]? = some fi)
    {args : List Value} (hargs : args.map Value.type = t.params) {k : Nat} {c : Conf} {es : List Admin} (hs : Steps M k (called args st) [.invoke fi] c es)
    {ls vs : List Value} {fs : List Admin} (hc : Activation es ls vs fs) :
    ∃ f ∈ m.funcs, ∃ t, m.types[f.ty.toNat]? = some t ∧ ls.map Value.type = t.params ++ f.locals ∧ operands vs fs ≤ sizeL f.body ∧ nestL fs ≤ 1 + depthL f.body := by
  have H := fit_of_accepted h he hM hn hh
  obtain ⟨f, hf, t', ht', st0, args', j, h4, h5, h6⟩ := C102_activation h he hM hn hh hst ht ha hargs hs hc
  have hv := valid_of_ok h he
  have hfi : .own t' f ∈ M.all := by
    obtain ⟨_, imp, hfs, _, _⟩ := hM
    rw [Machine.all, hfs]
    exact List.mem_append_left _ (List.mem_append_right _ (List.mem_filterMap.mpr ⟨f, hf, by rw [ht']; rfl⟩))
  have hC : EnvOk m { bodyEnv .w3c m t' f.locals with aligned := false, labels := [] } := ⟨rfl, rfl, rfl, rfl, rfl⟩
  have hcf : ConfOk m M st0 { bodyEnv .w3c m t' f.locals with aligned := false, labels := [] } [] ⟨st0, args' ++ f.locals.map zero, []⟩ := by
    refine ⟨h4, evolves_refl m st0, ?_, typed_nil⟩
    show (args' ++ f.locals.map zero).map Value.type = t'.params ++ f.locals
    rw [List.map_append, List.map_map]
    refine congr (congrArg _ h5) ?_
    exact (List.map_congr_left fun x _ => zero_type x).trans (List.map_id _)
  have hao : AOk m M { bodyEnv .w3c m t' f.locals with aligned := false, labels := [] } [.label t'.results [] [] (plains f.body)] [] t'.results := by
    refine .label (b := t'.results) (t0 := []) typed_nil ?_ (.nil _) .nil
    have := aok_plains (m := m) (M := M) (H.own t' f hfi) .nil
    rw [List.append_nil] at this
    exact this
  obtain ⟨us, h7, _⟩ := steps_keep H h6 hC hcf hao
  have hr := steps_room H (funcs_one hM hv.types) (by rw [hM.types]; exact hv.types) h6 hC hcf hao
  have hd := steps_deep h6
  refine ⟨f, hf, t', ht', h7.locals, ?_, ?_⟩
  · have := held_roomL fs
    simp only [roomL, roomA, room_body, sizeL, if_true, List.length_nil] at hr
    unfold operands
    omega
  · have := nest_deepL fs
    simp only [deepL, deepA, deep_body, depthL] at hd
    omega

/-- **C102, all calls together.** If no body has more than `S` instructions, then in every state of such an execution there are at most `S` operands for each call that has not returned, besides the arguments
of the first call and a result. -/
theorem C102_total {st : Store} (hst : StoreOk m M.all.length st) {a : Nat} {t : FuncTy} (ht : (funcSpace m)[a]? = some t) {fi : FuncInst} (ha : M.funcs[a]? = some fi)
    {args : List Value} (hargs : args.map Value.type = t.params) {k : Nat} {c : Conf} {es : List Admin} (hs : Steps M k (called args st) [.invoke fi] c es)
    {S : Nat} (hS : ∀ f ∈ m.funcs, sizeL f.body ≤ S) : allOperands c.stack es ≤ t.params.length + 1 + callsL es * S := by
  have H := fit_of_accepted h he hM hn hh
  have hv := valid_of_ok h he
  have room := fun {ls vs fs} => C102_room h he hM hn hh hst ht ha hargs hs (ls := ls) (vs := vs) (fs := fs)
  obtain ⟨fi', ha', rfl⟩ := H.funcs a t ht
  rw [ha] at ha'
  cases ha'
  obtain ⟨C, hC, h1, h2⟩ := called_ok (M := M) (List.mem_append_left _ (List.mem_of_getElem? ha)) hargs hst
  have ho := steps_org H hs hC h1 h2 (.invoke fi [])
  have hr := steps_room H (funcs_one hM hv.types) (by rw [hM.types]; exact hv.types) hs hC h1 h2
  have hone := funcs_one hM hv.types fi (List.mem_of_getElem? ha)
  have all : ∀ {es : List Admin}, Org m M c.store es → (∀ ls vs fs, Activation es ls vs fs → operands vs fs ≤ S) → allL es ≤ heldL es + callsL es * S := by
    intro es ho
    induction ho with
    | plains is => intro _; rw [plains_all]; exact Nat.zero_le _
    | trap is => intro _; show 0 + allL (plains is) ≤ _; rw [plains_all]; exact Nat.zero_le _
    | invoke fi is => intro _; show 0 + allL (plains is) ≤ _; rw [plains_all]; exact Nat.zero_le _
    | label _ is ih =>
      intro hb
      have := ih fun ls vs fs h => hb ls vs fs (.label h)
      simp only [allL, allA, heldL, heldA, callsL, callsA, plains_all, plains_held, plains_calls, Nat.add_zero]
      omega
    | frame _ _ is ih =>
      intro hb
      have h1 := ih fun ls vs fs h => hb ls vs fs (.frame h)
      have h2 := hb _ _ _ .here
      unfold operands at h2
      simp only [allL, allA, heldL, heldA, callsL, callsA, plains_all, plains_held, plains_calls, Nat.add_zero, Nat.zero_add, Nat.add_mul, Nat.one_mul]
      omega
  have h3 := all ho fun ls vs fs hact => by
    obtain ⟨f, hf, _, _, _, h4, _⟩ := room hact
    exact Nat.le_trans h4 (hS f hf)
  have h4 := held_roomL es
  have h5 := congrArg List.length hargs
  rw [List.length_map] at h5
  simp only [called, List.length_reverse, roomL, roomA, Nat.add_zero] at hr
  unfold allOperands
  omega

end

/-! ## No bound on the number of calls -/

/-- (func  call 0) -/
def endlessModule : Module := { types := [⟨[], []⟩], funcs := [⟨0, [], [.call 0]⟩] }

/-- A machine for it. -/
def endlessMachine : Machine where
  types := [⟨[], []⟩]
  funcs := [.own ⟨[], []⟩ ⟨0, [], [.call 0]⟩]
  num op _ := (numType op).2.head?.map zero
  grow _ _ _ := true
  host _ st _ := (st, none)

/-- `n` calls of it. -/
def callTower : Nat → List Admin
  | 0 => [.invoke (.own ⟨[], []⟩ ⟨0, [], [.call 0]⟩)]
  | n + 1 => [.frame [] [] [] [.label [] [] [] (callTower n)]]

theorem callTower_steps (st : Store) : ∀ n, Steps endlessMachine 2 ⟨st, [], []⟩ (callTower n) ⟨st, [], []⟩ (callTower (n + 1))
  | 0 => .succ (.invokeOwn (args := []) (rest := []) rfl) (.succ (.inFrame (.inLabel (.call rfl))) .zero)
  | n + 1 => steps_frame (c := ⟨st, [], []⟩) (c' := ⟨st, [], []⟩) (steps_label (c := ⟨st, [], []⟩) (c' := ⟨st, [], []⟩) (callTower_steps st n))

theorem callTower_calls : ∀ n, callsL (callTower n) = n
  | 0 => rfl
  | n + 1 => by
    show 1 + (callsL (callTower n) + 0) + 0 = n + 1
    rw [callTower_calls n]
    omega

/-- **C102, calls.** There is no bound on the number of calls: in this accepted module there are any number after as many steps. -/
theorem C102_calls : validateModule endlessModule = .ok ⟨[], []⟩ ∧ Instance endlessModule endlessMachine ∧
    ∀ st n, ∃ k c es, Steps endlessMachine k (called [] st) [.invoke (.own ⟨[], []⟩ ⟨0, [], [.call 0]⟩)] c es ∧ callsL es = n := by
  refine ⟨by decide +kernel, ⟨rfl, [], rfl, rfl, fun fi h => by simp [endlessMachine] at h⟩, fun st n => ⟨2 * n, ⟨st, [], []⟩, callTower n, ?_, callTower_calls n⟩⟩
  induction n with
  | zero => exact .zero
  | succ n ih => exact steps_trans ih (callTower_steps st n)

/-! Examples. -/

/-- (func (result i32)  i32.const 1  block  i32.const 2  drop  end) -/
def belowModule : Module := { types := [⟨[], [.i32]⟩], funcs := [⟨0, [], [.constI32 1, .block [] [.constI32 2, .drop]]⟩] }

def belowMachine : Machine := { endlessMachine with types := [⟨[], [.i32]⟩], funcs := [.own ⟨[], [.i32]⟩ ⟨0, [], [.constI32 1, .block [] [.constI32 2, .drop]]⟩] }

-- before `drop` validation has two operands, one of them below the block, and two frames
example : (match arriveFunc belowModule.funcs[0] (.inside 1 (.here 1)) (spaces belowModule) with
    | .ok (_, x) => some (x.operands, x.frames.map (·.height))
    | .error _ => none) = some ([.val .i32, .val .i32], [1, 0]) := by decide +kernel

-- and execution is in this state after four steps, with two operands and two labels
example (st : Store) : ∃ c es ls vs fs, Steps belowMachine 4 (called [] st) [.invoke (.own ⟨[], [.i32]⟩ ⟨0, [], [.constI32 1, .block [] [.constI32 2, .drop]]⟩)] c es ∧
    Activation es ls vs fs ∧ Next vs fs .drop [.i32 2] ∧ operands vs fs = 2 ∧ nestL fs = 2 :=
  ⟨_, _, _, _, _, .succ (.invokeOwn (args := []) (rest := []) rfl) (.succ (.inFrame (.inLabel .constI32)) (.succ (.inFrame (.inLabel .block)) (.succ (.inFrame (.inLabel (.inLabel .constI32))) .zero))),
    .here, .label (.label .here), rfl, rfl⟩

-- the bound by the number of instructions
example : sizeL belowModule.funcs[0].body = 4 ∧ depthL belowModule.funcs[0].body = 1 := by decide

example : sizeL factModule.funcs[0].body = 17 ∧ depthL factModule.funcs[0].body = 2 := by decide

-- in this module the bound would be wrong, and it is not accepted: a function type has three results
/-- (import (func (result i32 i32 i32)))  (func  call 0  call 0  unreachable) -/
def manyModule : Module := { types := [⟨[], [.i32, .i32, .i32]⟩, ⟨[], []⟩], imports := [⟨[], [], .func 0⟩], funcs := [⟨1, [], [.call 0, .call 0, .unreachable]⟩] }

def manyMachine : Machine :=
  { endlessMachine with types := manyModule.types, funcs := .host ⟨[], [.i32, .i32, .i32]⟩ 0 :: ownFuncs manyModule, host := fun _ st _ => (st, some [.i32 0, .i32 0, .i32 0]) }

example : validateModule manyModule = .error .invalid ∧ Instance manyModule manyMachine :=
  ⟨by decide +kernel, rfl, [.host ⟨[], [.i32, .i32, .i32]⟩ 0], rfl, rfl, fun fi h => by simp only [manyMachine, endlessMachine, List.append_nil, List.mem_singleton] at h; exact ⟨_, _, h⟩⟩

example (st : Store) : ∃ c es ls vs fs, Steps manyMachine 5 (called [] st) [.invoke (.own ⟨[], []⟩ manyModule.funcs[0])] c es ∧ Activation es ls vs fs ∧
    operands vs fs = 6 ∧ sizeL manyModule.funcs[0].body = 3 :=
  ⟨_, _, _, _, _, .succ (.invokeOwn (args := []) (rest := []) rfl) (.succ (.inFrame (.inLabel (.call rfl))) (.succ (.inFrame (.inLabel (.invokeHost (args := []) (rest := []) rfl rfl)))
    (.succ (.inFrame (.inLabel (.call rfl))) (.succ (.inFrame (.inLabel (.invokeHost (args := []) rfl rfl))) .zero)))), .here, rfl, rfl⟩

end Whasm
