import Verif.Lemmas.Space
import Verif.Props.Reduce

/-!
# C84: what validation knows at a place is what is there at run time

A compiler in one pass takes the types of operands from validation as it goes. `arriveFunc f p` is `Func::validate` stopped at the place `p` of the body; `At` and `Next` are about execution by the rules of
the document.
-/

namespace Whasm
open Spec Run

/-- The spaces of indices in which the functions of `m` are validated. -/
def spaces (m : Module) : Ctx :=
  { types := m.types, funcs := funcSpace m, tables := tableSpace m, mems := memSpace m, globals := globalSpace m }

/-- Validation and execution agree: the current frame is not marked unreachable, it has as many operands as there are values, all of them known, and they have the types of the values; and so for the local
variables. -/
structure AgreeAt (x : Ctx) (c : Conf) : Prop where
  operands : ∃ fr frs base, x.frames = fr :: frs ∧ fr.unreachable = false ∧ fr.height = base.length ∧ x.operands = c.stack.map (fun v => .val v.type) ++ base
  locals : x.locals = c.locals.map Value.type

/-- Validation gets to a place if execution does. -/
theorem gets_func {m : Module} {r : ModuleResult} (h : validateModule m = .ok r) (he : NoElse m) {M : Machine} (hM : Instance m M)
    (hn : NumOk M) (hh : HostOk m M) {st : Store} (hst : StoreOk m M.all.length st) {f : Func} (hf : f ∈ m.funcs) {t : FuncTy} (ht : m.types[f.ty.toNat]? = some t)
    {args : List Value} (hargs : args.map Value.type = t.params) {p : Place} {c : Conf} {B : List Value} {F : List (List Val × Nat)}
    (hat : Gets M [] [(t.results, 0)] f.body ⟨st, args ++ f.locals.map zero, []⟩ p c B F) :
    ∃ x, arriveFunc f p (spaces m) = .ok ((), x) ∧ AgreeAt x c ∧ x.operands = known (c.stack ++ B) ∧ marks x.frames = live F ∧ x.frames.length = 1 + p.depth := by
  have H := fit_of_accepted h he hM hn hh
  have hv := valid_of_ok h he
  obtain ⟨t', ht', hb⟩ := hv.funcs f hf
  rw [ht] at ht'
  cases ht'
  have hp := valid_plain hv f hf
  let x : Ctx := { spaces m with ret := some t.results, locals := t.params ++ f.locals }
  obtain ⟨s, hs, _⟩ := complete_expr (C := envOf x []) hb (s := vals []) (r := []) (.inr rfl)
  have hc : ConfOk m M st (envOf x []) [] ⟨st, args ++ f.locals.map zero, []⟩ := by
    refine ⟨hst, evolves_refl m st, ?_, typed_nil⟩
    show (args ++ f.locals.map zero).map Value.type = t.params ++ f.locals
    rw [List.map_append, List.map_map]
    refine congr (congrArg _ hargs) ?_
    exact (List.map_congr_left fun x _ => zero_type x).trans (List.map_id _)
  obtain ⟨base, l, o, rest, ts, h1, h2, hN, hL, hD, _⟩ := gets_arrives H hat (x := x) (base := []) (l := t.results) (o := t.results) (rest := []) ⟨rfl, rfl, rfl, rfl, rfl⟩ hp hc hs rfl rfl
  refine ⟨mk x base l o rest (vals ts), ?_, ⟨⟨_, rest, base, rfl, rfl, rfl, ?_⟩, h2.locals.symm⟩, ?_, hL, ?_⟩
  · have hl : validateTypeIdx f.ty (spaces m) = .ok (t, spaces m) := by
      show lookup m.types f.ty (spaces m) = _
      unfold lookup
      rw [ht, if_neg (Nat.not_le_of_lt (List.getElem?_eq_some_iff.mp ht).1)]
    unfold arriveFunc
    rw [bind_ok hl]
    exact h1
  · show ts.reverse.map Operand.val ++ base = _
    have h3 := h2.stack
    unfold Typed at h3
    rw [← h3, List.map_map]
    rfl
  · show ts.reverse.map Operand.val ++ base = _
    have h3 := h2.stack
    unfold Typed at h3
    rw [← h3, List.map_map, hN, known, known, List.map_append]
    rfl
  · show rest.length + 1 = _
    rw [hD, List.length_nil]
    omega

/-- **C84.** If execution of a function of an accepted module gets to a place in its body, validation has got there as well, and at that moment knew the types of all operands of the block
and of the local variables. -/
theorem C84_types {m : Module} {r : ModuleResult} (h : validateModule m = .ok r) (he : NoElse m) {M : Machine} (hM : Instance m M)
    (hn : NumOk M) (hh : HostOk m M) {st : Store} (hst : StoreOk m M.all.length st) {f : Func} (hf : f ∈ m.funcs) {t : FuncTy} (ht : m.types[f.ty.toNat]? = some t)
    {args : List Value} (hargs : args.map Value.type = t.params) {p : Place} {c : Conf} (hat : At M f.body ⟨st, args ++ f.locals.map zero, []⟩ p c) :
    ∃ x, arriveFunc f p (spaces m) = .ok ((), x) ∧ AgreeAt x c := by
  obtain ⟨_, _, hg⟩ := gets_of_at hat [] [(t.results, 0)]
  obtain ⟨x, h1, h2, _⟩ := gets_func h he hM hn hh hst hf ht hargs hg
  exact ⟨x, h1, h2⟩

/-- **C84, dead code.** Execution never gets to a place that validation holds for unreachable, nor to one where it does not know the type of an operand. -/
theorem C84_dead {m : Module} {r : ModuleResult} (h : validateModule m = .ok r) (he : NoElse m) {M : Machine} (hM : Instance m M)
    (hn : NumOk M) (hh : HostOk m M) {st : Store} (hst : StoreOk m M.all.length st) {f : Func} (hf : f ∈ m.funcs) {t : FuncTy} (ht : m.types[f.ty.toNat]? = some t)
    {args : List Value} (hargs : args.map Value.type = t.params) {p : Place} {x : Ctx} (hx : arriveFunc f p (spaces m) = .ok ((), x))
    {fr : Frame} {frs : List Frame} (hfr : x.frames = fr :: frs) (hd : fr.unreachable = true ∨ .unknown ∈ x.operands.take (x.operands.length - fr.height)) {c : Conf} :
    ¬ At M f.body ⟨st, args ++ f.locals.map zero, []⟩ p c := fun hat => by
  obtain ⟨x', hx', ⟨fr', frs', base, h1, h2, h3, h4⟩, _⟩ := C84_types h he hM hn hh hst hf ht hargs hat
  rw [hx] at hx'
  cases hx'
  rw [hfr] at h1
  cases h1
  rcases hd with hd | hd
  · rw [h2] at hd
    cases hd
  · rw [h4, h3, List.length_append, Nat.add_sub_cancel, List.take_left' rfl] at hd
    obtain ⟨_, _, h⟩ := List.mem_map.mp hd
    cases h

/-- **C84, every state.** In every state of the execution of the body in which an instruction comes next (other than a jump, which may be on its way out of blocks), this instruction is in the body at a place
where validation knew the types of the operands. -/
theorem C84_next {m : Module} {r : ModuleResult} (h : validateModule m = .ok r) (he : NoElse m) {M : Machine} (hM : Instance m M)
    (hn : NumOk M) (hh : HostOk m M) {st : Store} (hst : StoreOk m M.all.length st) {f : Func} (hf : f ∈ m.funcs) {t : FuncTy} (ht : m.types[f.ty.toNat]? = some t)
    {args : List Value} (hargs : args.map Value.type = t.params) {k : Nat} {c : Conf} {es : List Admin} (hs : Steps M k ⟨st, args ++ f.locals.map zero, []⟩ (plains f.body) c es)
    {i : Instr} {us : List Value} (hi : Next c.stack es i us) (h1 : ∀ l, i ≠ .br l) (h2 : i ≠ .ret) :
    ∃ p x, p.instr f.body = some i ∧ arriveFunc f p (spaces m) = .ok ((), x) ∧ AgreeAt x ⟨c.store, c.locals, us⟩ := by
  obtain ⟨p, h3, h4⟩ := steps_at h1 h2 hs hi
  obtain ⟨x, h5, h6⟩ := C84_types h he hM hn hh hst hf ht hargs h4
  exact ⟨p, x, h3, h5, h6⟩

/-- **C84, calls.** The hypotheses on arguments and store hold whenever a function of the module is called in the course of the execution of an accepted module. -/
theorem C84_called {m : Module} {r : ModuleResult} (h : validateModule m = .ok r) (he : NoElse m) {M : Machine} (hM : Instance m M)
    (hn : NumOk M) (hh : HostOk m M) {st : Store} (hst : StoreOk m M.all.length st) {a : Nat} {t : FuncTy} (ht : (funcSpace m)[a]? = some t)
    {fi : FuncInst} (ha : M.funcs[a]? = some fi) {args : List Value} (hargs : args.map Value.type = t.params)
    {k : Nat} {c : Conf} {es : List Admin} (hs : Steps M k (called args st) [.invoke fi] c es) {tj : FuncTy} {f : Func} (hf : f ∈ m.funcs) (hty : m.types[f.ty.toNat]? = some tj)
    {ws : List Value} (hc : Calling c.stack es (.own tj f) ws) {j : Nat} {c' : Conf} {es' : List Admin} (hs' : Steps M j ⟨c.store, ws ++ f.locals.map zero, []⟩ (plains f.body) c' es')
    {i : Instr} {us : List Value} (hi : Next c'.stack es' i us) (h1 : ∀ l, i ≠ .br l) (h2 : i ≠ .ret) :
    ∃ p x, p.instr f.body = some i ∧ arriveFunc f p (spaces m) = .ok ((), x) ∧ AgreeAt x ⟨c'.store, c'.locals, us⟩ := by
  obtain ⟨_, h3, h4⟩ := C83_calls h he hM hn hh hst ht ha hargs hs hc
  exact C84_next h he hM hn hh h4 hf hty h3 hs' hi h1 h2

/-! Examples: the loop of the example of C61. -/

-- before the multiplication there are two `i32`, in three frames
example : (match arriveFunc factModule.funcs[0] (.inside 2 (.inside 0 (.here 5))) (spaces factModule) with
    | .ok (_, x) => some (x.operands, x.frames.map (·.height), x.locals)
    | .error _ => none) = some ([.val .i32, .val .i32], [0, 0, 0], [.i32, .i32]) := by decide +kernel

example : Place.instr (.inside 2 (.inside 0 (.here 5))) factModule.funcs[0].body = some (.num .i32Mul) := rfl

example (st : Store) (hst : StoreOk factModule factMachine.all.length st) (n : BitVec 32) (c : Conf)
    (hat : At factMachine factModule.funcs[0].body ⟨st, [.i32 n] ++ [.i32 0], []⟩ (.inside 2 (.inside 0 (.here 5))) c) : c.stack.map Value.type = [.i32, .i32] := by
  obtain ⟨x, hx, ⟨fr, frs, base, h1, h2, h3, h4⟩, _⟩ :=
    C84_types factModule_ok factModule_noElse factMachine_instance factMachine_num factMachine_host hst (f := factModule.funcs[0]) (by simp [factModule]) (t := ⟨[.i32], [.i32]⟩) rfl rfl hat
  have e : (match arriveFunc factModule.funcs[0] (.inside 2 (.inside 0 (.here 5))) (spaces factModule) with
      | .ok (_, x) => some (x.operands, x.frames.map (·.height))
      | .error _ => none) = some ([.val .i32, .val .i32], [0, 0, 0]) := by decide +kernel
  rw [hx] at e
  obtain ⟨e1, e2⟩ := Prod.mk.inj (Option.some.inj e)
  rw [h1, List.map_cons, h3] at e2
  obtain rfl := List.length_eq_zero_iff.mp (List.cons.inj e2).1
  rw [e1, List.append_nil] at h4
  have h5 := congrArg (List.map fun o => match o with | Operand.val v => v | .unknown => .f64) h4
  rw [List.map_map] at h5
  exact h5.symm

-- execution does get there, from every argument other than zero
example (st : Store) (n : BitVec 32) (hn : n ≠ 0) :
    ∃ c, At factMachine factModule.funcs[0].body ⟨st, [.i32 n, .i32 0], []⟩ (.inside 2 (.inside 0 (.here 5))) c := by
  refine ⟨⟨st, [.i32 n, .i32 1], [.i32 n, .i32 1]⟩, .block rfl (.here (k := 2) (by decide) (.succ .constI32 (.succ (.localSet (show 1 < 2 by decide)) .zero))) (.loop rfl (.here (k := 0) (by decide) .zero) (.here (k := 5) (by decide) ?_))⟩
  exact .succ (.localGet rfl) (.succ (.num rfl rfl) (.succ (.brIfNot (if_neg hn)) (.succ (.localGet rfl) (.succ (.localGet rfl) .zero))))

/-- (func  block  br 0  i32.const 1  drop  end) -/
def deadModule : Module := { types := [⟨[], []⟩], funcs := [⟨0, [], [.block [] [.br 0, .constI32 1, .drop]]⟩] }

-- code after a branch is not executed
example (st : Store) (M : Machine) (hM : Instance deadModule M) (hn : NumOk M) (hh : HostOk deadModule M) (hst : StoreOk deadModule M.all.length st) (c : Conf) :
    ¬ At M [.block [] [.br 0, .constI32 1, .drop]] ⟨st, [], []⟩ (.inside 0 (.here 2)) c :=
  C84_dead (m := deadModule) (r := ⟨[], []⟩) (by decide +kernel) (fun f hf => (plain_iff.mp (by simp [deadModule] at hf; subst hf; simp [plainL, plainI])).2) hM hn hh hst
    (f := ⟨0, [], [.block [] [.br 0, .constI32 1, .drop]]⟩) (by simp [deadModule]) (t := ⟨[], []⟩) rfl (args := []) rfl
    (x := { spaces deadModule with ret := some [], operands := [.val .i32], frames := [⟨[], [], 0, true⟩, ⟨[], [], 0, false⟩] }) (by rfl) rfl (.inl rfl)

end Whasm
