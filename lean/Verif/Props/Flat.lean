import Verif.Lemmas.FlatCalls
import Verif.Props.Layout

/-!
# C105: a machine without labels, with the frames of validation as its table

C104 says of each branch by the rules of the document where it leaves the operands. This puts it together: `Spec/Flat.lean` is a machine that executes code in place, with one stack of operands for each call and no
labels, as an engine does. All that it needs for branches is a table, and the table is what the frames of the validator say.
-/

namespace Whasm
open Spec Run

/-- The table that validation makes: for a place in a function, the frames on arrival there. -/
def sideTable (m : Module) : Landings := fun f p l =>
  match arriveFunc f p (spaces m) with
  | .ok (_, x) => x.frames[l]?.map fun fr => (fr.label.length, fr.height)
  | .error _ => none

theorem popArgs_top {ts : List Val} {vs us rest : List Value} (h : popArgs ts vs = some (us, rest)) : us.reverse = vs.take ts.length := by
  unfold popArgs at h
  dsimp only at h
  split at h
  · cases h
    rw [List.reverse_reverse]
  · cases h

section
variable {m : Module} {r : ModuleResult} (h : validateModule m = .ok r) (he : NoElse m) {M : Machine} (hM : Instance m M) (hn : NumOk M) (hh : HostOk m M)
include h he hM hn hh

/-- Branches. -/
theorem flat_branch {st : Store} {a : Act} {as : List Act} {st0 : Store} {l0 us0 us ws B' : List Value} {fs es : List Admin} {F' : List (List Val × Nat)} {i : Instr} {l : Idx} {j : Nat}
    (g : ActOk m M a st0 l0) (hi : a.place.instr a.func.body = some i)
    (hs : Sits M [] [(a.type.results, 0)] a.func.body ⟨st0, l0, []⟩ a.place ⟨st, a.locals, us0⟩ us [.plain (.br l)] ws fs B' F') (ha : a.stack = us0 ++ B')
    (hc : Callers m M st as [.frame a.type.results a.locals [] [.label a.type.results [] ws fs]] es) (hj : Jumps (some i) l.toNat us us0)
    (hr : Steps M j ⟨st, a.locals, us0⟩ [.plain i] ⟨st, a.locals, us⟩ [.plain (.br l)]) :
    ∃ s' k es', FStep M (sideTable m) (.running st a as) s' ∧ 0 < k ∧ Steps M k ⟨st, [], []⟩ es ⟨st, [], []⟩ es' ∧ FRel m M s' ⟨st, [], []⟩ es' := by
  obtain ⟨args, hargs, rfl⟩ := g.locals
  have hv := valid_of_ok h he
  obtain ⟨t', ht', hb⟩ := hv.funcs a.func g.func
  rw [g.type] at ht'
  cases ht'
  have hd := jumps_depth (p := a.place) hb rfl (by rw [hi]; exact hj)
  obtain ⟨q, hq⟩ := up_some hd
  obtain ⟨x, b1, b2, b3, b4, b5⟩ := gets_func h he hM hn hh g.store g.func g.type hargs (sits_gets hs)
  obtain ⟨e1, _⟩ := places_of_marks b4
  have hlen : l.toNat < x.frames.length := by omega
  obtain ⟨j2, hrun⟩ := sits_run hs (by rw [headAt, hi]; exact hr)
  obtain ⟨n1, n2⟩ := sits_nextOf hs
  have hrun' := steps_label (r := a.type.results) (k := []) (vs := []) (es := []) hrun
  obtain ⟨_, x2, d, vs2, fr2, _, _, _, d4, d5, c2, fs2, _, _, _, _, d6, _⟩ :=
    C104_branch h he hM hn hh g.store g.func g.type hargs hrun' (.label n1)
  have hF : F'[l.toNat]? = some (fr2.label, fr2.height) := by
    have e2 : labelsAt [] [.label a.type.results [] ws fs] = F' := congrArg Prod.snd n2
    rw [← e2]
    have e3 := congrArg (·[l.toNat]?) d4
    dsimp only at e3
    rw [e3, places, List.getElem?_map, List.getElem?_drop, Nat.add_comm, d5]
    rfl
  have hp : popArgs fr2.label us = some ((us.take fr2.label.length).reverse, us.drop fr2.label.length) := by
    unfold popArgs
    dsimp only
    rw [if_pos]
    rw [List.map_reverse, d6, List.reverse_reverse]
  obtain ⟨vs', fs', us', B2, F2, g1, g2, ⟨A, g3, g4⟩, g5⟩ := sits_branch l.toNat rfl hs hi hr hq hF hp
  obtain ⟨es', k1, k2⟩ := call_steps hc g1
  have hT : sideTable m a.func a.place l.toNat = some (fr2.label.length, fr2.height) := by
    unfold sideTable
    rw [b1]
    have e4 := congrArg (·[l.toNat]?) e1
    rw [hF, places, List.getElem?_map, Option.map_eq_some_iff] at e4
    obtain ⟨fr, e5, e6⟩ := e4
    obtain ⟨e7, e8⟩ := Prod.mk.inj e6
    show Option.map _ x.frames[l.toNat]? = _
    rw [e5, Option.map_some, e7, e8]
  have hj' : Jumps (a.place.instr a.func.body) l.toNat (us ++ B') a.stack := by
    rw [hi, ha]
    exact jumps_more hj B'
  have hen : fr2.label.length + fr2.height ≤ (us ++ B').length := by
    have h7 := (popArgs_len hp).1
    rw [List.length_reverse, List.length_take] at h7
    have h9 := congrArg List.length g3
    rw [List.length_append, g4] at h9
    rw [List.length_append]
    omega
  refine ⟨_, l.toNat + 1, es', .branch hj' hT hq hen, Nat.succ_pos _, k1,
    .running (a := { a with place := q.land a.func.body, stack := (us ++ B').take fr2.label.length ++ lowest fr2.height (us ++ B') }) ⟨g.store, g.func, g.type, g.locals⟩ g5 ?_ k2⟩
  dsimp only
  rw [g2, List.reverse_reverse]
  have h7 := popArgs_len hp
  rw [List.length_reverse] at h7
  have h8 : lowest fr2.height (us ++ B') = lowest fr2.height B' := by
    generalize lowest fr2.height B' = L at g3 g4
    rw [g3, ← g4, ← List.append_assoc, lowest_append]
  rw [h8, List.take_append_of_le_length (by omega)]

/-- Each state of the machine without labels that is no end has a next one, and the rules come, with at least one step, from the state that belongs to it to the one that belongs to the next. -/
theorem flat_step {st1 : Store} (hst : StoreOk m M.all.length st1) {x : Nat} {t : FuncTy} (ht : (funcSpace m)[x]? = some t) {fi : FuncInst} (hx : M.funcs[x]? = some fi) {args : List Value}
    (hargs : args.map Value.type = t.params) {N : Nat} {c : Conf} {es : List Admin} (hN : Steps M N (called args st1) [.invoke fi] c es) {st : Store} {a : Act} {as : List Act}
    (hR : FRel m M (.running st a as) c es) :
    ∃ s' k c' es', FStep M (sideTable m) (.running st a as) s' ∧ 0 < k ∧ Steps M k c es c' es' ∧ FRel m M s' c' es' := by
  have prog : ∀ {k es'}, Steps M k c es ⟨st, [], []⟩ es' → (∃ r ls vs fs, es' = [.frame r ls vs fs]) → ∃ c2 es2, Step M ⟨st, [], []⟩ es' c2 es2 := by
    intro k es' h1 h2
    rcases C83_progress h he hM hn hh hst ht hx hargs (steps_trans hN h1) with h3 | h3
    · obtain ⟨_, _, _, _, rfl⟩ := h2
      cases h3
    · exact h3
  cases hR with
  | @running _ _ _ st0 l0 us ws fs B' F' _ g hs ha hc =>
  have done : ∀ {k us' rest}, 0 < k → (a.place.instr a.func.body = some .ret ∨ a.place.instr a.func.body = none ∧ a.place.outer = none) → popArgs a.type.results a.stack = some (us', rest) →
      (∀ ls vs, Steps M k ⟨st, ls, vs⟩ [.frame a.type.results a.locals [] [.label a.type.results [] ws fs]] ⟨st, ls, us'.reverse ++ vs⟩ []) →
      ∃ s' k c' es', FStep M (sideTable m) (.running st a as) s' ∧ 0 < k ∧ Steps M k ⟨st, [], []⟩ es c' es' ∧ FRel m M s' c' es' := by
    intro k us' rest hk h1 h2 h3
    cases as with
    | nil =>
      cases hc
      have h4 := h3 [] []
      rw [List.append_nil] at h4
      exact ⟨_, k, _, _, .last h1 h2, hk, h4, .finished⟩
    | cons a' as =>
      obtain ⟨es', h4, h5⟩ := callers_back hc h3
      exact ⟨_, k, _, es', .back h1 h2, hk, h4, h5⟩
  cases hp : a.place.instr a.func.body with
  | none =>
    have e0 : headAt a.place a.func.body = [] := by rw [headAt, hp]; rfl
    rw [e0] at hs
    cases hq : a.place.outer with
    | some q =>
      obtain ⟨vs', fs', us', B2, F2, h1, h2, h3⟩ := sits_fall hs hp hq
      obtain ⟨es', h4, h5⟩ := call_steps hc h1
      exact ⟨_, 1, _, es', .fall hp hq, Nat.one_pos, h4, .running (a := { a with place := q.next }) ⟨g.store, g.func, g.type, g.locals⟩ h3 (ha.trans h2.symm) h5⟩
    | none =>
      obtain ⟨n, hpl⟩ := outer_here hq
      have hs' := hs
      rw [hpl] at hs' hp
      cases hs' with
      | here hg =>
        have e1 : a.func.body.drop (n + 1) = [] := List.drop_eq_nil_of_le (Nat.le_succ_of_le (List.getElem?_eq_none_iff.mp hp))
        rw [e1] at hc done
        rw [List.append_nil] at ha
        have s1 : ∀ ls vs, Steps M 1 ⟨st, ls, vs⟩ [.frame a.type.results a.locals [] [.label a.type.results [] us ([] ++ plains [])]] ⟨st, ls, vs⟩ [.frame a.type.results a.locals us []] := by
          intro ls vs
          have := Step.endLabel (M := M) (st := st) (ls := a.locals) (vs := []) (es := []) (r := a.type.results) (k := []) (ws := us)
          rw [List.append_nil] at this
          exact .succ (.inFrame this) .zero
        obtain ⟨es1, h1, h2⟩ := callers_steps hc s1
        obtain ⟨ls, vs, c3, X3, h3⟩ := callers_inv h2 rfl trivial (prog h1 (callers_frame h2 ⟨_, _, _, _, rfl⟩))
        cases h3 with
        | inFrame h3 => exact (not_step_nil h3).elim
        | endFrame hpop => exact done (k := 2) (by omega) (.inr ⟨by rw [hpl]; exact hp, hq⟩) (by rw [ha]; exact hpop) fun ls vs => steps_trans (s1 ls vs) (.succ (.endFrame hpop) .zero)
  | some i =>
    have e0 : headAt a.place a.func.body = [.plain i] := by rw [headAt, hp]; rfl
    rw [e0] at hs
    by_cases hret : i = .ret
    · subst hret
      obtain ⟨k, tl, h1⟩ := sits_ret hs st a.locals
      have s1 : ∀ ls vs, Steps M (k + 1) ⟨st, ls, vs⟩ [.frame a.type.results a.locals [] [.label a.type.results [] ws fs]] ⟨st, ls, vs⟩ [.frame a.type.results a.locals us [.plain .ret]] := by
        intro ls vs
        exact steps_frame (c := ⟨st, a.locals, []⟩) (c' := ⟨st, a.locals, us⟩) (steps_trans (steps_label h1) (.succ .retOut .zero))
      obtain ⟨es1, h2, h3⟩ := callers_steps hc s1
      obtain ⟨ls, vs, c3, X3, h4⟩ := callers_inv h3 rfl trivial (prog h2 (callers_frame h3 ⟨_, _, _, _, rfl⟩))
      cases h4 with
      | inFrame h4 => exact (not_step_ret h4).elim
      | retHere hpop => exact done (k := k + 1 + 1) (by omega) (.inl hp) (by rw [ha]; exact popArgs_more hpop B') fun ls vs => steps_trans (s1 ls vs) (.succ (.retHere hpop) .zero)
    by_cases hbr : ∃ l, i = .br l
    · obtain ⟨l, rfl⟩ := hbr
      obtain ⟨s', k, es', h1, h2, h3, h4⟩ := flat_branch h he hM hn hh g hp hs ha hc .br .zero
      exact ⟨s', k, _, es', h1, h2, h3, h4⟩
    have hst' : Stays (.plain i) := by
      cases i <;> first | trivial | exact hret rfl | exact hbr ⟨_, rfl⟩
    obtain ⟨⟨st3, ls3, us3⟩, X3, h1⟩ := call_inv hc hs hst' (prog .zero (callers_frame hc ⟨_, _, _, _, rfl⟩))
    obtain ⟨ws1, fs1, h2, h3⟩ := sits_steps hs (.succ h1 .zero)
    obtain ⟨es1, h4, h5⟩ := call_steps hc h2
    have h6 : Step M ⟨st, a.locals, a.stack⟩ [.plain i] ⟨st3, ls3, us3 ++ B'⟩ X3 := by
      rw [ha]
      exact step_more h1 B'
    rcases step_kinds h1 with rfl | rfl | ⟨r', b, rfl, rfl, rfl, rfl, rfl⟩ | ⟨r', b, rfl, rfl, rfl, rfl, rfl⟩ | ⟨r', b1, b2, k, rfl, rfl, rfl, rfl, rfl⟩ | ⟨fj, rfl, rfl, rfl⟩ | ⟨l, rfl, hj, rfl, rfl⟩
    · exact ⟨_, 1, _, es1, .instr hp h6, Nat.one_pos, h4,
        .running (a := { a with place := a.place.next, locals := ls3, stack := us3 ++ B' }) ⟨g.store, g.func, g.type, g.locals⟩ (sits_next h3 hp (.succ h1 .zero)) rfl h5⟩
    · obtain ⟨k2, vs2, tl, t1⟩ := sits_trap h3 st3 ls3
      obtain ⟨k, vs', tl, t2, t3⟩ := callers_trap hc (st' := st3) fun ls vs => ⟨1 + k2 + 1 + 1, vs, by omega, by
        have t4 := steps_label (r := a.type.results) (k := []) (vs := []) (es := []) (steps_trans h2 t1)
        exact steps_trans (steps_frame (c := ⟨st, a.locals, []⟩) (c' := ⟨st3, ls3, []⟩) (steps_trans t4 (.succ .trapOut .zero))) (.succ .trapFrame .zero)⟩
      exact ⟨_, k, _, _, .trap hp h6, t2, t3, .trapped⟩
    · exact ⟨_, 1, _, es1, .block hp, Nat.one_pos, h4, .running (a := { a with place := a.place.enter }) ⟨g.store, g.func, g.type, g.locals⟩ (sits_block h3 hp rfl) ha h5⟩
    · exact ⟨_, 1, _, es1, .loop hp, Nat.one_pos, h4, .running (a := { a with place := a.place.enter }) ⟨g.store, g.func, g.type, g.locals⟩ (sits_loop h3 hp rfl) ha h5⟩
    · by_cases hk : k = 0
      · rw [if_pos hk] at h3
        exact ⟨_, 1, _, es1, .ifElse hp ha hk, Nat.one_pos, h4,
          .running (a := { a with place := a.place.enterElse, stack := us3 ++ B' }) ⟨g.store, g.func, g.type, g.locals⟩ (sits_else h3 hp hk) rfl h5⟩
      · rw [if_neg hk] at h3
        exact ⟨_, 1, _, es1, .ifThen hp ha hk, Nat.one_pos, h4,
          .running (a := { a with place := a.place.enter, stack := us3 ++ B' }) ⟨g.store, g.func, g.type, g.locals⟩ (sits_then h3 hp hk) rfl h5⟩
    · obtain ⟨c4, X4, h7⟩ := call_inv h5 h3 trivial (prog h4 (callers_frame h5 ⟨_, _, _, _, rfl⟩))
      obtain ⟨ws2, fs2, h8, h9⟩ := sits_steps (st' := c4.store) (ls' := c4.locals) (us' := c4.stack) h3 (.succ h7 .zero)
      obtain ⟨es2, h10, h11⟩ := call_steps h5 h8
      have h12 := steps_trans h4 h10
      cases h7 with
      | @invokeOwn _ _ _ _ t' f' args' rest hpop =>
        have hcall : Calling [] es1 (.own t' f') args' := callers_calling h5 fun vs => .frame (.label (sits_calling h3 (.here hpop)))
        obtain ⟨g1, g2, g3⟩ := C83_calls h he hM hn hh hst ht hx hargs (steps_trans hN h4) hcall
        have g4 : f' ∈ m.funcs ∧ m.types[f'.ty.toNat]? = some t' := by
          obtain ⟨_, imp, hfs, _, hfo⟩ := hM
          rw [Machine.all, hfs, List.mem_append, List.mem_append] at g1
          rcases g1 with (g1 | g1) | g1
          · obtain ⟨_, _, e⟩ := hfo _ (List.mem_append_left _ g1)
            cases e
          · obtain ⟨f2, e1, e2⟩ := List.mem_filterMap.mp g1
            obtain ⟨t2, e3, e4⟩ := Option.map_eq_some_iff.mp e2
            cases e4
            exact ⟨e1, e3⟩
          · obtain ⟨_, _, e⟩ := hfo _ (List.mem_append_right _ g1)
            cases e
        refine ⟨_, 1 + 1, _, es2, .call hp h6 (popArgs_more hpop B'), by omega, h12,
          .running (a := ⟨t', f', .here 0, args' ++ f'.locals.map zero, []⟩) (us := []) (B' := []) (F' := [(t'.results, 0)]) ⟨g3, g4.1, g4.2, args', g2, rfl⟩ ?_ rfl
            (.more (a := { a with stack := rest ++ B' }) ⟨g.store, g.func, g.type, g.locals⟩ h9 hp (.succ h1 (.succ (.invokeOwn hpop) .zero)) rfl h11)⟩
        dsimp only
        rw [head_start]
        exact .here (.here (k := 0) (Nat.zero_le _) .zero)
      | @invokeHost _ _ _ _ t' id args' rest st4 us4 hpop hhost =>
        exact ⟨_, 1 + 1, _, es2, .host hp h6 (popArgs_more hpop B') hhost, by omega, h12,
          .running (a := { a with place := a.place.next, stack := us4.reverse ++ (rest ++ B') }) ⟨g.store, g.func, g.type, g.locals⟩
            (sits_next h9 hp (.succ h1 (.succ (.invokeHost hpop hhost) .zero))) (List.append_assoc ..).symm h11⟩
      | @hostTrap _ _ _ _ t' id args' rest st4 hpop hhost =>
        obtain ⟨k2, vs2, tl, t1⟩ := sits_trap h9 st4 a.locals
        obtain ⟨k, vs', tl, t2, t3⟩ := callers_trap hc (st' := st4) fun ls vs => ⟨1 + 1 + k2 + 1 + 1, vs, by omega, by
          have t4 := steps_label (r := a.type.results) (k := []) (vs := []) (es := []) (steps_trans (steps_trans h2 h8) t1)
          exact steps_trans (steps_frame (c := ⟨st3, a.locals, []⟩) (c' := ⟨st4, a.locals, []⟩) (steps_trans t4 (.succ .trapOut .zero))) (.succ .trapFrame .zero)⟩
        exact ⟨_, k, _, _, .hostTrap hp h6 (popArgs_more hpop B') hhost, t2, t3, .trapped⟩
    · obtain ⟨s', k, es', h7, h8, h9, h10⟩ := flat_branch h he hM hn hh g hp h3 ha h5 hj (.succ h1 .zero)
      exact ⟨s', 1 + k, _, es', h7, by omega, steps_trans h4 h9, h10⟩

/-- Several steps. -/
theorem flat_steps {st1 : Store} (hst : StoreOk m M.all.length st1) {x : Nat} {t : FuncTy} (ht : (funcSpace m)[x]? = some t) {fi : FuncInst} (hx : M.funcs[x]? = some fi) {args : List Value}
    (hargs : args.map Value.type = t.params) {n : Nat} {s s' : FState} (hs : FSteps M (sideTable m) n s s') : ∀ {N : Nat} {c : Conf} {es : List Admin},
    Steps M N (called args st1) [.invoke fi] c es → FRel m M s c es → ∃ k c' es', n ≤ k ∧ Steps M k c es c' es' ∧ FRel m M s' c' es' := by
  induction hs with
  | zero => exact fun _ hR => ⟨0, _, _, Nat.le_refl _, .zero, hR⟩
  | @succ n s s1 s2 h1 _ ih =>
    intro N c es hN hR
    have hrun : ∃ st a as, s = .running st a as := by cases h1 <;> exact ⟨_, _, _, rfl⟩
    obtain ⟨st, a, as, rfl⟩ := hrun
    obtain ⟨s3, k, c', es', g1, g2, g3, g4⟩ := flat_step h he hM hn hh hst ht hx hargs hN hR
    cases flat_det h1 g1
    obtain ⟨k2, c2, es2, g5, g6, g7⟩ := ih (steps_trans hN g3) g4
    exact ⟨k + k2, c2, es2, by omega, steps_trans g3 g6, g7⟩

omit h he hM hn hh in
theorem fsteps_snoc {T : Landings} {n : Nat} {s s1 s2 : FState} (h1 : FSteps M T n s s1) (h2 : FStep M T s1 s2) : FSteps M T (n + 1) s s2 := by
  induction h1 with
  | zero => exact .succ h2 .zero
  | succ h1 _ ih => exact .succ h1 (ih h2)

omit h he hn hh in
/-- The beginning. -/
theorem flat_enter {st : Store} (hst : StoreOk m M.all.length st) {t : FuncTy} {f : Func} {x : Nat} (hx : M.funcs[x]? = some (.own t f)) {args : List Value}
    (hargs : args.map Value.type = t.params) : ∃ c es, Steps M 1 (called args st) [.invoke (.own t f)] c es ∧ FRel m M (entered t f args st) c es := by
  have hp : popArgs t.params args.reverse = some (args, []) := by
    have hl : t.params.length = args.reverse.length := by rw [← hargs, List.length_map, List.length_reverse]
    unfold popArgs
    dsimp only
    rw [hl, List.take_length, List.drop_length, List.reverse_reverse, if_pos hargs]
  have hf : f ∈ m.funcs ∧ m.types[f.ty.toNat]? = some t := by
    obtain ⟨_, imp, hfs, _, hfo⟩ := hM
    have g1 := List.mem_of_getElem? hx
    rw [hfs, List.mem_append] at g1
    rcases g1 with g1 | g1
    · obtain ⟨_, _, e⟩ := hfo _ (List.mem_append_left _ g1)
      cases e
    · obtain ⟨f2, e1, e2⟩ := List.mem_filterMap.mp g1
      obtain ⟨t2, e3, e4⟩ := Option.map_eq_some_iff.mp e2
      cases e4
      exact ⟨e1, e3⟩
  refine ⟨_, _, .succ (.invokeOwn hp) .zero, .running (a := ⟨t, f, .here 0, args ++ f.locals.map zero, []⟩) (us := []) (B' := []) (F' := [(t.results, 0)]) ⟨hst, hf.1, hf.2, args, hargs, rfl⟩ ?_ rfl .none⟩
  dsimp only
  rw [head_start]
  exact .here (.here (k := 0) (Nat.zero_le _) .zero)

section
variable {st : Store} (hst : StoreOk m M.all.length st) {x : Nat} {t : FuncTy} (ht : (funcSpace m)[x]? = some t) {f : Func} (hx : M.funcs[x]? = some (.own t f)) {args : List Value}
  (hargs : args.map Value.type = t.params)
include hst ht hx hargs

/-- A run of the machine without labels, and of the rules. -/
theorem flat_run {n : Nat} {s : FState} (hs : FSteps M (sideTable m) n (entered t f args st) s) :
    ∃ k c es, n < k ∧ Steps M k (called args st) [.invoke (.own t f)] c es ∧ FRel m M s c es := by
  obtain ⟨c, es, h1, h2⟩ := flat_enter hM hst hx hargs
  obtain ⟨k, c', es', h3, h4, h5⟩ := flat_steps h he hM hn hh hst ht hx hargs hs h1 h2
  exact ⟨1 + k, c', es', by omega, steps_trans h1 h4, h5⟩

/-- **C105, progress.** In every state that the machine without labels gets into it has come to an end, or there is a next one, and only one: the stack has the operands that are needed, and the table has
an entry for every branch. -/
theorem C105_progress {n : Nat} {s : FState} (hs : FSteps M (sideTable m) n (entered t f args st) s) :
    (∃ st' vs, s = .finished st' vs) ∨ (∃ st', s = .trapped st') ∨ ∃ s', FStep M (sideTable m) s s' ∧ ∀ s2, FStep M (sideTable m) s s2 → s2 = s' := by
  obtain ⟨k, c, es, _, h1, h2⟩ := flat_run h he hM hn hh hst ht hx hargs hs
  cases s with
  | running st' a as =>
    obtain ⟨s', _, _, _, h3, _⟩ := flat_step h he hM hn hh hst ht hx hargs h1 h2
    exact .inr (.inr ⟨s', h3, fun s2 h4 => flat_det h4 h3⟩)
  | finished st' vs => exact .inl ⟨st', vs, rfl⟩
  | trapped st' => exact .inr (.inl ⟨st', rfl⟩)

/-- **C105, places of operands.** In every state that the machine without labels gets into, the operands of the call are exactly as many as the operand stack of the validator has on arrival at its place, and of its
types, and so are the local variables; of a call that waits for another there are no more. So each operand has a place in memory or a register that is known from validation. -/
theorem C105_slots {n : Nat} {st' : Store} {a : Act} {as : List Act} (hs : FSteps M (sideTable m) n (entered t f args st) (.running st' a as)) :
    (∃ x, arriveFunc a.func a.place (spaces m) = .ok ((), x) ∧ x.operands = a.stack.map (.val ·.type) ∧ x.locals = a.locals.map Value.type ∧ ∀ fr ∈ x.frames, fr.unreachable = false) ∧
    ∀ b ∈ as, ∃ y, arriveFunc b.func b.place (spaces m) = .ok ((), y) ∧ b.stack.length ≤ y.operands.length := by
  have here : ∀ {n st' a as}, FSteps M (sideTable m) n (entered t f args st) (.running st' a as) → ∃ x, arriveFunc a.func a.place (spaces m) = .ok ((), x) ∧ x.operands = a.stack.map (.val ·.type) ∧
      x.locals = a.locals.map Value.type ∧ ∀ fr ∈ x.frames, fr.unreachable = false := by
    intro n st' a as hs
    obtain ⟨k, c, es, _, _, h2⟩ := flat_run h he hM hn hh hst ht hx hargs hs
    cases h2 with
    | running g hs ha _ =>
      obtain ⟨args', hargs', rfl⟩ := g.locals
      obtain ⟨x, b1, b2, b3, b4, _⟩ := gets_func h he hM hn hh g.store g.func g.type hargs' (sits_gets hs)
      refine ⟨x, b1, ?_, b2.locals, (places_of_marks b4).2⟩
      rw [b3, ha]
  refine ⟨here hs, ?_⟩
  have less : ∀ {c c' : Conf} {i : Instr} {X : List Admin} {fi : FuncInst}, Step M c [.plain i] c' X → X = [.invoke fi] → c'.stack.length ≤ c.stack.length := by
    intro c c' i X fi h e
    cases h with
    | call => exact Nat.le_refl _
    | callIndirect => exact Nat.le_succ _
    | _ => cases e
  have inv : ∀ {n : Nat} {s s' : FState}, FSteps M (sideTable m) n s s' → ∀ {j : Nat}, FSteps M (sideTable m) j (entered t f args st) s →
      (∀ st' a as, s = .running st' a as → ∀ b ∈ as, ∃ y, arriveFunc b.func b.place (spaces m) = .ok ((), y) ∧ b.stack.length ≤ y.operands.length) →
      ∀ st' a as, s' = .running st' a as → ∀ b ∈ as, ∃ y, arriveFunc b.func b.place (spaces m) = .ok ((), y) ∧ b.stack.length ≤ y.operands.length := by
    intro n s s' hs
    induction hs with
    | zero => exact fun _ hb => hb
    | @succ n s s1 s2 h1 _ ih =>
      intro j hj hb
      refine ih (j := j + 1) (fsteps_snoc hj h1) ?_
      intro st' a as e
      cases h1 with
      | @call st1 a1 as1 i ls' S t2 f2 args2 rest hi h2 hp =>
        cases e
        intro b hm
        rcases List.mem_cons.mp hm with rfl | hm
        · obtain ⟨x, e1, e2, _⟩ := here hj
          refine ⟨x, e1, ?_⟩
          rw [e2, List.length_map]
          have h3 : rest.length ≤ S.length := by
            unfold popArgs at hp
            dsimp only at hp
            split at hp
            · cases hp
              rw [List.length_drop]
              omega
            · cases hp
          exact Nat.le_trans h3 (less h2 rfl)
        · exact hb _ _ _ rfl b hm
      | back => cases e; exact fun b hm => hb _ _ _ rfl b (List.mem_cons_of_mem _ hm)
      | instr | block | loop | ifThen | ifElse | fall | branch | host => cases e; exact hb _ _ _ rfl
      | trap | hostTrap | last => cases e
  exact inv hs .zero (fun st' a as e => by cases e; exact fun _ h => nomatch h) _ _ _ rfl

/-- **C105, ends.** If the rules come to an end after `K` steps, so does the machine without labels, after fewer. -/
theorem C105_ends {K : Nat} {c : Conf} {es : List Admin} (hK : Steps M K (called args st) [.invoke (.own t f)] c es) (hf : Final es) :
    ∃ n s, n < K ∧ FSteps M (sideTable m) n (entered t f args st) s ∧ ((es = [] ∧ s = .finished c.store c.stack.reverse) ∨ (es ≠ [] ∧ s = .trapped c.store)) := by
  have same : ∀ {k c' es'}, Steps M k (called args st) [.invoke (.own t f)] c' es' → Final es' → k = K ∧ c' = c ∧ es' = es := by
    intro k c' es' h1 h2
    exact ends_same h1 hK (fun _ _ => final_stops h2) fun _ _ => final_stops hf
  have go : ∀ d {n N : Nat} {s : FState} {c' : Conf} {es' : List Admin}, FSteps M (sideTable m) n (entered t f args st) s → Steps M N (called args st) [.invoke (.own t f)] c' es' → FRel m M s c' es' →
      n < N → K - N ≤ d → ∃ n s, n < K ∧ FSteps M (sideTable m) n (entered t f args st) s ∧ ((es = [] ∧ s = .finished c.store c.stack.reverse) ∨ (es ≠ [] ∧ s = .trapped c.store)) := by
    intro d
    induction d with
    | zero =>
      intro n N s c' es' h1 h2 h3 h4 h5
      cases h3 with
      | running g hs ha hc =>
        obtain ⟨s', k, c2, es2, _, g2, g3, _⟩ := flat_step h he hM hn hh hst ht hx hargs h2 (.running g hs ha hc)
        have h6 : Steps M (K + (N + k - K)) (called args st) [.invoke (.own t f)] c2 es2 := by
          rw [show K + (N + k - K) = N + k by omega]
          exact steps_trans h2 g3
        have h7 := steps_det hK h6
        rw [show N + k - K = (N + k - K - 1) + 1 by omega] at h7
        cases h7 with
        | succ h7 _ => exact (final_stops hf h7).elim
      | finished =>
        obtain ⟨rfl, rfl, rfl⟩ := same h2 .values
        exact ⟨n, _, h4, h1, .inl ⟨rfl, by rw [List.reverse_reverse]⟩⟩
      | trapped =>
        obtain ⟨rfl, rfl, rfl⟩ := same h2 .trap
        exact ⟨n, _, h4, h1, .inr ⟨List.cons_ne_nil _ _, rfl⟩⟩
    | succ d ih =>
      intro n N s c' es' h1 h2 h3 h4 h5
      cases h3 with
      | running g hs ha hc =>
        obtain ⟨s', k, c2, es2, g1, g2, g3, g4⟩ := flat_step h he hM hn hh hst ht hx hargs h2 (.running g hs ha hc)
        exact ih (fsteps_snoc h1 g1) (steps_trans h2 g3) g4 (by omega) (by omega)
      | finished =>
        obtain ⟨rfl, rfl, rfl⟩ := same h2 .values
        exact ⟨n, _, h4, h1, .inl ⟨rfl, by rw [List.reverse_reverse]⟩⟩
      | trapped =>
        obtain ⟨rfl, rfl, rfl⟩ := same h2 .trap
        exact ⟨n, _, h4, h1, .inr ⟨List.cons_ne_nil _ _, rfl⟩⟩
  obtain ⟨c0, es0, h1, h2⟩ := flat_enter hM hst hx hargs
  exact go (K - 1) .zero h1 h2 Nat.one_pos (Nat.le_refl _)

/-- **C105.** A call of a function of an accepted module, with arguments of the types of its parameters, has the same results by the rules of the document and on a machine without labels whose table is what the
frames of validation say: it returns the same values with the same store, or traps with the same store, or goes on forever. -/
theorem C105_flat :
    (∀ vs st', (∃ n, FSteps M (sideTable m) n (entered t f args st) (.finished st' vs)) ↔ ∃ k c, Steps M k (called args st) [.invoke (.own t f)] c [] ∧ c.stack.reverse = vs ∧ c.store = st') ∧
    (∀ st', (∃ n, FSteps M (sideTable m) n (entered t f args st) (.trapped st')) ↔ ∃ k c es, Steps M k (called args st) [.invoke (.own t f)] c (.trap :: es) ∧ c.store = st') ∧
    ((∀ n, ∃ s, FSteps M (sideTable m) n (entered t f args st) s) ↔ ∀ k, ∃ c es, Steps M k (called args st) [.invoke (.own t f)] c es) := by
  refine ⟨fun vs st' => ⟨?_, ?_⟩, fun st' => ⟨?_, ?_⟩, ?_, ?_⟩
  · rintro ⟨n, hs⟩
    obtain ⟨k, c, es, _, h1, h2⟩ := flat_run h he hM hn hh hst ht hx hargs hs
    cases h2
    exact ⟨k, _, h1, List.reverse_reverse _, rfl⟩
  · rintro ⟨k, c, h1, rfl, rfl⟩
    obtain ⟨n, s, _, h2, ⟨_, rfl⟩ | ⟨h3, _⟩⟩ := C105_ends h he hM hn hh hst ht hx hargs h1 .values
    · exact ⟨n, h2⟩
    · exact (h3 rfl).elim
  · rintro ⟨n, hs⟩
    obtain ⟨k, c, es, _, h1, h2⟩ := flat_run h he hM hn hh hst ht hx hargs hs
    cases h2
    exact ⟨k, _, _, h1, rfl⟩
  · rintro ⟨k, c, es, h1, rfl⟩
    obtain ⟨n, s, _, h2, ⟨h3, _⟩ | ⟨_, rfl⟩⟩ := C105_ends h he hM hn hh hst ht hx hargs h1 .trap
    · cases h3
    · exact ⟨n, h2⟩
  · intro hs k
    obtain ⟨s, h1⟩ := hs k
    obtain ⟨k2, c, es, h2, h3, _⟩ := flat_run h he hM hn hh hst ht hx hargs h1
    have part : ∀ {a b : Nat} {c c' : Conf} {es es' : List Admin}, Steps M (a + b) c es c' es' → ∃ c1 es1, Steps M a c es c1 es1 := by
      intro a
      induction a with
      | zero => exact fun _ => ⟨_, _, .zero⟩
      | succ a ih =>
        intro b c c' es es' h
        rw [Nat.succ_add] at h
        cases h with
        | succ h1 h2 =>
          obtain ⟨c1, es1, h3⟩ := ih h2
          exact ⟨c1, es1, .succ h1 h3⟩
    rw [show k2 = k + (k2 - k) by omega] at h3
    exact part h3
  · intro hs n
    induction n with
    | zero => exact ⟨_, .zero⟩
    | succ n ih =>
      obtain ⟨s, h1⟩ := ih
      obtain ⟨k, c, es, _, h2, h3⟩ := flat_run h he hM hn hh hst ht hx hargs h1
      have more : ¬ Final es := by
        intro hf
        obtain ⟨c2, es2, h4⟩ := hs (k + 1)
        have h5 := steps_det h2 h4
        cases h5 with
        | succ h5 _ => exact final_stops hf h5
      cases h3 with
      | running g hs ha hc =>
        obtain ⟨s', _, _, _, g1, _⟩ := flat_step h he hM hn hh hst ht hx hargs h2 (.running g hs ha hc)
        exact ⟨s', fsteps_snoc h1 g1⟩
      | finished => exact (more .values).elim
      | trapped => exact (more .trap).elim

end

end

/-- (func (result i32)  i32.const 1  block (result i32)  i32.const 2  i32.const 3  br 0  end  drop) -/
def landFunc : Func := ⟨0, [], [.constI32 1, .block [.i32] [.constI32 2, .constI32 3, .br 0], .drop]⟩

def landModule : Module := { types := [⟨[], [.i32]⟩], funcs := [landFunc] }

def landMachine : Machine := { endlessMachine with types := [⟨[], [.i32]⟩], funcs := [.own ⟨[], [.i32]⟩ landFunc] }

theorem landModule_ok : validateModule landModule = .ok ⟨[], []⟩ := by decide +kernel

theorem landMachine_num : NumOk landMachine := by
  intro op args v _ hv
  have h1 : ∃ t, (numType op).2 = [t] := by rw [numType_eq]; cases op <;> exact ⟨_, rfl⟩
  obtain ⟨t, ht⟩ := h1
  simp only [landMachine, endlessMachine] at hv
  rw [ht] at hv
  cases hv
  rw [ht, zero_type]

-- the table for the branch: one value is taken along, one operand stays below; nothing for other labels than these, and nothing for places that there are not
example : sideTable landModule landFunc (.inside 1 (.here 2)) 0 = some (1, 1) ∧ sideTable landModule landFunc (.inside 1 (.here 2)) 1 = some (1, 0) ∧
    sideTable landModule landFunc (.inside 1 (.here 2)) 2 = none ∧ sideTable landModule landFunc (.inside 2 (.here 0)) 0 = none := by decide +kernel

-- out of two labels (the module of C104)
example : sideTable leapModule leapModule.funcs[0] (.inside 1 (.inside 1 (.here 1))) 1 = some (0, 1) := by decide +kernel

-- and for the loop of the factorial and the block around it
example : sideTable factModule factModule.funcs[0] (.inside 2 (.inside 0 (.here 2))) 1 = some (0, 0) ∧ sideTable factModule factModule.funcs[0] (.inside 2 (.inside 0 (.here 11))) 0 = some (0, 0) := by decide +kernel

/-- The result of the function with a table that has this entry for its branch. -/
theorem land_run {T : Landings} {n : Nat} (hT : T landFunc (.inside 1 (.here 2)) 0 = some (1, n)) (hn : n ≤ 2) (st : Store) {v : BitVec 32} {S : List Value}
    (e : lowest n [.i32 3, .i32 2, .i32 1] = .i32 v :: S) : FSteps landMachine T 7 (entered ⟨[], [.i32]⟩ landFunc [] st) (.finished st [.i32 v]) := by
  refine .succ (.instr (i := .constI32 1) rfl .constI32) (.succ (.block rfl) (.succ (.instr (i := .constI32 2) rfl .constI32) (.succ (.instr (i := .constI32 3) rfl .constI32)
    (.succ (.branch (S := [.i32 3, .i32 2, .i32 1]) (.br (l := 0)) hT rfl (by rw [Nat.add_comm]; exact Nat.succ_le_succ hn)) (.succ (.instr (i := .drop) rfl .drop) (.succ (.last (rest := S) (.inr ⟨rfl, rfl⟩) ?_) .zero))))))
  rw [e]
  rfl

-- with the table of validation the result is 1
example (st : Store) : FSteps landMachine (sideTable landModule) 7 (entered ⟨[], [.i32]⟩ landFunc [] st) (.finished st [.i32 1]) := land_run (n := 1) (by decide +kernel) (by decide) st rfl

-- with a height that is wrong by one it is 2: the theorem does not hold of any table
example (st : Store) : FSteps landMachine (fun _ _ _ => some (1, 2)) 7 (entered ⟨[], [.i32]⟩ landFunc [] st) (.finished st [.i32 2]) := land_run (n := 2) rfl (by decide) st rfl

-- by the rules it is 1, and the theorem says so
example (st : Store) (hst : StoreOk landModule landMachine.all.length st) :
    ∃ k c, Steps landMachine k (called [] st) [.invoke (.own ⟨[], [.i32]⟩ landFunc)] c [] ∧ c.stack.reverse = [.i32 1] ∧ c.store = st :=
  ((C105_flat landModule_ok (fun f hf => (plain_iff.mp (by simp [landModule] at hf; subst hf; simp [landFunc, plainL, plainI])).2) ⟨rfl, [], rfl, rfl, by simp [landMachine, endlessMachine]⟩
    landMachine_num (fun t id hm => by simp [Machine.all, landMachine, endlessMachine] at hm) hst (x := 0) (t := ⟨[], [.i32]⟩) rfl rfl rfl).1 [.i32 1] st).mp ⟨7, land_run (n := 1) (by decide +kernel) (by decide) st rfl⟩

-- for the factorial of every number, from every store
example (st : Store) (hst : StoreOk factModule factMachine.all.length st) (a : BitVec 32) (vs : List Value) (st' : Store) :
    (∃ n, FSteps factMachine (sideTable factModule) n (entered ⟨[.i32], [.i32]⟩ factModule.funcs[0] [.i32 a] st) (.finished st' vs)) ↔
      ∃ k c, Steps factMachine k (called [.i32 a] st) [.invoke (.own ⟨[.i32], [.i32]⟩ factModule.funcs[0])] c [] ∧ c.stack.reverse = vs ∧ c.store = st' :=
  (C105_flat factModule_ok factModule_noElse factMachine_instance factMachine_num factMachine_host hst (x := 1) rfl rfl rfl).1 vs st'

end Whasm
