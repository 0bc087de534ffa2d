import Verif.Spec.Reduce

/-!
# The interpreter of `Spec/Run` follows the reduction rules of `Spec/Reduce`
-/

namespace Whasm.Run
open Spec

variable {M : Machine}

theorem step_det {c c1 c2 : Conf} {es es1 es2 : List Admin} (h : Step M c es c1 es1) (h' : Step M c es c2 es2) : c1 = c2 ∧ es1 = es2 := by
  induction h generalizing c2 es2 <;> cases h' <;> first
    | exact ⟨rfl, rfl⟩
    | (simp_all; done)
    | (simp_all; omega)
    | (exfalso; rename Step M _ _ _ _ => h; cases h; done)
    | (rename_i ih _ _ _ _ h2; obtain ⟨e1, e2⟩ := ih h2; cases e1; cases e2; exact ⟨rfl, rfl⟩)

theorem not_step_nil {c c' : Conf} {fs : List Admin} : ¬ Step M c [] c' fs := fun h => by cases c; cases h
theorem not_step_br {c c' : Conf} {l : Idx} {es fs : List Admin} : ¬ Step M c (.plain (.br l) :: es) c' fs := fun h => by cases c; cases h
theorem not_step_ret {c c' : Conf} {es fs : List Admin} : ¬ Step M c (.plain .ret :: es) c' fs := fun h => by cases c; cases h
theorem not_step_trap {c c' : Conf} {es fs : List Admin} : ¬ Step M c (.trap :: es) c' fs := fun h => by cases c; cases h

theorem popArgs_again {ts : List Val} {vs us rest : List Value} (h : popArgs ts vs = some (us, rest)) : popArgs ts us.reverse = some (us, []) := by
  simp only [popArgs] at h ⊢
  split at h
  · next ht =>
    simp only [Option.some.injEq, Prod.mk.injEq] at h
    obtain ⟨rfl, rfl⟩ := h
    simp only [List.reverse_reverse]
    have h1 : List.take ts.length (List.take ts.length vs) = List.take ts.length vs := by rw [List.take_take, Nat.min_self]
    have h2 : List.drop ts.length (List.take ts.length vs) = [] := List.drop_eq_nil_of_le (List.length_take_le ..)
    rw [h1, h2, if_pos ht]
  · cases h

theorem steps_trans {a b : Nat} {c c1 c2 : Conf} {es es1 es2 : List Admin} (h : Steps M a c es c1 es1) (h' : Steps M b c1 es1 c2 es2) :
    Steps M (a + b) c es c2 es2 := by
  induction h with
  | zero => rw [Nat.zero_add]; exact h'
  | succ h _ ih => rw [Nat.succ_add]; exact .succ h (ih h')

theorem step_one {c c1 : Conf} {es es1 : List Admin} (h : Step M c es c1 es1) : Steps M 1 c es c1 es1 := .succ h .zero

theorem steps_label {n : Nat} {c c' : Conf} {fs fs' : List Admin} {r : List Val} {k : List Instr} {vs : List Value} {es : List Admin} (h : Steps M n c fs c' fs') :
    Steps M n ⟨c.store, c.locals, vs⟩ (.label r k c.stack fs :: es) ⟨c'.store, c'.locals, vs⟩ (.label r k c'.stack fs' :: es) := by
  induction h with
  | zero => exact .zero
  | succ h _ ih => exact .succ (.inLabel h) ih

theorem steps_frame {n : Nat} {c c' : Conf} {fs fs' : List Admin} {r : List Val} {ls vs : List Value} {es : List Admin} (h : Steps M n c fs c' fs') :
    Steps M n ⟨c.store, ls, vs⟩ (.frame r c.locals c.stack fs :: es) ⟨c'.store, ls, vs⟩ (.frame r c'.locals c'.stack fs' :: es) := by
  induction h with
  | zero => exact .zero
  | succ h _ ih => exact .succ (.inFrame h) ih

/-- No rule applies, and the surroundings do not help. -/
structure Blocked (M : Machine) (c : Conf) (es : List Admin) : Prop where
  nil : es ≠ []
  trap : ∀ fs, es ≠ .trap :: fs
  br : ∀ l fs, es ≠ .plain (.br l) :: fs
  ret : ∀ fs, es ≠ .plain .ret :: fs
  step : ∀ c' fs, ¬ Step M c es c' fs

theorem blocked_label {c : Conf} {fs : List Admin} {r : List Val} {k : List Instr} {vs : List Value} {es : List Admin} (h : Blocked M c fs) :
    Blocked M ⟨c.store, c.locals, vs⟩ (.label r k c.stack fs :: es) := by
  refine ⟨by simp, by simp, by simp, by simp, fun c' fs' hs => ?_⟩
  cases hs with
  | inLabel hs => exact h.step _ _ hs
  | endLabel => exact h.nil rfl
  | brHere => exact h.br _ _ rfl
  | brOut => exact h.br _ _ rfl
  | retOut => exact h.ret _ rfl
  | trapOut => exact h.trap _ rfl

theorem blocked_frame {c : Conf} {fs : List Admin} {r : List Val} {ls vs : List Value} {es : List Admin} (h : Blocked M c fs) :
    Blocked M ⟨c.store, ls, vs⟩ (.frame r c.locals c.stack fs :: es) := by
  refine ⟨by simp, by simp, by simp, by simp, fun c' fs' hs => ?_⟩
  cases hs with
  | inFrame hs => exact h.step _ _ hs
  | endFrame => exact h.nil rfl
  | retHere => exact h.ret _ rfl
  | trapFrame => exact h.trap _ rfl

/-- What an outcome of the interpreter means for the rules: from `is` followed by `es`. `n` is the fuel. -/
def Sim (M : Machine) (n : Nat) (c : Conf) (is es : List Admin) : Outcome → Prop
  | .normal c' => ∃ k, Steps M k c (is ++ es) c' es
  | .br l c' => ∃ k i fs, BitVec.toNat i = l ∧ Steps M k c (is ++ es) c' (.plain (.br i) :: fs)
  | .ret c' => ∃ k fs, Steps M k c (is ++ es) c' (.plain .ret :: fs)
  | .trap st => ∃ k c' fs, c'.store = st ∧ Steps M k c (is ++ es) c' (.trap :: fs)
  | .timeout => ∃ k c' fs, n ≤ k ∧ Steps M k c (is ++ es) c' fs
  | .stuck => ∃ k c' fs, Steps M k c (is ++ es) c' fs ∧ Blocked M c' fs

theorem sim_steps {n k : Nat} {c c1 : Conf} {is is1 es : List Admin} {o : Outcome} (h : Steps M k c (is ++ es) c1 (is1 ++ es)) (hs : Sim M n c1 is1 es o) : Sim M (n + k) c is es o := by
  cases o with
  | normal c' => obtain ⟨j, hs⟩ := hs; exact ⟨_, steps_trans h hs⟩
  | br l c' => obtain ⟨j, i, fs, hi, hs⟩ := hs; exact ⟨_, i, fs, hi, steps_trans h hs⟩
  | ret c' => obtain ⟨j, fs, hs⟩ := hs; exact ⟨_, fs, steps_trans h hs⟩
  | trap st => obtain ⟨j, c', fs, hi, hs⟩ := hs; exact ⟨_, c', fs, hi, steps_trans h hs⟩
  | timeout => obtain ⟨j, c', fs, hi, hs⟩ := hs; exact ⟨_, c', fs, by omega, steps_trans h hs⟩
  | stuck => obtain ⟨j, c', fs, hs, hb⟩ := hs; exact ⟨_, c', fs, steps_trans h hs, hb⟩

theorem Sim.mono {n k : Nat} {c : Conf} {is es : List Admin} {o : Outcome} (h : Sim M n c is es o) (hk : k ≤ n) : Sim M k c is es o := by
  cases o with
  | timeout => obtain ⟨j, c', fs, hi, hs⟩ := h; exact ⟨j, c', fs, by omega, hs⟩
  | _ => exact h

theorem sim_step {n : Nat} {c c1 : Conf} {is is1 es : List Admin} {o : Outcome} (h : Step M c (is ++ es) c1 (is1 ++ es)) (hs : Sim M n c1 is1 es o) : Sim M (n + 1) c is es o :=
  sim_steps (step_one h) hs

theorem sim_normal {n : Nat} {c c' : Conf} {i : Admin} {es : List Admin} (h : Step M c (i :: es) c' es) : Sim M n c [i] es (.normal c') := ⟨1, step_one h⟩

theorem sim_trap {n : Nat} {c c' : Conf} {i : Admin} {es fs : List Admin} (h : Step M c (i :: es) c' (.trap :: fs)) : Sim M n c [i] es (.trap c'.store) := ⟨1, c', fs, rfl, step_one h⟩

theorem sim_stuck {n : Nat} {c : Conf} {i : Admin} {es : List Admin} (h1 : i ≠ .trap) (h2 : ∀ l, i ≠ .plain (.br l)) (h3 : i ≠ .plain .ret) (h : ∀ c' fs, ¬ Step M c (i :: es) c' fs) :
    Sim M n c [i] es .stuck :=
  ⟨0, c, _, .zero, by simp, by simp [h1], by simp [h2], by simp [h3], h⟩

theorem sim_execs {n : Nat} {step : Instr → Conf → Outcome} (h : ∀ i c es, Sim M n c [.plain i] es (step i c)) :
    ∀ (is : List Instr) (c : Conf) (es : List Admin), Sim M n c (plains is) es (execs step is c)
  | [], c, es => ⟨0, .zero⟩
  | i :: is, c, es => by
    have hi := h i c (plains is ++ es)
    unfold execs
    split
    · next c' he =>
      rw [he] at hi
      obtain ⟨k, hi⟩ := hi
      exact (sim_steps (is := plains (i :: is)) hi (sim_execs h is c' es)).mono (Nat.le_add_right ..)
    · next o hn =>
      cases ho : step i c with
      | normal c' => exact (hn _ ho).elim
      | _ => rw [ho] at hi; exact hi

theorem popArgs_nil (vs : List Value) : popArgs [] vs = some ([], vs) := by simp [popArgs]

/-- A label around. -/
theorem sim_label {n : Nat} {c : Conf} {fs : List Admin} {r : List Val} {k : List Instr} {vs : List Value} {es : List Admin} {o : Outcome} (h : Sim M n c fs [] o)
    (hk : k = [] ∨ ∀ c', o ≠ .br 0 c') : Sim M n ⟨c.store, c.locals, vs⟩ [.label r k c.stack fs] es (leave r vs o) := by
  have lift : ∀ {j c' gs}, Steps M j c (fs ++ []) c' gs →
      Steps M j ⟨c.store, c.locals, vs⟩ ([.label r k c.stack fs] ++ es) ⟨c'.store, c'.locals, vs⟩ (.label r k c'.stack gs :: es) := by
    intro j c' gs h
    rw [List.append_nil] at h
    exact steps_label h
  cases o with
  | normal c' => obtain ⟨j, h⟩ := h; exact ⟨_, steps_trans (lift h) (step_one .endLabel)⟩
  | br l c' =>
    obtain ⟨j, i, gs, hi, h⟩ := h
    cases l with
    | zero =>
      have hk : k = [] := hk.resolve_right fun h => h _ rfl
      subst hk
      have hi : i = 0 := BitVec.eq_of_toNat_eq hi
      show Sim M n _ _ es (match popArgs r c'.stack with | some (vs_1, _) => _ | none => _)
      cases hp : popArgs r c'.stack with
      | none =>
        refine ⟨_, _, _, lift h, by simp, by simp, by simp, by simp, fun c'' fs' hs => ?_⟩
        cases hs with
        | inLabel hs => exact not_step_br hs
        | brHere _ hp' => rw [hp] at hp'; cases hp'
        | brOut hl => exact hl hi
      | some p =>
        obtain ⟨us, rest⟩ := p
        exact ⟨_, steps_trans (lift h) (step_one (.brHere hi hp))⟩
    | succ l =>
      have h0 : i ≠ 0 := fun h => by rw [h] at hi; cases hi
      refine ⟨_, i - 1, es, ?_, steps_trans (lift h) (step_one (.brOut h0))⟩
      have := i.isLt
      rw [BitVec.toNat_sub, hi]
      simp
      omega
  | ret c' => obtain ⟨j, gs, h⟩ := h; exact ⟨_, es, steps_trans (lift h) (step_one .retOut)⟩
  | trap st => obtain ⟨j, c', gs, hc, h⟩ := h; exact ⟨_, ⟨c'.store, c'.locals, vs⟩, _, hc, steps_trans (lift h) (step_one .trapOut)⟩
  | timeout => obtain ⟨j, c', gs, hc, h⟩ := h; exact ⟨_, _, _, hc, lift h⟩
  | stuck => obtain ⟨j, c', gs, h, hb⟩ := h; exact ⟨_, _, _, lift h, blocked_label hb⟩

/-- A function body. -/
theorem sim_frame {n : Nat} {st : Store} {ls ls1 vs : List Value} {t : FuncTy} {body : List Instr} {es : List Admin} {o : Outcome}
    (h : Sim M n ⟨st, ls1, []⟩ (plains body) [] o) (st0 : Store) :
    Sim M n ⟨st, ls, vs⟩ [.frame t.results ls1 [] [.label t.results [] [] (plains body)]] es (leaveFunc t ⟨st0, ls, vs⟩ o) := by
  have hl : Sim M n ⟨st, ls1, []⟩ [.label t.results [] [] (plains body)] [] (leave t.results [] o) := sim_label h (.inl rfl)
  have lift : ∀ {j c' gs}, Steps M j ⟨st, ls1, []⟩ ([.label t.results [] [] (plains body)] ++ []) c' gs →
      Steps M j ⟨st, ls, vs⟩ ([.frame t.results ls1 [] [.label t.results [] [] (plains body)]] ++ es) ⟨c'.store, ls, vs⟩ (.frame t.results c'.locals c'.stack gs :: es) :=
    fun h => steps_frame h
  cases o with
  | normal c' =>
    obtain ⟨j, hl⟩ := hl
    have hl := lift hl
    simp only [List.append_nil] at hl
    show Sim M n _ _ es (match popArgs t.results c'.stack with | some (vs_1, []) => _ | _ => _)
    split
    · next us hp => exact ⟨_, steps_trans hl (step_one (.endFrame hp))⟩
    · next hp =>
      refine ⟨_, _, _, hl, by simp, by simp, by simp, by simp, fun c'' fs' hs => ?_⟩
      cases hs with
      | inFrame hs => exact not_step_nil hs
      | endFrame hp' => exact hp _ hp'
  | br l c' =>
    cases l with
    | zero =>
      simp only [leave, leaveFunc] at hl ⊢
      cases hp : popArgs t.results c'.stack with
      | none =>
        simp only [hp] at hl ⊢
        obtain ⟨j, c2, gs, hl, hb⟩ := hl
        exact ⟨_, _, _, lift hl, blocked_frame hb⟩
      | some p =>
        obtain ⟨us, rest⟩ := p
        simp only [hp] at hl ⊢
        obtain ⟨j, hl⟩ := hl
        refine ⟨_, steps_trans (lift hl) (step_one (.endFrame ?_))⟩
        simp only [List.append_nil]
        exact popArgs_again hp
    | succ l =>
      simp only [leave, leaveFunc] at hl ⊢
      obtain ⟨j, i, gs, hi, hl⟩ := hl
      refine ⟨_, _, _, lift hl, by simp, by simp, by simp, by simp, fun c'' fs' hs => ?_⟩
      cases hs with
      | inFrame hs => exact not_step_br hs
  | ret c' =>
    simp only [leave, leaveFunc] at hl ⊢
    obtain ⟨j, gs, hl⟩ := hl
    cases hp : popArgs t.results c'.stack with
    | none =>
      refine ⟨_, _, _, lift hl, by simp, by simp, by simp, by simp, fun c'' fs' hs => ?_⟩
      cases hs with
      | inFrame hs => exact not_step_ret hs
      | retHere hp' => rw [hp] at hp'; cases hp'
    | some p => exact ⟨_, steps_trans (lift hl) (step_one (.retHere hp))⟩
  | trap st => obtain ⟨j, c', gs, hc, h⟩ := hl; exact ⟨_, ⟨c'.store, ls, vs⟩, _, hc, steps_trans (lift h) (step_one .trapFrame)⟩
  | timeout => obtain ⟨j, c', gs, hc, h⟩ := hl; exact ⟨_, _, _, hc, lift h⟩
  | stuck => obtain ⟨j, c', gs, h, hb⟩ := hl; exact ⟨_, _, _, lift h, blocked_frame hb⟩

theorem sim_call {n : Nat} {step : Instr → Conf → Outcome} (h : ∀ i c es, Sim M n c [.plain i] es (step i c)) (fi : FuncInst) (c : Conf) (es : List Admin) :
    Sim M n c [.invoke fi] es (call M step fi c) := by
  obtain ⟨st, ls, vs⟩ := c
  unfold call
  cases hp : popArgs fi.type.params vs with
  | none =>
    refine sim_stuck (by simp) (by simp) (by simp) fun c' fs hs => ?_
    cases hs <;> simp_all [FuncInst.type]
  | some p =>
    obtain ⟨args, rest⟩ := p
    cases fi with
    | own t f => exact (sim_step (.invokeOwn hp) (sim_frame (sim_execs h f.body _ []) st)).mono (Nat.le_add_right ..)
    | host t id =>
      rcases hh : M.host id st args with ⟨st', _ | us⟩
      · simp only [hh]; exact sim_trap (.hostTrap hp hh)
      · simp only [hh]; exact sim_normal (.invokeHost hp hh)

/-- No rule applies. -/
local macro "blocked" : tactic => `(tactic| exact sim_stuck (by simp) (by simp) (by simp) fun c' fs hs => by cases hs <;> simp_all)

theorem sim_exec : ∀ (n : Nat) (i : Instr) (c : Conf) (es : List Admin), Sim M n c [.plain i] es (exec M n i c)
  | 0, i, c, es => ⟨0, c, _, Nat.le_refl _, .zero⟩
  | n + 1, i, ⟨st, ls, vs⟩, es => by
    have ih := sim_exec n
    have ihs := sim_execs (M := M) ih
    cases i with
    | unreachable => exact sim_trap .unreachable
    | nop => exact sim_normal .nop
    | block r b => exact sim_step (is1 := [_]) .block (sim_label (c := ⟨st, ls, []⟩) (ihs b _ []) (.inl rfl))
    | loop r b =>
      have hb := ihs b ⟨st, ls, []⟩ []
      have hl := fun h => sim_label (r := []) (k := [.loop r b]) (vs := vs) (es := es) hb (.inr h)
      simp only [exec]
      split
      · next c' he =>
        rw [he] at hb
        obtain ⟨k, i, gs, hi, hb⟩ := hb
        have hi : i = 0 := BitVec.eq_of_toNat_eq hi
        rw [List.append_nil] at hb
        have h1 : Steps M (1 + (k + 1)) ⟨st, ls, vs⟩ ([.plain (.loop r b)] ++ es) ⟨c'.store, c'.locals, vs⟩ ([.plain (.loop r b)] ++ es) :=
          steps_trans (step_one .loop) (steps_trans (steps_label hb) (step_one (.brHere hi (popArgs_nil _))))
        exact (sim_steps h1 (ih (.loop r b) _ es)).mono (by omega)
      · next hn => exact sim_step (is1 := [_]) .loop (hl fun c' h => hn c' h)
    | ifElse r a b =>
      rcases vs with _ | ⟨v, vs⟩
      · blocked
      cases v with
      | i32 k =>
        simp only [exec, popI32]
        by_cases hk : k = 0
        · rw [if_pos hk]; exact sim_step (is1 := [_]) (.ifElse hk) (sim_label (c := ⟨st, ls, []⟩) (ihs b _ []) (.inl rfl))
        · rw [if_neg hk]; exact sim_step (is1 := [_]) (.ifThen hk) (sim_label (c := ⟨st, ls, []⟩) (ihs a _ []) (.inl rfl))
      | _ => blocked
    | elseMark => exact sim_stuck (by simp) (by simp) (by simp) fun c' fs hs => by cases hs
    | endMark => exact sim_stuck (by simp) (by simp) (by simp) fun c' fs hs => by cases hs
    | br l => exact ⟨0, l, es, rfl, .zero⟩
    | brIf l =>
      rcases vs with _ | ⟨v, vs⟩
      · blocked
      cases v with
      | i32 k =>
        simp only [exec, popI32]
        by_cases hk : k = 0
        · rw [if_pos hk]; exact sim_normal (.brIfNot hk)
        · rw [if_neg hk]; exact ⟨1, l, es, rfl, step_one (.brIf hk)⟩
      | _ => blocked
    | brTable tb l =>
      rcases vs with _ | ⟨v, vs⟩
      · blocked
      cases v with
      | i32 k =>
        simp only [exec, popI32]
        cases hx : tb[k.toNat]? with
        | none => exact ⟨1, l, es, rfl, step_one (.brTableElse (List.getElem?_eq_none_iff.mp hx))⟩
        | some x => exact ⟨1, x, es, rfl, step_one (.brTable hx)⟩
      | _ => blocked
    | ret => exact ⟨0, es, .zero⟩
    | call x =>
      simp only [exec]
      cases hf : M.funcs[x.toNat]? with
      | none => exact sim_stuck (by simp) (by simp) (by simp) fun c' fs hs => by cases hs; simp_all
      | some fi => exact sim_step (is1 := [_]) (.call hf) (sim_call ih fi _ es)
    | callIndirect x y =>
      cases hy : st.tables[y.toNat]? with
      | none => simp only [exec, hy]; blocked
      | some tb =>
      cases hx : M.types[x.toNat]? with
      | none => simp only [exec, hy, hx]; blocked
      | some t =>
      rcases vs with _ | ⟨v, vs⟩
      · simp only [exec, hy, hx, popI32]; blocked
      cases v with
      | i32 k =>
        simp only [exec, hy, hx, popI32]
        cases hk : tb[k.toNat]? with
        | none => exact sim_trap (c' := ⟨st, ls, vs⟩) (.callOutside hy hx (List.getElem?_eq_none_iff.mp hk))
        | some e =>
          cases e with
          | none => exact sim_trap (c' := ⟨st, ls, vs⟩) (.callEmpty hy hx hk)
          | some a =>
            dsimp only
            cases ha : M.all[a]? with
            | none => dsimp only; blocked
            | some fi =>
              dsimp only
              by_cases ht : fi.type = t
              · rw [if_pos ht]; exact sim_step (is1 := [_]) (.callIndirect hy hx hk ha ht) (sim_call ih fi _ es)
              · rw [if_neg ht]; exact sim_trap (c' := ⟨st, ls, vs⟩) (.callOther hy hx hk ha ht)
      | _ => simp only [exec, hy, hx, popI32]; blocked
    | drop =>
      rcases vs with _ | ⟨v, vs⟩
      · exact sim_stuck (by simp) (by simp) (by simp) fun c' fs hs => by cases hs
      · exact sim_normal .drop
    | select =>
      rcases vs with _ | ⟨v, vs⟩
      · blocked
      cases v with
      | i32 k =>
        rcases vs with _ | ⟨w, vs⟩
        · blocked
        rcases vs with _ | ⟨v, vs⟩
        · blocked
        simp only [exec, popI32, pop]
        by_cases ht : v.type = w.type
        · rw [if_pos ht]
          by_cases hk : k = 0
          · rw [if_pos hk]; exact sim_normal (.selectSecond ht hk)
          · rw [if_neg hk]; exact sim_normal (.selectFirst ht hk)
        · rw [if_neg ht]; blocked
      | _ => blocked
    | localGet x =>
      simp only [exec]
      cases hx : ls[x.toNat]? with
      | none => exact sim_stuck (by simp) (by simp) (by simp) fun c' fs hs => by cases hs; simp_all
      | some v => exact sim_normal (.localGet hx)
    | localSet x =>
      rcases vs with _ | ⟨v, vs⟩
      · exact sim_stuck (by simp) (by simp) (by simp) fun c' fs hs => by cases hs
      · simp only [exec, pop]
        split
        · next hx => exact sim_normal (.localSet hx)
        · next hx => exact sim_stuck (by simp) (by simp) (by simp) fun c' fs hs => by cases hs; exact hx ‹_›
    | localTee x =>
      rcases vs with _ | ⟨v, vs⟩
      · exact sim_stuck (by simp) (by simp) (by simp) fun c' fs hs => by cases hs
      · simp only [exec, pop]
        split
        · next hx => exact sim_normal (.localTee hx)
        · next hx => exact sim_stuck (by simp) (by simp) (by simp) fun c' fs hs => by cases hs; exact hx ‹_›
    | globalGet x =>
      simp only [exec]
      cases hx : st.globals[x.toNat]? with
      | none => exact sim_stuck (by simp) (by simp) (by simp) fun c' fs hs => by cases hs; simp_all
      | some v => exact sim_normal (.globalGet hx)
    | globalSet x =>
      rcases vs with _ | ⟨v, vs⟩
      · exact sim_stuck (by simp) (by simp) (by simp) fun c' fs hs => by cases hs
      · simp only [exec, pop]
        split
        · next hx => exact sim_normal (.globalSet hx)
        · next hx => exact sim_stuck (by simp) (by simp) (by simp) fun c' fs hs => by cases hs; exact hx ‹_›
    | load op al o =>
      cases hm : st.mems[0]? with
      | none => simp only [exec, hm]; blocked
      | some m =>
      rcases vs with _ | ⟨v, vs⟩
      · simp only [exec, hm, popI32]; blocked
      cases v with
      | i32 a =>
        simp only [exec, hm, popI32]
        by_cases hb : a.toNat + o.toNat + (loadType op).2 ≤ 65536 * m.pages
        · rw [if_pos hb]; exact sim_normal (.load hm hb)
        · rw [if_neg hb]; exact sim_trap (c' := ⟨st, ls, vs⟩) (.loadTrap hm (by omega))
      | _ => simp only [exec, hm, popI32]; blocked
    | store op al o =>
      cases hm : st.mems[0]? with
      | none => simp only [exec, hm]; blocked
      | some m =>
      rcases vs with _ | ⟨v, vs⟩
      · simp only [exec, hm, pop]; blocked
      rcases vs with _ | ⟨u, vs⟩
      · simp only [exec, hm, pop, popI32]; blocked
      cases u with
      | i32 a =>
        simp only [exec, hm, pop, popI32]
        by_cases ht : v.type = (storeType op).1
        · rw [if_pos ht]
          by_cases hb : a.toNat + o.toNat + (storeType op).2 ≤ 65536 * m.pages
          · rw [if_pos hb]; exact sim_normal (.store hm ht hb)
          · rw [if_neg hb]; exact sim_trap (c' := ⟨st, ls, vs⟩) (.storeTrap hm ht (by omega))
        · rw [if_neg ht]; blocked
      | _ => simp only [exec, hm, pop, popI32]; blocked
    | memSize x =>
      simp only [exec]
      cases hx : st.mems[x.toNat]? with
      | none => exact sim_stuck (by simp) (by simp) (by simp) fun c' fs hs => by cases hs; simp_all
      | some v => exact sim_normal (.memSize hx)
    | memGrow x =>
      cases hm : st.mems[x.toNat]? with
      | none => simp only [exec, hm]; blocked
      | some m =>
      rcases vs with _ | ⟨v, vs⟩
      · simp only [exec, hm, popI32]; blocked
      cases v with
      | i32 k =>
        simp only [exec, hm, popI32]
        by_cases hg : m.pages + k.toNat ≤ pageLimit m ∧ M.grow st x.toNat (m.pages + k.toNat) = true
        · rw [if_pos hg]; exact sim_normal (.memGrow hm hg.1 hg.2)
        · rw [if_neg hg]
          refine sim_normal (.memGrowFail hm ?_)
          rcases hv : M.grow st x.toNat (m.pages + k.toNat) with _ | _
          · exact .inr rfl
          · exact .inl (Nat.lt_of_not_le fun h => hg ⟨h, hv⟩)
      | _ => simp only [exec, hm, popI32]; blocked
    | constI32 v => exact sim_normal .constI32
    | constI64 v => exact sim_normal .constI64
    | constF32 v => exact sim_normal .constF32
    | constF64 v => exact sim_normal .constF64
    | num op =>
      simp only [exec]
      cases hp : popArgs (numType op).1 vs with
      | none => exact sim_stuck (by simp) (by simp) (by simp) fun c' fs hs => by cases hs <;> simp_all
      | some p =>
        obtain ⟨args, rest⟩ := p
        cases hv : M.num op args with
        | none => simp only [hv]; exact sim_trap (c' := ⟨st, ls, rest⟩) (.numTrap hp hv)
        | some v => simp only [hv]; exact sim_normal (.num hp hv)

/-- From a state with `n` steps to an end, every state within `n` steps is on the way. -/
theorem steps_det {a b : Nat} {c c1 c2 : Conf} {es es1 es2 : List Admin} (h : Steps M a c es c1 es1) (h' : Steps M (a + b) c es c2 es2) : Steps M b c1 es1 c2 es2 := by
  induction h with
  | zero => rw [Nat.zero_add] at h'; exact h'
  | @succ n _ _ _ _ _ _ h _ ih =>
    rw [Nat.succ_add] at h'
    cases h' with
    | succ h1 h2 =>
      obtain ⟨rfl, rfl⟩ := step_det h h1
      exact ih h2

theorem final_stops {c c' : Conf} {es fs : List Admin} (h : Final es) : ¬ Step M c es c' fs := by
  cases h with
  | values => exact not_step_nil
  | trap => exact not_step_trap

/-- Two ends are the same, after the same number of steps. -/
theorem ends_same {a b : Nat} {c c1 c2 : Conf} {es es1 es2 : List Admin} (h : Steps M a c es c1 es1) (h' : Steps M b c es c2 es2) (h1 : ∀ c' fs, ¬ Step M c1 es1 c' fs)
    (h2 : ∀ c' fs, ¬ Step M c2 es2 c' fs) : a = b ∧ c1 = c2 ∧ es1 = es2 := by
  have key : ∀ {a b c1 c2 es1 es2}, Steps M a c es c1 es1 → Steps M b c es c2 es2 → (∀ c' fs, ¬ Step M c1 es1 c' fs) → b ≤ a := by
    intro a b c1 c2 es1 es2 h h' h1
    refine Nat.le_of_not_lt fun hlt => ?_
    obtain ⟨k, rfl⟩ := Nat.exists_eq_add_of_le (Nat.le_of_lt hlt)
    have := steps_det h h'
    cases this with
    | zero => omega
    | succ hs _ => exact h1 _ _ hs
  have hb := key h h' h1
  have ha := key h' h h2
  have e : b = a := by omega
  subst e
  have hd := steps_det (b := 0) h h'
  generalize hz : (0 : Nat) = z at hd
  cases hd with
  | zero => exact ⟨rfl, rfl, rfl⟩
  | succ => cases hz

end Whasm.Run
