import Verif.Lemmas.Layout
import Verif.Props.Space

/-!
# C104: an engine needs no labels at run time

The rules of the document keep labels among the instructions, each with the operands of its block, and a branch looks for its label there. An engine has one stack of operands for all blocks of a call, and
compiles a branch to: take along so many values, and drop the others down to this height. It has both numbers from the frames of the validator. C102 says how many operands there are; this says which they are,
where the labels are among them, and that a branch does what the frames say.
-/

namespace Whasm
open Spec Run

/-- Labels and heights of frames. -/
abbrev places (frs : List Frame) : List (List Val × Nat) := frs.map fun fr => (fr.label, fr.height)

theorem places_of_marks {frs : List Frame} {F : List (List Val × Nat)} (h : marks frs = live F) : places frs = F ∧ ∀ fr ∈ frs, fr.unreachable = false := by
  induction frs generalizing F with
  | nil =>
    cases F with
    | nil => exact ⟨rfl, fun _ h => nomatch h⟩
    | cons q F => cases h
  | cons fr frs ih =>
    cases F with
    | nil => cases h
    | cons q F =>
      obtain ⟨h1, h2⟩ := List.cons.inj h
      obtain ⟨a1, a2⟩ := Prod.mk.inj h1
      obtain ⟨a3, a4⟩ := Prod.mk.inj a2
      obtain ⟨b1, b2⟩ := ih h2
      refine ⟨?_, fun fr' hm => ?_⟩
      · rw [places, List.map_cons, a1, a3]
        exact congrArg _ b1
      · cases hm with
        | head => exact a4
        | tail _ hm => exact b2 _ hm

theorem lowest_append (A B : List Value) : lowest B.length (A ++ B) = B := by
  unfold lowest
  rw [List.length_append, Nat.add_sub_cancel, List.drop_left' rfl]

section
variable {m : Module} {r : ModuleResult} (h : validateModule m = .ok r) (he : NoElse m) {M : Machine} (hM : Instance m M) (hn : NumOk M) (hh : HostOk m M)
include h he hM hn hh

/-- **C104.** In every state of the execution of a function of an accepted module in which an instruction comes next (other than a jump, which may be on its way out of blocks), it is the one at a place of the
body where validation had on its operand stack the types of all operands of the call, those of the blocks around as well, and for each label a frame with its types and the number of operands below it; none of
these frames was marked unreachable. -/
theorem C104_layout {st : Store} (hst : StoreOk m M.all.length st) {f : Func} (hf : f ∈ m.funcs) {t : FuncTy} (ht : m.types[f.ty.toNat]? = some t) {args : List Value}
    (hargs : args.map Value.type = t.params) {j : Nat} {c : Conf} {fs : List Admin}
    (hs : Steps M j ⟨st, args ++ f.locals.map zero, []⟩ [.label t.results [] [] (plains f.body)] c fs) {i : Instr} {us : List Value} (hi : Next c.stack fs i us) (h1 : ∀ l, i ≠ .br l) (h2 : i ≠ .ret) :
    ∃ p x, p.instr f.body = some i ∧ arriveFunc f p (spaces m) = .ok ((), x) ∧ x.operands = (stackOf c.stack fs).map (fun v => .val v.type) ∧
      places x.frames = labelsAt c.stack fs ∧ (∀ fr ∈ x.frames, fr.unreachable = false) ∧ x.locals = c.locals.map Value.type := by
  have hX : fs ≠ [] := fun h => by rw [h] at hi; cases hi
  rcases label_all hX hs with ⟨j', ws', fs', hj, g1, g2, rfl⟩ | ⟨_, _, _, _, _, _, g2⟩ | ⟨_, _, _, i', _, _, rfl, hj⟩ | ⟨rfl, _⟩
  · obtain ⟨p, c', B, F, a1, _, _, a4, _⟩ := steps_all (B := []) (F := [(t.results, 0)]) g1
    obtain ⟨x, b1, b2, b3, b4, _⟩ := gets_func h he hM hn hh hst hf ht hargs a1
    rw [g2] at hi
    cases hi with
    | label hi =>
      obtain ⟨d1, rfl, _, _, d5⟩ := a4 _ _ (spot_next hi) (fun l h => h1 l (Option.some.inj h)) fun h => h2 (Option.some.inj h)
      obtain ⟨e1, e2⟩ := places_of_marks b4
      have d6 : laidL [] [] c.stack [.label t.results [] ws' fs'] = (us ++ B, F) := by
        rw [g2]
        exact d5
      exact ⟨p, x, d1, b1, by rw [b3, stackOf, d6], by rw [e1, labelsAt, d6], e2, b2.locals⟩
  · exact (hX (stop_nil g2)).elim
  · rcases hj with ⟨l, _, _, rfl⟩ | ⟨_, rfl⟩
    · cases hi
      exact (h1 _ rfl).elim
    · cases hi
      exact (h2 rfl).elim
  · cases hi

/-- **C104, branches.** In every state in which a branch `br l` comes next it comes from a place of the body: from an instruction that branches to the label `l + d`, where `d` labels have been left since. From
here `l + 1` steps lead to a state in which all operands of the call are: those that the frame of validation for this label takes along, on the lowest ones up to its height. Their types are those of the frame,
and the labels are those of the frames around it. -/
theorem C104_branch {st : Store} (hst : StoreOk m M.all.length st) {f : Func} (hf : f ∈ m.funcs) {t : FuncTy} (ht : m.types[f.ty.toNat]? = some t) {args : List Value}
    (hargs : args.map Value.type = t.params) {j : Nat} {c : Conf} {fs : List Admin}
    (hs : Steps M j ⟨st, args ++ f.locals.map zero, []⟩ [.label t.results [] [] (plains f.body)] c fs) {l : Idx} {us : List Value} (hi : Next c.stack fs (.br l) us) :
    ∃ p x d vs fr, arriveFunc f p (spaces m) = .ok ((), x) ∧ Jumps (p.instr f.body) (l.toNat + d) us vs ∧ AgreeAt x ⟨c.store, c.locals, vs⟩ ∧
      labelsAt c.stack fs = places (x.frames.drop d) ∧ x.frames[l.toNat + d]? = some fr ∧
      ∃ c2 fs2, Steps M (l.toNat + 1) c fs c2 fs2 ∧ c2.store = c.store ∧ c2.locals = c.locals ∧
        stackOf c2.stack fs2 = us.take fr.label.length ++ lowest fr.height (stackOf c.stack fs) ∧ (us.take fr.label.length).map Value.type = fr.label.reverse ∧
        labelsAt c2.stack fs2 = places (x.frames.drop (l.toNat + d + 1)) := by
  have H := fit_of_accepted h he hM hn hh
  have hv := valid_of_ok h he
  have hfi : .own t f ∈ M.all := by
    obtain ⟨_, imp, hfs, _, _⟩ := hM
    rw [Machine.all, hfs]
    exact List.mem_append_left _ (List.mem_append_right _ (List.mem_filterMap.mpr ⟨f, hf, by rw [ht]; rfl⟩))
  have hC : EnvOk m { bodyEnv .w3c m t f.locals with aligned := false, labels := [] } := ⟨rfl, rfl, rfl, rfl, rfl⟩
  have hcf : ConfOk m M st { bodyEnv .w3c m t f.locals with aligned := false, labels := [] } [] ⟨st, args ++ f.locals.map zero, []⟩ := by
    refine ⟨hst, evolves_refl m st, ?_, typed_nil⟩
    show (args ++ f.locals.map zero).map Value.type = t.params ++ f.locals
    rw [List.map_append, List.map_map]
    refine congr (congrArg _ hargs) ?_
    exact (List.map_congr_left fun x _ => zero_type x).trans (List.map_id _)
  have hao : AOk m M { bodyEnv .w3c m t f.locals with aligned := false, labels := [] } [.label t.results [] [] (plains f.body)] [] t.results := by
    refine .label (b := t.results) (t0 := []) typed_nil ?_ (.nil _) .nil
    have := aok_plains (m := m) (M := M) (H.own t f hfi) .nil
    rw [List.append_nil] at this
    exact this
  obtain ⟨ts, k1, k2⟩ := steps_keep H hs hC hcf hao
  have hl := steps_lined hs (.label (.plains f.body) [])
  obtain ⟨c2, fs2, hgo⟩ := branch_goes H l.toNat rfl hi hl hC rfl k1 k2
  have hX : fs ≠ [] := fun h => by rw [h] at hi; cases hi
  rcases label_all hX hs with ⟨j', ws', fs', hj, g1, g2, rfl⟩ | ⟨_, _, _, _, _, _, g2⟩ | ⟨_, _, _, i', _, _, rfl, hj⟩ | ⟨rfl, _⟩
  · obtain ⟨p, c', B, F, a1, _, _, _, a5⟩ := steps_all (B := []) (F := [(t.results, 0)]) g1
    obtain ⟨x, b1, b2, b3, b4, _⟩ := gets_func h he hM hn hh hst hf ht hargs a1
    obtain ⟨e1, _⟩ := places_of_marks b4
    have hi' := hi
    rw [g2] at hi'
    cases hi' with
    | label hi' =>
      obtain ⟨d, A, B0, d1, d2, d3, d4, d5⟩ := a5 _ _ (spot_next hi')
      have d6 : laidL [] [] c.stack [.label t.results [] ws' fs'] = (us ++ B0, F.drop d) := by
        rw [g2]
        exact d5
      obtain ⟨r0, A1, B2, q1, q2, q3, q4, ws, rest, q5, q6⟩ := branch_steps l.toNat rfl hi hl hgo [] [] B0 (F.drop d) d6
      rw [← e1, places, List.getElem?_drop, List.getElem?_map, Option.map_eq_some_iff, Nat.add_comm] at q1
      obtain ⟨fr, q7, q8⟩ := q1
      obtain ⟨rfl, q9⟩ := Prod.mk.inj q8
      obtain ⟨st', ls', vs'⟩ := c'
      cases d2
      cases d3
      have hw : us.take fr.label.length = ws.reverse := by
        unfold popArgs at q5
        dsimp only at q5
        split at q5
        · cases q5
          rw [List.reverse_reverse]
        · cases q5
      refine ⟨p, x, d, vs', fr, b1, d1, b2, ?_, q7, c2, fs2, hgo, q3, q4, ?_, ?_, ?_⟩
      · rw [labelsAt, d6, ← e1, places, places, List.map_drop]
      · rw [stackOf, q6, stackOf, d6, hw, q9]
        dsimp only
        rw [q2, ← List.append_assoc, lowest_append]
      · rw [hw, List.map_reverse, popArgs_types q5]
      · rw [labelsAt, q6, ← e1, places, places, List.drop_drop, List.map_drop]
        dsimp only
        congr 1
        omega
  · exact (hX (stop_nil g2)).elim
  · rcases hj with ⟨l', _, _, rfl⟩ | ⟨_, rfl⟩
    · cases hi
      cases hgo with
      | succ h _ => exact (not_step_br h).elim
    · cases hi
  · cases hi

end

/-- **C104, the end of a block.** Nothing moves: all operands of the call stay as they are, and only the innermost label goes. -/
theorem C104_end {M : Machine} {f : Func} {t : FuncTy} {c0 c c2 : Conf} {fs fs2 : List Admin} {j : Nat} (hs : Steps M j c0 [.label t.results [] [] (plains f.body)] c fs) (hi : Ends c.stack fs)
    (h : Step M c fs c2 fs2) : c2.store = c.store ∧ c2.locals = c.locals ∧ stackOf c2.stack fs2 = stackOf c.stack fs ∧ labelsAt c2.stack fs2 = (labelsAt c.stack fs).tail := by
  obtain ⟨h1, h2, S, q, F1, h3, h4⟩ := end_step hi (steps_lined hs (.label (.plains f.body) [])) h [] []
  exact ⟨h1, h2, by rw [stackOf, stackOf, h3, h4], by rw [labelsAt, labelsAt, h3, h4]; rfl⟩

/-- **C104, the beginning of a block.** Nothing moves but for the condition of an `if`, and there is one label more: it is on top of all operands. -/
theorem C104_enter {M : Machine} {f : Func} {t : FuncTy} {c0 c c2 : Conf} {fs fs2 : List Admin} {j : Nat} (hs : Steps M j c0 [.label t.results [] [] (plains f.body)] c fs) {i : Instr} {us : List Value}
    (hi : Next c.stack fs i us) (h : Step M c fs c2 fs2) :
    (∀ r b, i = .block r b → stackOf c2.stack fs2 = stackOf c.stack fs ∧ labelsAt c2.stack fs2 = (r, (stackOf c.stack fs).length) :: labelsAt c.stack fs) ∧
    (∀ r b, i = .loop r b → stackOf c2.stack fs2 = stackOf c.stack fs ∧ labelsAt c2.stack fs2 = ([], (stackOf c.stack fs).length) :: labelsAt c.stack fs) ∧
    (∀ r a b, i = .ifElse r a b → stackOf c2.stack fs2 = (stackOf c.stack fs).tail ∧ labelsAt c2.stack fs2 = (r, (stackOf c.stack fs).length - 1) :: labelsAt c.stack fs) := by
  have hl := steps_lined hs (.label (.plains f.body) [])
  refine ⟨fun r b e => ?_, fun r b e => ?_, fun r a b e => ?_⟩
  · obtain ⟨_, _, S, S1, F1, h3, h4, ⟨⟨_, _, h5⟩, _⟩ | ⟨_, rfl⟩⟩ := enter_step hi (.inl ⟨b, e⟩) hl h [] []
    · rw [e] at h5; cases h5
    · exact ⟨by rw [stackOf, stackOf, h3, h4], by rw [labelsAt, labelsAt, stackOf, h3, h4]⟩
  · obtain ⟨_, _, S, S1, F1, h3, h4, ⟨⟨_, _, h5⟩, _⟩ | ⟨_, rfl⟩⟩ := enter_step hi (.inr (.inl ⟨r, b, e, rfl⟩)) hl h [] []
    · rw [e] at h5; cases h5
    · exact ⟨by rw [stackOf, stackOf, h3, h4], by rw [labelsAt, labelsAt, stackOf, h3, h4]⟩
  · obtain ⟨_, _, S, S1, F1, h3, h4, ⟨_, rfl⟩ | ⟨h5, _⟩⟩ := enter_step hi (.inr (.inr ⟨a, b, e⟩)) hl h [] []
    · exact ⟨by rw [stackOf, stackOf, h3, h4], by rw [labelsAt, labelsAt, stackOf, h3, h4]; dsimp only; rw [List.length_tail]⟩
    · exact (h5 _ _ _ e).elim

/-! Examples. -/

/-- (func (result i32)  i32.const 1  block (result i32)  i32.const 2  i32.const 3  br 0  end  i32.add) -/
def jumpModule : Module :=
  { types := [⟨[], [.i32]⟩], funcs := [⟨0, [], [.constI32 1, .block [.i32] [.constI32 2, .constI32 3, .br 0], .num .i32Add]⟩] }

def jumpMachine : Machine :=
  { endlessMachine with types := [⟨[], [.i32]⟩], funcs := [.own ⟨[], [.i32]⟩ ⟨0, [], [.constI32 1, .block [.i32] [.constI32 2, .constI32 3, .br 0], .num .i32Add]⟩] }

-- at the branch validation has three operands, and for the label of the block one value and the height 1
example : validateModule jumpModule = .ok ⟨[], []⟩ ∧ (match arriveFunc jumpModule.funcs[0] (.inside 1 (.here 2)) (spaces jumpModule) with
    | .ok (_, x) => some (x.operands, places x.frames)
    | .error _ => none) = some ([.val .i32, .val .i32, .val .i32], [([.i32], 1), ([.i32], 0)]) := by decide +kernel

-- execution: before the branch the stack is 3, 2, 1; after it 3, 1
example (st : Store) : ∃ c fs c2 fs2, Steps jumpMachine 4 ⟨st, [], []⟩ [.label [.i32] [] [] (plains jumpModule.funcs[0].body)] c fs ∧ Next c.stack fs (.br 0) [.i32 3, .i32 2] ∧
    stackOf c.stack fs = [.i32 3, .i32 2, .i32 1] ∧ labelsAt c.stack fs = [([.i32], 1), ([.i32], 0)] ∧
    Steps jumpMachine 1 c fs c2 fs2 ∧ stackOf c2.stack fs2 = [.i32 3, .i32 1] ∧ labelsAt c2.stack fs2 = [([.i32], 0)] :=
  ⟨_, _, _, _, .succ (.inLabel .constI32) (.succ (.inLabel .block) (.succ (.inLabel (.inLabel .constI32)) (.succ (.inLabel (.inLabel .constI32)) .zero))),
    .label (.label .here), rfl, rfl, .succ (.inLabel (.brHere rfl rfl)) .zero, rfl, rfl⟩

-- as the theorem says
example : [Value.i32 3, .i32 2].take 1 ++ lowest 1 [.i32 3, .i32 2, .i32 1] = [.i32 3, .i32 1] := rfl

/-- (func  i32.const 7  block  i32.const 8  loop  i32.const 9  br 1  end  drop  end  drop) -/
def leapModule : Module := { types := [⟨[], []⟩], funcs := [⟨0, [], [.constI32 7, .block [] [.constI32 8, .loop [] [.constI32 9, .br 1], .drop], .drop]⟩] }

def leapMachine : Machine := { endlessMachine with types := [⟨[], []⟩], funcs := [.own ⟨[], []⟩ ⟨0, [], [.constI32 7, .block [] [.constI32 8, .loop [] [.constI32 9, .br 1], .drop], .drop]⟩] }

example : validateModule leapModule = .ok ⟨[], []⟩ ∧ (match arriveFunc leapModule.funcs[0] (.inside 1 (.inside 1 (.here 1))) (spaces leapModule) with
    | .ok (_, x) => some (x.operands.length, places x.frames)
    | .error _ => none) = some (3, [([], 2), ([], 1), ([], 0)]) := by decide +kernel

-- out of two labels: two of three operands are dropped
example (st : Store) : ∃ c fs c2 fs2, Steps leapMachine 5 ⟨st, [], []⟩ [.label [] [] [] (plains leapModule.funcs[0].body)] c fs ∧ Next c.stack fs (.br 1) [.i32 9] ∧
    stackOf c.stack fs = [.i32 9, .i32 8, .i32 7] ∧ Steps leapMachine 2 c fs c2 fs2 ∧ stackOf c2.stack fs2 = [.i32 7] ∧ labelsAt c2.stack fs2 = [([], 0)] :=
  ⟨_, _, _, _, .succ (.inLabel .constI32) (.succ (.inLabel .block) (.succ (.inLabel (.inLabel .constI32)) (.succ (.inLabel (.inLabel .loop)) (.succ (.inLabel (.inLabel (.inLabel .constI32))) .zero)))),
    .label (.label (.label .here)), rfl, .succ (.inLabel (.inLabel (.brOut (by decide)))) (.succ (.inLabel (.brHere rfl rfl)) .zero), rfl, rfl⟩

end Whasm
