import Verif.Lemmas.Space
import Verif.Lemmas.Preserve

/-!
# What branches and the ends of blocks do to the one stack of a call
-/

namespace Whasm.Run
open Spec

variable {m : Module} {M : Machine}

/-- Behind the first instruction of a state, and of the labels in it, there is only code. -/
inductive Lined : List Admin → Prop
  | plains (is : List Instr) : Lined (plains is)
  | trap (is : List Instr) : Lined (.trap :: plains is)
  | invoke (fi : FuncInst) (is : List Instr) : Lined (.invoke fi :: plains is)
  | frame (r : List Val) (ls vs : List Value) (es : List Admin) (is : List Instr) : Lined (.frame r ls vs es :: plains is)
  | label {r k vs es} (h : Lined es) (is : List Instr) : Lined (.label r k vs es :: plains is)

theorem lined_tail {e : Admin} {es : List Admin} (h : Lined (e :: es)) : ∃ is, es = plains is := by
  generalize hx : e :: es = x at h
  cases h with
  | plains is =>
    cases is with
    | nil => cases hx
    | cons i is => cases hx; exact ⟨is, rfl⟩
  | _ => cases hx; exact ⟨_, rfl⟩

theorem lined_label {r : List Val} {k : List Instr} {vs : List Value} {fs es : List Admin} (h : Lined (.label r k vs fs :: es)) : Lined fs := by
  generalize hx : .label r k vs fs :: es = x at h
  cases h with
  | plains is =>
    cases is with
    | nil => cases hx
    | cons i is => cases hx
  | label h is => cases hx; exact h
  | _ => cases hx

theorem lined_cons {i : Instr} {es : List Admin} (h : ∃ is, es = plains is) : Lined (.plain i :: es) := by
  obtain ⟨is, rfl⟩ := h
  exact .plains (i :: is)

theorem step_lined {c c' : Conf} {es es' : List Admin} (h : Step M c es c' es') (hl : Lined es) : Lined es' := by
  induction h with
  | inLabel _ ih => obtain ⟨is, rfl⟩ := lined_tail hl; exact .label (ih (lined_label hl)) is
  | block => obtain ⟨is, rfl⟩ := lined_tail hl; exact .label (.plains _) is
  | loop => obtain ⟨is, rfl⟩ := lined_tail hl; exact .label (.plains _) is
  | ifThen _ => obtain ⟨is, rfl⟩ := lined_tail hl; exact .label (.plains _) is
  | ifElse _ => obtain ⟨is, rfl⟩ := lined_tail hl; exact .label (.plains _) is
  | @brHere _ _ _ _ _ k => obtain ⟨is, rfl⟩ := lined_tail hl; rw [← List.map_append]; exact .plains (k ++ is)
  | brOut _ => exact lined_cons (lined_tail hl)
  | brIf _ => exact lined_cons (lined_tail hl)
  | brTable _ => exact lined_cons (lined_tail hl)
  | brTableElse _ => exact lined_cons (lined_tail hl)
  | retOut => exact lined_cons (lined_tail hl)
  | _ =>
    obtain ⟨is, rfl⟩ := lined_tail hl
    first | exact .plains is | exact .trap is | exact .invoke _ is | exact .frame _ _ _ _ is

theorem steps_lined {k : Nat} {c c' : Conf} {es es' : List Admin} (h : Steps M k c es c' es') (hl : Lined es) : Lined es' := by
  induction h with
  | zero => exact hl
  | succ h _ ih => exact ih (step_lined h hl)

theorem laid_plain (B : List Value) (F : List (List Val × Nat)) (vs : List Value) (is : List Instr) : laidL B F vs (plains is) = (vs ++ B, F) := by
  cases is <;> rfl

/-- One step of a branch. -/
theorem branch_step {st : Store} {ls vs us : List Value} {es : List Admin} {l : Idx} (hn : Next vs es (.br l) us) :
    ∀ {c2 : Conf} {es2 : List Admin}, Lined es → Step M ⟨st, ls, vs⟩ es c2 es2 → ∀ (B : List Value) (F : List (List Val × Nat)),
    ∃ B1 r F1, laidL B F vs es = (us ++ B1, (r, B1.length) :: F1) ∧ c2.store = st ∧ c2.locals = ls ∧
      ((l = 0 ∧ ∃ ws rest, popArgs r us = some (ws, rest) ∧ laidL B F c2.stack es2 = (ws.reverse ++ B1, F1)) ∨
       (l ≠ 0 ∧ ∃ A B2, Next c2.stack es2 (.br (l - 1)) us ∧ B1 = A ++ B2 ∧ laidL B F c2.stack es2 = (us ++ B2, F1))) := by
  generalize hi : Instr.br l = i at hn
  induction hn with
  | here => subst hi; intro c2 es2 _ h; exact (not_step_br h).elim
  | @label vs r k ws fs es i us h ih =>
    subst hi
    intro c2 es2 hl hs B F
    cases hs with
    | inLabel hs =>
      obtain ⟨B1, r1, F1, h1, h2, h3, h4⟩ := ih rfl (lined_label hl) hs (vs ++ B) ((r, (vs ++ B).length) :: F)
      refine ⟨B1, r1, F1, h1, h2, h3, ?_⟩
      rcases h4 with ⟨h5, ws, rest, h6, h7⟩ | ⟨h5, A, B2, h6, h7, h8⟩
      · exact .inl ⟨h5, ws, rest, h6, h7⟩
      · exact .inr ⟨h5, A, B2, .label h6, h7, h8⟩
    | endLabel => cases h
    | brHere hl0 hp =>
      cases h
      obtain ⟨is, rfl⟩ := lined_tail hl
      refine ⟨vs ++ B, r, F, rfl, rfl, rfl, .inl ⟨hl0, _, _, hp, ?_⟩⟩
      dsimp only
      rw [← List.map_append, laid_plain, List.append_assoc]
    | brOut hl0 =>
      cases h
      exact ⟨vs ++ B, r, F, rfl, rfl, rfl, .inr ⟨hl0, vs, B, .here, rfl, rfl⟩⟩
    | retOut => cases h
    | trapOut => cases h

theorem pred_toNat {l : Idx} (h : l ≠ 0) : (l - 1).toNat + 1 = l.toNat := by
  have h0 : l.toNat ≠ 0 := fun h1 => h (BitVec.eq_of_toNat_eq h1)
  have h1 : (1 : BitVec 32).toNat = 1 := rfl
  rw [BitVec.toNat_sub_of_le (by rw [BitVec.le_def, h1]; omega), h1]
  omega

/-- A branch: it takes the values for its label along and drops the other operands down to those below the label. -/
theorem branch_steps {us : List Value} : ∀ (n : Nat) {l : Idx} {c : Conf} {es : List Admin}, l.toNat = n → Next c.stack es (.br l) us → Lined es → ∀ {c2 : Conf} {es2 : List Admin},
    Steps M (n + 1) c es c2 es2 → ∀ (B : List Value) (F : List (List Val × Nat)) (B1 : List Value) (F1 : List (List Val × Nat)), laidL B F c.stack es = (us ++ B1, F1) →
    ∃ r A B2, F1[n]? = some (r, B2.length) ∧ B1 = A ++ B2 ∧ c2.store = c.store ∧ c2.locals = c.locals ∧ ∃ ws rest, popArgs r us = some (ws, rest) ∧
      laidL B F c2.stack es2 = (ws.reverse ++ B2, F1.drop (n + 1))
  | 0, l, c, es, hn, hx, hl, c2, es2, hs, B, F, B1, F1, he => by
    cases hs with
    | succ hs ht =>
      cases ht
      obtain ⟨B1', r, F1', h1, h2, h3, h4⟩ := branch_step hx hl hs B F
      rw [he] at h1
      obtain ⟨h5, rfl⟩ := Prod.mk.inj h1
      obtain rfl := List.append_cancel_left h5
      rcases h4 with ⟨_, ws, rest, h6, h7⟩ | ⟨h5, _⟩
      · exact ⟨r, [], B1, rfl, rfl, h2, h3, ws, rest, h6, h7⟩
      · exact (h5 (BitVec.eq_of_toNat_eq hn)).elim
  | n + 1, l, c, es, hn, hx, hl, c2, es2, hs, B, F, B1, F1, he => by
    cases hs with
    | succ hs ht =>
      obtain ⟨B1', r, F1', h1, h2, h3, h4⟩ := branch_step hx hl hs B F
      rw [he] at h1
      obtain ⟨h5, rfl⟩ := Prod.mk.inj h1
      obtain rfl := List.append_cancel_left h5
      rcases h4 with ⟨h5, _⟩ | ⟨h5, A, B2, h6, h7, h8⟩
      · rw [h5] at hn
        cases hn
      · have hp := pred_toNat h5
        obtain ⟨r', A', B3, g1, g2, g3, g4, g5⟩ := branch_steps n (by omega) h6 (step_lined hs hl) ht B F B2 F1' h8
        exact ⟨r', A ++ A', B3, g1, by rw [h7, g2, List.append_assoc], g3.trans h2, g4.trans h3, g5⟩

/-- A branch in typed code finds its label and its values. -/
theorem branch_go {st : Store} {ls vs us : List Value} {es : List Admin} {l : Idx} (hn : Next vs es (.br l) us) :
    ∀ {C : Env} {ts ts' : List Val}, Typed vs ts → AOk m M C es ts ts' → (∃ c2 es2, Step M ⟨st, ls, vs⟩ es c2 es2) ∨ ∃ r t0, es.head? = some (.plain (.br l)) ∧ C.labels[l.toNat]? = some r ∧
      Typed vs (t0 ++ r) ∧ us = vs := by
  generalize hi : Instr.br l = i at hn
  induction hn with
  | here =>
    subst hi
    intro C ts ts' ht ha
    obtain ⟨t0, a, b, rfl, h1, _⟩ := aok_plain ha
    cases h1 with
    | br t1 _ hr => exact .inr ⟨_, t0 ++ t1, rfl, hr, by rw [List.append_assoc]; exact ht, rfl⟩
  | @label vs r k ws fs es i us h ih =>
    subst hi
    intro C ts ts' ht ha
    cases ha with
    | label hw hfs hk hes =>
      rcases ih rfl hw hfs with ⟨⟨st2, ls2, vs2⟩, es2, h1⟩ | ⟨r', t0, h1, h2, h3, rfl⟩
      · exact .inl ⟨_, _, .inLabel h1⟩
      · cases fs with
        | nil => cases h1
        | cons e fs =>
          cases h1
          by_cases hl : l = 0
          · subst hl
            cases h2
            obtain ⟨us, rest, hp, _⟩ := popArgs_ok h3
            exact .inl ⟨_, _, .brHere rfl hp⟩
          · exact .inl ⟨_, _, .brOut hl⟩

/-- And gets there. -/
theorem branch_goes (H : Fit m M) {st : Store} {us : List Value} : ∀ (n : Nat) {l : Idx} {c : Conf} {es : List Admin}, l.toNat = n → Next c.stack es (.br l) us → Lined es →
    ∀ {C : Env} {ts ts' : List Val}, EnvOk m C → C.labels = [] → ConfOk m M st C ts c → AOk m M C es ts ts' → ∃ c2 es2, Steps M (n + 1) c es c2 es2 := by
  have one : ∀ {l : Idx} {c : Conf} {es : List Admin}, Next c.stack es (.br l) us → ∀ {C : Env} {ts ts' : List Val}, C.labels = [] → ConfOk m M st C ts c → AOk m M C es ts ts' →
      ∃ c2 es2, Step M c es c2 es2 := by
    intro l c es hx C ts ts' hL hc ha
    rcases branch_go (st := c.store) (ls := c.locals) hx hc.stack ha with h | ⟨_, _, _, h, _⟩
    · exact h
    · rw [hL] at h
      cases h
  intro n
  induction n with
  | zero =>
    intro l c es _ hx _ C ts ts' _ hL hc ha
    obtain ⟨c2, es2, h⟩ := one hx hL hc ha
    exact ⟨c2, es2, .succ h .zero⟩
  | succ n ih =>
    intro l c es hn hx hl C ts ts' hC hL hc ha
    obtain ⟨c2, es2, h⟩ := one hx hL hc ha
    obtain ⟨_, _, _, _, _, _, h1⟩ := branch_step hx hl h [] []
    obtain ⟨us', h2, h3⟩ := step_keeps H h hC hc ha
    rcases h1 with ⟨h1, _⟩ | ⟨h1, _, _, h4, _⟩
    · rw [h1] at hn
      cases hn
    · have hp := pred_toNat h1
      obtain ⟨c3, es3, h5⟩ := ih (by omega) h4 (step_lined h hl) hC hL h2 h3
      exact ⟨c3, es3, .succ h h5⟩

/-- The end of a block: nothing moves. -/
theorem end_step {st : Store} {ls vs : List Value} {es : List Admin} (hn : Ends vs es) : ∀ {c2 : Conf} {es2 : List Admin}, Lined es → Step M ⟨st, ls, vs⟩ es c2 es2 →
    ∀ (B : List Value) (F : List (List Val × Nat)), c2.store = st ∧ c2.locals = ls ∧ ∃ S q F1, laidL B F vs es = (S, q :: F1) ∧ laidL B F c2.stack es2 = (S, F1) := by
  induction hn with
  | here =>
    intro c2 es2 hl hs B F
    obtain ⟨is, rfl⟩ := lined_tail hl
    cases hs with
    | inLabel hs => exact (not_step_nil hs).elim
    | endLabel => exact ⟨rfl, rfl, _, _, F, rfl, by dsimp only; rw [laid_plain, List.append_assoc]⟩
  | label h ih =>
    intro c2 es2 hl hs B F
    cases hs with
    | inLabel hs => exact ih (lined_label hl) hs _ _
    | endLabel => cases h
    | _ => cases h

/-- The beginning of a block: nothing moves, but for the condition of an `if`. -/
theorem enter_step {st : Store} {ls vs us : List Value} {es : List Admin} {i : Instr} (hn : Next vs es i us) {r : List Val}
    (hi : (∃ b, i = .block r b) ∨ (∃ r0 b, i = .loop r0 b ∧ r = []) ∨ ∃ a b, i = .ifElse r a b) : ∀ {c2 : Conf} {es2 : List Admin}, Lined es → Step M ⟨st, ls, vs⟩ es c2 es2 →
    ∀ (B : List Value) (F : List (List Val × Nat)), c2.store = st ∧ c2.locals = ls ∧ ∃ S S1 F1, laidL B F vs es = (S, F1) ∧ laidL B F c2.stack es2 = (S1, (r, S1.length) :: F1) ∧
      ((∃ a b, i = .ifElse r a b) ∧ S.tail = S1 ∨ (∀ r a b, i ≠ .ifElse r a b) ∧ S = S1) := by
  induction hn with
  | @here vs i es =>
    intro c2 es2 hl hs B F
    rcases hi with ⟨b, rfl⟩ | ⟨r0, b, rfl, rfl⟩ | ⟨a, b, rfl⟩
    · cases hs with
      | block => exact ⟨rfl, rfl, vs ++ B, vs ++ B, F, rfl, by dsimp only; rw [laidL, laidA, laid_plain]; rfl, .inr ⟨fun _ _ _ h => (by cases h), rfl⟩⟩
    · cases hs with
      | loop => exact ⟨rfl, rfl, vs ++ B, vs ++ B, F, rfl, by dsimp only; rw [laidL, laidA, laid_plain]; rfl, .inr ⟨fun _ _ _ h => (by cases h), rfl⟩⟩
    · cases hs with
      | @ifThen _ _ vs => exact ⟨rfl, rfl, _, vs ++ B, F, rfl, by dsimp only; rw [laidL, laidA, laid_plain]; rfl, .inl ⟨⟨_, _, rfl⟩, rfl⟩⟩
      | @ifElse _ _ vs => exact ⟨rfl, rfl, _, vs ++ B, F, rfl, by dsimp only; rw [laidL, laidA, laid_plain]; rfl, .inl ⟨⟨_, _, rfl⟩, rfl⟩⟩
  | @label vs r' k ws fs es i us h ih =>
    intro c2 es2 hl hs B F
    cases hs with
    | inLabel hs => exact ih hi (lined_label hl) hs _ _
    | endLabel => cases h
    | brHere _ _ => cases h; rcases hi with ⟨_, h⟩ | ⟨_, _, h, _⟩ | ⟨_, _, h⟩ <;> cases h
    | brOut _ => cases h; rcases hi with ⟨_, h⟩ | ⟨_, _, h, _⟩ | ⟨_, _, h⟩ <;> cases h
    | retOut => cases h; rcases hi with ⟨_, h⟩ | ⟨_, _, h, _⟩ | ⟨_, _, h⟩ <;> cases h
    | trapOut => cases h

end Whasm.Run
