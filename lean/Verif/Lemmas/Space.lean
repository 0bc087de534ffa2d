import Verif.Lemmas.PointsAll
import Verif.Spec.Layout
import Verif.Spec.Space

/-!
# Every state of an execution is at a place, or near one; its operands and labels
-/

namespace Whasm.Run
open Spec

variable {M : Machine}

/-- The innermost block is at its end, or an instruction comes next in it; `us` are its operands. -/
inductive Spot : List Value → List Admin → Option Instr → List Value → Prop
  | done {vs} : Spot vs [] none vs
  | here {vs i es} : Spot vs (.plain i :: es) (some i) vs
  | label {vs r k ws fs es i us} (h : Spot ws fs i us) : Spot vs (.label r k ws fs :: es) i us

theorem spot_next {vs us : List Value} {es : List Admin} {i : Instr} (h : Next vs es i us) : Spot vs es (some i) us := by
  induction h with
  | here => exact .here
  | label _ ih => exact .label ih

theorem spot_head {vs : List Value} {X es : List Admin} {i : Option Instr} {us : List Value} (hX : X ≠ []) (h : Spot vs (X ++ es) i us) : Spot vs X i us := by
  cases X with
  | nil => exact (hX rfl).elim
  | cons e X =>
    cases h with
    | here => exact .here
    | label h => exact .label h

theorem held_plains : ∀ (X : List Admin) (is : List Instr), heldL (X ++ plains is) = heldL X
  | [], [] => rfl
  | [], i :: is => by
    have h := held_plains [] is
    show 0 + heldL (plains is) = 0
    rw [List.nil_append] at h
    rw [h]
    rfl
  | e :: X, is => by rw [List.cons_append, heldL, heldL, held_plains X is]

theorem nest_plains : ∀ (X : List Admin) (is : List Instr), nestL (X ++ plains is) = nestL X
  | [], [] => rfl
  | [], i :: is => by
    have h := nest_plains [] is
    show max 0 (nestL (plains is)) = 0
    rw [List.nil_append] at h
    rw [h]
    rfl
  | e :: X, is => by rw [List.cons_append, nestL, nestL, nest_plains X is]

theorem operands_plains (vs : List Value) (is : List Instr) : operands vs (plains is) = vs.length := by
  have h := held_plains [] is
  rw [List.nil_append] at h
  rw [operands, h]
  rfl

theorem nest_plain (is : List Instr) : nestL (plains is) = 0 := nest_plains [] is

theorem laid_plains {B : List Value} {F : List (List Val × Nat)} {vs : List Value} {X : List Admin} (hX : X ≠ []) (es : List Admin) : laidL B F vs (X ++ es) = laidL B F vs X := by
  cases X with
  | nil => exact (hX rfl).elim
  | cons e X => rfl

/-- There is a place with at least as many operands and blocks around; the same if an instruction comes next there. A branch comes from there, and has left some of the labels. -/
def Near (M : Machine) (B : List Value) (F : List (List Val × Nat)) (is : List Instr) (c c' : Conf) (X : List Admin) : Prop :=
  ∃ p c'' B' F', Gets M B F is c p c'' B' F' ∧ operands c'.stack X + B.length ≤ c''.stack.length + B'.length ∧ nestL X ≤ p.depth ∧
    (∀ i us, Spot c'.stack X i us → (∀ l, i ≠ some (.br l)) → i ≠ some .ret →
      p.instr is = i ∧ c'' = ⟨c'.store, c'.locals, us⟩ ∧ operands c'.stack X + B.length = c''.stack.length + B'.length ∧ nestL X = p.depth ∧ laidL B F c'.stack X = (us ++ B', F')) ∧
    ∀ l us, Spot c'.stack X (some (.br l)) us → ∃ d A B0, Jumps (p.instr is) (l.toNat + d) us c''.stack ∧ c''.store = c'.store ∧ c''.locals = c'.locals ∧
      B' = A ++ B0 ∧ laidL B F c'.stack X = (us ++ B0, F'.drop d)

/-- How the execution of a label goes on. -/
theorem label_all {c' : Conf} {X : List Admin} (hX : X ≠ []) {r : List Val} {k : List Instr} :
    ∀ {j : Nat} {st : Store} {ls vs ws : List Value} {fs : List Admin}, Steps M j ⟨st, ls, vs⟩ [.label r k ws fs] c' X →
    (∃ j' ws' fs', j' ≤ j ∧ Steps M j' ⟨st, ls, ws⟩ fs ⟨c'.store, c'.locals, ws'⟩ fs' ∧ c'.stack = vs ∧ X = [.label r k ws' fs']) ∨
    (∃ j1 j2 c1, j1 + j2 = j ∧ 1 ≤ j1 ∧ Steps M j1 ⟨st, ls, vs⟩ [.label r k ws fs] c1 (plains k) ∧ Steps M j2 c1 (plains k) c' X) ∨
    (∃ j' e fs' i, j' ≤ j ∧ Steps M j' ⟨st, ls, ws⟩ fs c' (e :: fs') ∧ X = [.plain i] ∧ ((∃ l, l ≠ 0 ∧ e = .plain (.br l) ∧ i = .br (l - 1)) ∨ (e = .plain .ret ∧ i = .ret))) ∨
    (X = [.trap] ∧ c'.stack = vs)
  | 0, st, ls, vs, ws, fs, h => by
    cases h
    exact .inl ⟨0, ws, fs, Nat.le_refl _, .zero, rfl, rfl⟩
  | j + 1, st, ls, vs, ws, fs, h => by
    cases h with
    | succ hs ht =>
      cases hs with
      | inLabel hi =>
        rcases label_all hX ht with ⟨j', ws', fs', hj, a, b⟩ | ⟨j1, j2, c1, hj, hj1, a, b⟩ | ⟨j', e, fs', i, hj, a, b⟩ | a
        · exact .inl ⟨j' + 1, ws', fs', by omega, .succ hi a, b⟩
        · exact .inr (.inl ⟨j1 + 1, j2, c1, by omega, by omega, .succ (.inLabel hi) a, b⟩)
        · exact .inr (.inr (.inl ⟨j' + 1, e, fs', i, by omega, .succ hi a, b⟩))
        · exact .inr (.inr (.inr a))
      | endLabel => exact (hX (stop_nil ht)).elim
      | brHere hl hp =>
        rw [List.append_nil] at ht
        rename_i fs' _ _ _
        have hb := Step.brHere (M := M) (st := st) (ls := ls) (vs := vs) (es := []) (fs := fs') (k := k) hl hp
        rw [List.append_nil] at hb
        exact .inr (.inl ⟨1, j, _, by omega, Nat.le_refl _, .succ hb .zero, ht⟩)
      | brOut hl =>
        obtain ⟨rfl, rfl⟩ := stop_next ht fun _ _ => not_step_br
        exact .inr (.inr (.inl ⟨0, _, _, _, by omega, .zero, rfl, .inl ⟨_, hl, rfl, rfl⟩⟩))
      | retOut =>
        obtain ⟨rfl, rfl⟩ := stop_next ht fun _ _ => not_step_ret
        exact .inr (.inr (.inl ⟨0, _, _, _, by omega, .zero, rfl, .inr ⟨rfl, rfl⟩⟩))
      | trapOut =>
        obtain ⟨rfl, rfl⟩ := stop_next ht fun _ _ => not_step_trap
        exact .inr (.inr (.inr ⟨rfl, rfl⟩))

/-- During a call the operands of the caller stay. -/
theorem frame_all {c' : Conf} {X : List Admin} (hX : X ≠ []) {r : List Val} :
    ∀ {j : Nat} {c : Conf} {ls ws : List Value} {fs : List Admin}, Steps M j c [.frame r ls ws fs] c' X → c'.stack = c.stack ∧ ((∃ ls ws fs, X = [.frame r ls ws fs]) ∨ X = [.trap])
  | 0, c, ls, ws, fs, h => by cases h; exact ⟨rfl, .inl ⟨_, _, _, rfl⟩⟩
  | j + 1, ⟨st, ls0, vs⟩, ls, ws, fs, h => by
    cases h with
    | succ hs ht =>
      cases hs with
      | inFrame hi => have h := frame_all hX ht; exact h
      | endFrame _ => exact (hX (stop_nil ht)).elim
      | retHere _ => exact (hX (stop_nil ht)).elim
      | trapFrame =>
        obtain ⟨rfl, rfl⟩ := stop_next ht fun _ _ => not_step_trap
        exact ⟨rfl, .inr rfl⟩

theorem popArgs_len {ts : List Val} {vs us rest : List Value} (h : popArgs ts vs = some (us, rest)) : us.length = ts.length ∧ us.length + rest.length = vs.length := by
  have h1 := congrArg List.length (popArgs_types h)
  rw [List.length_map] at h1
  unfold popArgs at h
  dsimp only at h
  split at h
  · cases h
    refine ⟨h1, ?_⟩
    rw [List.length_reverse, ← List.length_append, List.take_append_drop]
  · cases h

theorem invoke_all {c' : Conf} {X : List Admin} (hX : X ≠ []) {j : Nat} {c : Conf} {fi : FuncInst} (h : Steps M j c [.invoke fi] c' X) :
    c'.stack.length ≤ c.stack.length ∧ ((∃ fi, X = [.invoke fi]) ∨ (∃ r ls ws fs, X = [.frame r ls ws fs]) ∨ X = [.trap]) := by
  cases c
  cases h with
  | zero => exact ⟨Nat.le_refl _, .inl ⟨_, rfl⟩⟩
  | succ hs ht =>
    cases hs with
    | invokeOwn hp =>
      obtain ⟨h1, h2⟩ := frame_all hX ht
      refine ⟨by rw [h1]; have := popArgs_len hp; dsimp only at this ⊢; omega, ?_⟩
      rcases h2 with ⟨_, _, _, h2⟩ | h2
      · exact .inr (.inl ⟨_, _, _, _, h2⟩)
      · exact .inr (.inr h2)
    | invokeHost _ _ => exact (hX (stop_nil ht)).elim
    | hostTrap hp _ =>
      obtain ⟨rfl, rfl⟩ := stop_next ht fun _ _ => not_step_trap
      exact ⟨by have := popArgs_len hp; dsimp only at this ⊢; omega, .inr (.inr rfl)⟩

/-- At the end of the code. -/
theorem near_end {B : List Value} {F : List (List Val × Nat)} {j : Nat} {is : List Instr} {c c' : Conf} (hs : Steps M j c (plains is) c' []) : Near M B F is c c' [] := by
  refine ⟨.here is.length, c', B, F, .here (Nat.le_refl _) (by rw [List.take_length]; exact hs), Nat.le_refl _, Nat.le_refl _, ?_, fun l us hi => by cases hi⟩
  intro i us hi _ _
  cases hi
  exact ⟨List.getElem?_eq_none (Nat.le_refl _), rfl, rfl, rfl, rfl⟩

/-- With code that follows. -/
theorem near_more {B : List Value} {F : List (List Val × Nat)} {is is' : List Instr} {c c' : Conf} {X : List Admin} (hX : X ≠ []) (h : Near M B F is c c' X) :
    Near M B F is c c' (X ++ plains is') := by
  obtain ⟨p, c'', B', F', b1, b2, b3, b4, b5⟩ := h
  unfold operands at b2 b4
  refine ⟨p, c'', B', F', b1, by rw [operands, held_plains]; exact b2, by rw [nest_plains]; exact b3, fun i us hi g1 g2 => ?_, fun l us hi => ?_⟩
  · rw [operands, held_plains, nest_plains, laid_plains hX]
    exact b4 i us (spot_head hX hi) g1 g2
  · rw [laid_plains hX]
    exact b5 l us (spot_head hX hi)

/-- While an instruction at a known place is executed. -/
theorem instr_all (k : Nat) : ∀ {B : List Value} {F : List (List Val × Nat)} {is : List Instr} {c c1 c' : Conf} {n : Nat} {i0 : Instr} {X : List Admin},
    is[n]? = some i0 → Gets M B F is c (.here n) c1 B F → Steps M k c1 [.plain i0] c' X → X ≠ [] → Near M B F is c c' X := by
  induction k using Nat.strongRecOn with
  | _ k ih =>
  intro B F is c c1 c' n i0 X hi0 hat hs hX
  have all : ∀ {j : Nat} {B : List Value} {F : List (List Val × Nat)} {is : List Instr} {c c' : Conf} {es : List Admin}, j < k → Steps M j c (plains is) c' es → Near M B F is c c' es := by
    intro j B F is c c' es hj hs
    by_cases he : es = []
    · subst he
      exact near_end hs
    · obtain ⟨n, i', j', j0, c1, X, a1, a2, a3, a4, a5, rfl⟩ := steps_locate he hs
      exact near_more a4 (ih j' (by omega) a1 (.here (Nat.le_of_lt (List.getElem?_eq_some_iff.mp a1).1) a2) a3 a4)
  have halt : ∀ {j c2}, ¬ Steps M j c2 [] c' X := fun h => hX (stop_nil h)
  -- nothing comes next
  have quiet : ∀ {e : Admin}, X = [e] → heldA e = 0 → nestA e = 0 → (∀ i us, ¬ Spot c'.stack [e] i us) → c'.stack.length ≤ c1.stack.length → Near M B F is c c' X := by
    rintro e rfl h1 h2 h3 h4
    refine ⟨.here n, c1, B, F, hat, by rw [operands, heldL, h1]; exact Nat.add_le_add_right h4 _, by rw [nestL, h2]; exact Nat.le_refl _, fun i us hi => (h3 i us hi).elim, fun l us hi => (h3 _ us hi).elim⟩
  have trap : ∀ {j c2}, Steps M j c2 [.trap] c' X → c2.stack.length ≤ c1.stack.length → Near M B F is c c' X := fun h hl => by
    obtain ⟨rfl, rfl⟩ := stop_next h fun _ _ => not_step_trap
    exact quiet rfl rfl rfl (fun i us hi => by cases hi) hl
  have jump : ∀ {j c2 l}, Steps M j c2 [.plain (.br l)] c' X → c2.stack.length ≤ c1.stack.length → Jumps (some i0) l.toNat c2.stack c1.stack → c1.store = c2.store → c1.locals = c2.locals →
      Near M B F is c c' X := fun h hl hj h1 h2 => by
    obtain ⟨rfl, rfl⟩ := stop_next h fun _ _ => not_step_br
    refine ⟨.here n, c1, B, F, hat, Nat.add_le_add_right hl _, Nat.le_refl _, fun i us hi g1 _ => ?_, fun l us hi => ?_⟩
    · cases hi
      exact (g1 _ rfl).elim
    · cases hi
      exact ⟨0, [], B, by rw [Place.instr, hi0]; exact hj, h1, h2, rfl, rfl⟩
  have invoke : ∀ {j c2 fi}, Steps M j c2 [.invoke fi] c' X → c2.stack.length ≤ c1.stack.length → Near M B F is c c' X := fun h hl => by
    obtain ⟨h1, ⟨_, h2⟩ | ⟨_, _, _, _, h2⟩ | h2⟩ := invoke_all hX h
    all_goals exact quiet h2 rfl rfl (fun i us hi => by cases hi) (Nat.le_trans h1 hl)
  obtain ⟨st, ls, vs⟩ := c1
  cases hs with
  | zero =>
    refine ⟨.here n, _, B, F, hat, Nat.le_refl _, Nat.le_refl _, fun i us hi _ _ => ?_, fun l us hi => ?_⟩
    · cases hi
      exact ⟨hi0, rfl, rfl, rfl, rfl⟩
    · cases hi
      exact ⟨0, [], B, by rw [Place.instr, hi0]; exact .br, rfl, rfl, rfl, rfl⟩
  | @succ k' _ _ c2 es2 _ _ hstep ht =>
    -- inside a block `b`, entered at the place `q`
    have inner : ∀ {r k0 b vs0} (q : Place → Place), Steps M k' ⟨st, ls, vs0⟩ [.label r k0 [] (plains b)] c' X → vs0.length ≤ vs.length →
        (∀ p, (q p).depth = 1 + p.depth) → (∀ p i, p.instr b = i → (q p).instr is = i) →
        (∀ p c'' B' F', Gets M (vs0 ++ B) ((r, (vs0 ++ B).length) :: F) b ⟨st, ls, []⟩ p c'' B' F' → Gets M B F is c (q p) c'' B' F') →
        (∀ j1 j2 c1, j1 + j2 = k' → 1 ≤ j1 → Steps M j1 ⟨st, ls, vs0⟩ [.label r k0 [] (plains b)] c1 (plains k0) → Steps M j2 c1 (plains k0) c' X → Near M B F is c c' X) → Near M B F is c c' X := by
      intro r k0 b vs0 q ht hl hd hq hg hbr
      rcases label_all hX ht with ⟨j', ws', fs', hj, a, h1, rfl⟩ | ⟨j1, j2, c1, hj, hj1, a, b⟩ | ⟨j', e, fs', i, hj, a, rfl, hi⟩ | ⟨rfl, h1⟩
      · obtain ⟨p, c'', B', F', b1, b2, b3, b4, b5⟩ := all (B := vs0 ++ B) (F := (r, (vs0 ++ B).length) :: F) (Nat.lt_succ_of_le hj) a
        have hop : operands c'.stack [.label r k0 ws' fs'] = vs0.length + operands ws' fs' := by
          rw [h1]; rfl
        have hne : nestL [.label r k0 ws' fs'] = 1 + nestL fs' := by simp [nestL, nestA]
        have hla : laidL B F c'.stack [.label r k0 ws' fs'] = laidL (vs0 ++ B) ((r, (vs0 ++ B).length) :: F) ws' fs' := by rw [h1]; rfl
        rw [List.length_append] at b2
        refine ⟨q p, c'', B', F', hg p c'' B' F' b1, by rw [hop]; dsimp only at b2; omega, by rw [hne, hd]; omega, fun i us hi g1 g2 => ?_, fun l us hi => ?_⟩
        · cases hi with
          | label hi =>
            obtain ⟨d1, d2, d3, d4, d5⟩ := b4 i us hi g1 g2
            dsimp only at d3
            rw [List.length_append] at d3
            exact ⟨hq p i d1, d2, by rw [hop]; omega, by rw [hne, hd, d4], by rw [hla]; exact d5⟩
        · cases hi with
          | label hi =>
            obtain ⟨d, A, B0, d1, d2, d3, d4, d5⟩ := b5 l us hi
            exact ⟨d, A, B0, by rw [hq p _ rfl]; exact d1, d2, d3, d4, by rw [hla]; exact d5⟩
      · exact hbr j1 j2 c1 hj hj1 a b
      · obtain ⟨p, c'', B', F', b1, b2, b3, b4, b5⟩ := all (B := vs0 ++ B) (F := (r, (vs0 ++ B).length) :: F) (Nat.lt_succ_of_le hj) a
        refine ⟨q p, c'', B', F', hg p c'' B' F' b1, ?_, Nat.zero_le _, fun i' us hi' g1 g2 => ?_, fun l us hi' => ?_⟩
        · show c'.stack.length + 0 + B.length ≤ _
          unfold operands at b2
          rw [List.length_append] at b2
          omega
        · cases hi'
          rcases hi with ⟨l, _, _, rfl⟩ | ⟨_, rfl⟩
          · exact (g1 _ rfl).elim
          · exact (g2 rfl).elim
        · rcases hi with ⟨l', hl', rfl, rfl⟩ | ⟨_, rfl⟩
          · cases hi'
            obtain ⟨d, A, B0, d1, d2, d3, d4, d5⟩ := b5 l' _ .here
            obtain ⟨d6, d7⟩ := Prod.mk.inj d5
            rw [← List.append_cancel_left d6] at d4
            refine ⟨d + 1, A ++ vs0, B, ?_, d2, d3, by rw [d4, List.append_assoc], ?_⟩
            · rw [hq p _ rfl]
              have e : (l' - 1).toNat + (d + 1) = l'.toNat + d := by
                have h0 : l'.toNat ≠ 0 := fun h => hl' (BitVec.eq_of_toNat_eq h)
                have h1 : (1 : BitVec 32).toNat = 1 := rfl
                rw [BitVec.toNat_sub_of_le (by rw [BitVec.le_def, h1]; omega), h1]
                omega
              rw [e]
              exact d1
            · show (c'.stack ++ B, F) = _
              rw [← List.drop_drop, ← d7]
              rfl
          · cases hi'
      · exact quiet rfl rfl rfl (fun i us hi => by cases hi) (by rw [h1]; exact hl)
    have out : ∀ {r b vs0}, ∀ j1 j2 c1, j1 + j2 = k' → 1 ≤ j1 → Steps M j1 ⟨st, ls, vs0⟩ [.label r [] [] (plains b)] c1 (plains []) → Steps M j2 c1 (plains []) c' X → Near M B F is c c' X :=
      fun _ _ _ _ _ _ h => (halt h).elim
    cases hstep with
    | block => exact inner (.inside n) ht (Nat.le_refl _) (fun _ => Nat.add_comm ..) (fun p i h => by simp only [Place.instr, hi0, h]) (fun p c'' B' F' h => .block hi0 hat h) out
    | loop =>
      refine inner (.inside n) ht (Nat.le_refl _) (fun _ => Nat.add_comm ..) (fun p i h => by simp only [Place.instr, hi0, h]) (fun p c'' B' F' h => .loop hi0 hat h) ?_
      intro j1 j2 c3 hj hj1 a b
      exact ih j2 (by omega) hi0 (.again hi0 hat (.succ .loop a)) b hX
    | ifThen hk => exact inner (.inside n) ht (Nat.le_succ _) (fun _ => Nat.add_comm ..) (fun p i h => by simp only [Place.instr, hi0, h]) (fun p c'' B' F' h => .ifThen hi0 hat hk h) out
    | ifElse hk => exact inner (.inElse n) ht (Nat.le_succ _) (fun _ => Nat.add_comm ..) (fun p i h => by simp only [Place.instr, hi0, h]) (fun p c'' B' F' h => .ifElse hi0 hat hk h) out
    | brIf hk => exact jump ht (Nat.le_succ _) (.brIf hk) rfl rfl
    | brTable hx => exact jump ht (Nat.le_succ _) (.brTable hx) rfl rfl
    | brTableElse hx => exact jump ht (Nat.le_succ _) (.brTableElse hx) rfl rfl
    | call _ => exact invoke ht (Nat.le_refl _)
    | callIndirect _ _ _ _ _ => exact invoke ht (Nat.le_succ _)
    | numTrap hp _ => exact trap ht (by have := popArgs_len hp; dsimp only at this ⊢; omega)
    | _ => first | exact (halt ht).elim | exact trap ht (by simp only [List.length_cons]; omega)

/-- Every state of the execution of a list of instructions is near a place. -/
theorem steps_all {B : List Value} {F : List (List Val × Nat)} {k : Nat} {is : List Instr} {c c' : Conf} {es : List Admin} (hs : Steps M k c (plains is) c' es) : Near M B F is c c' es := by
  by_cases he : es = []
  · subst he
    exact near_end hs
  · obtain ⟨n, i', j', j0, c1, X, a1, a2, a3, a4, a5, rfl⟩ := steps_locate he hs
    exact near_more a4 (instr_all j' a1 (.here (Nat.le_of_lt (List.getElem?_eq_some_iff.mp a1).1) a2) a3 a4)

/-- Every state in which an instruction comes next is at a place where this instruction is. -/
theorem steps_at {i : Instr} {us : List Value} (h1 : ∀ l, i ≠ .br l) (h2 : i ≠ .ret) {k : Nat} {is : List Instr} {c c' : Conf} {es : List Admin} (hs : Steps M k c (plains is) c' es)
    (hn : Next c'.stack es i us) : ∃ p, p.instr is = some i ∧ At M is c p ⟨c'.store, c'.locals, us⟩ := by
  obtain ⟨p, c'', _, _, h3, _, _, h4, _⟩ := steps_all (B := []) (F := []) hs
  obtain ⟨h5, rfl, _⟩ := h4 _ _ (spot_next hn) (fun l h => h1 l (Option.some.inj h)) fun h => h2 (Option.some.inj h)
  exact ⟨p, h5, at_of_gets h3⟩

end Whasm.Run
