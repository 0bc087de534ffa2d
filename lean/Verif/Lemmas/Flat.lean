import Verif.Lemmas.Layout
import Verif.Lemmas.Space
import Verif.Spec.Flat

/-!
# The machine without labels does what the rules do
-/

namespace Whasm.Run
open Spec

variable {M : Machine}

/-- The instruction at a place, as what comes next. -/
abbrev headAt (p : Place) (is : List Instr) : List Admin := (p.instr is).toList.map .plain

theorem drop_head (is : List Instr) (n : Nat) : plains (is.drop n) = headAt (.here n) is ++ plains (is.drop (n + 1)) := by
  unfold headAt Place.instr
  cases h : is[n]? with
  | none =>
    rw [List.getElem?_eq_none_iff] at h
    rw [List.drop_eq_nil_of_le h, List.drop_eq_nil_of_le (Nat.le_succ_of_le h)]
    rfl
  | some i =>
    obtain ⟨hn, rfl⟩ := List.getElem?_eq_some_iff.mp h
    rw [List.drop_eq_getElem_cons hn]
    rfl

theorem take_head {is : List Instr} {n : Nat} {i : Instr} (h : is[n]? = some i) : plains (is.take (n + 1)) = plains (is.take n) ++ [.plain i] := by
  obtain ⟨hn, rfl⟩ := List.getElem?_eq_some_iff.mp h
  rw [List.take_succ_eq_append_getElem hn, plains, List.map_append]
  rfl

/-- A run that gets to a place in the outermost block. -/
theorem gets_run {B B' : List Value} {F F' : List (List Val × Nat)} {is : List Instr} {c c1 : Conf} {n : Nat} (h : Gets M B F is c (.here n) c1 B' F') :
    n ≤ is.length ∧ ∃ k, Steps M k c (plains (is.take n) ++ headAt (.here n) is) c1 (headAt (.here n) is) := by
  generalize hp : Place.here n = p at h
  induction h with
  | here hn h =>
    cases hp
    exact ⟨hn, _, steps_tail _ h⟩
  | @again B F is c n r b c' j c'' hn h hl ih =>
    cases hp
    obtain ⟨h1, k, h2⟩ := ih rfl
    have e : headAt (.here n) is = [.plain (.loop r b)] := by unfold headAt Place.instr; rw [hn]; rfl
    rw [e] at h2 ⊢
    exact ⟨h1, _, steps_trans h2 hl⟩
  | block => cases hp
  | loop => cases hp
  | ifThen => cases hp
  | ifElse => cases hp

theorem gets_all {B B' : List Value} {F F' : List (List Val × Nat)} {is : List Instr} {c c1 : Conf} {n : Nat} (h : Gets M B F is c (.here n) c1 B' F') :
    ∃ k, Steps M k c (plains is) c1 (plains (is.drop n)) := by
  obtain ⟨_, k, h⟩ := gets_run h
  have h1 := steps_tail (plains (is.drop (n + 1))) h
  rw [List.append_assoc, ← drop_head, plains, plains, ← List.map_append, List.take_append_drop] at h1
  exact ⟨k, h1⟩

theorem gets_step {B B' : List Value} {F F' : List (List Val × Nat)} {is : List Instr} {c c1 c2 : Conf} {n j : Nat} {i : Instr} (h : Gets M B F is c (.here n) c1 B' F')
    (hi : is[n]? = some i) (hs : Steps M j c1 [.plain i] c2 []) : Gets M B F is c (.here (n + 1)) c2 B F := by
  obtain ⟨_, k, h⟩ := gets_run h
  have e : headAt (.here n) is = [.plain i] := by unfold headAt Place.instr; rw [hi]; rfl
  rw [e] at h
  refine .here (k := k + j) (List.getElem?_eq_some_iff.mp hi).1 ?_
  rw [take_head hi]
  exact steps_trans h hs

/-- Execution has got to the place `p` with `c1`, and has now, in the innermost block there, values `us` and instructions `X` before those that follow: `vs` and `fs` are what this looks like. -/
inductive Sits (M : Machine) : List Value → List (List Val × Nat) → List Instr → Conf → Place → Conf → List Value → List Admin → List Value → List Admin →
    List Value → List (List Val × Nat) → Prop
  | here {B F is c n c1 us X} (h : Gets M B F is c (.here n) c1 B F) : Sits M B F is c (.here n) c1 us X us (X ++ plains (is.drop (n + 1))) B F
  | block {B F is c n r b c' p c1 us X ws fs B' F'} (hn : is[n]? = some (.block r b)) (h : Gets M B F is c (.here n) c' B F)
    (hb : Sits M (c'.stack ++ B) ((r, (c'.stack ++ B).length) :: F) b ⟨c'.store, c'.locals, []⟩ p c1 us X ws fs B' F') :
    Sits M B F is c (.inside n p) c1 us X c'.stack (.label r [] ws fs :: plains (is.drop (n + 1))) B' F'
  | loop {B F is c n r b c' p c1 us X ws fs B' F'} (hn : is[n]? = some (.loop r b)) (h : Gets M B F is c (.here n) c' B F)
    (hb : Sits M (c'.stack ++ B) (([], (c'.stack ++ B).length) :: F) b ⟨c'.store, c'.locals, []⟩ p c1 us X ws fs B' F') :
    Sits M B F is c (.inside n p) c1 us X c'.stack (.label [] [.loop r b] ws fs :: plains (is.drop (n + 1))) B' F'
  | ifThen {B F is c n r a b st ls k vs p c1 us X ws fs B' F'} (hn : is[n]? = some (.ifElse r a b)) (h : Gets M B F is c (.here n) ⟨st, ls, .i32 k :: vs⟩ B F) (hk : k ≠ 0)
    (hb : Sits M (vs ++ B) ((r, (vs ++ B).length) :: F) a ⟨st, ls, []⟩ p c1 us X ws fs B' F') :
    Sits M B F is c (.inside n p) c1 us X vs (.label r [] ws fs :: plains (is.drop (n + 1))) B' F'
  | ifElse {B F is c n r a b st ls k vs p c1 us X ws fs B' F'} (hn : is[n]? = some (.ifElse r a b)) (h : Gets M B F is c (.here n) ⟨st, ls, .i32 k :: vs⟩ B F) (hk : k = 0)
    (hb : Sits M (vs ++ B) ((r, (vs ++ B).length) :: F) b ⟨st, ls, []⟩ p c1 us X ws fs B' F') :
    Sits M B F is c (.inElse n p) c1 us X vs (.label r [] ws fs :: plains (is.drop (n + 1))) B' F'

section
variable {B B' : List Value} {F F' : List (List Val × Nat)} {is : List Instr} {c c1 : Conf} {p : Place} {us vs : List Value} {X fs : List Admin}

theorem sits_gets (h : Sits M B F is c p c1 us X vs fs B' F') : Gets M B F is c p c1 B' F' := by
  induction h with
  | here h => exact h
  | block hn h _ ih => exact .block hn h ih
  | loop hn h _ ih => exact .loop hn h ih
  | ifThen hn h hk _ ih => exact .ifThen hn h hk ih
  | ifElse hn h hk _ ih => exact .ifElse hn h hk ih

/-- Steps in the innermost block. -/
theorem sits_steps (h : Sits M B F is c p c1 us X vs fs B' F') {k : Nat} {st st' : Store} {ls ls' us' : List Value} {X' : List Admin}
    (hs : Steps M k ⟨st, ls, us⟩ X ⟨st', ls', us'⟩ X') : ∃ vs' fs', Steps M k ⟨st, ls, vs⟩ fs ⟨st', ls', vs'⟩ fs' ∧ Sits M B F is c p c1 us' X' vs' fs' B' F' := by
  induction h with
  | here h => exact ⟨_, _, steps_tail _ hs, .here h⟩
  | block hn h _ ih => obtain ⟨_, _, h1, h2⟩ := ih hs; exact ⟨_, _, steps_label h1, .block hn h h2⟩
  | loop hn h _ ih => obtain ⟨_, _, h1, h2⟩ := ih hs; exact ⟨_, _, steps_label h1, .loop hn h h2⟩
  | ifThen hn h hk _ ih => obtain ⟨_, _, h1, h2⟩ := ih hs; exact ⟨_, _, steps_label h1, .ifThen hn h hk h2⟩
  | ifElse hn h hk _ ih => obtain ⟨_, _, h1, h2⟩ := ih hs; exact ⟨_, _, steps_label h1, .ifElse hn h hk h2⟩

theorem next_block {n : Nat} {q : Place} {r : List Val} {b : List Instr} (hn : is[n]? = some (.block r b)) : (Place.inside n q).instr is = q.instr b := by
  simp only [Place.instr, hn]

theorem next_loop {n : Nat} {q : Place} {r : List Val} {b : List Instr} (hn : is[n]? = some (.loop r b)) : (Place.inside n q).instr is = q.instr b := by
  simp only [Place.instr, hn]

theorem next_then {n : Nat} {q : Place} {r : List Val} {a b : List Instr} (hn : is[n]? = some (.ifElse r a b)) : (Place.inside n q).instr is = q.instr a := by
  simp only [Place.instr, hn]

theorem next_else {n : Nat} {q : Place} {r : List Val} {a b : List Instr} (hn : is[n]? = some (.ifElse r a b)) : (Place.inElse n q).instr is = q.instr b := by
  simp only [Place.instr, hn]

/-- The instruction is done. -/
theorem sits_next (h : Sits M B F is c p c1 us [] vs fs B' F') {i : Instr} (hi : p.instr is = some i) {k : Nat} {st : Store} {ls : List Value}
    (hs : Steps M k c1 [.plain i] ⟨st, ls, us⟩ []) : Sits M B F is c p.next ⟨st, ls, us⟩ us (headAt p.next is) vs fs B' F' := by
  generalize hX : ([] : List Admin) = X at h
  induction h with
  | here h =>
    subst hX
    rw [List.nil_append, drop_head]
    exact .here (gets_step h hi hs)
  | block hn h _ ih =>
    rw [next_block hn] at hi
    refine .block hn h ?_
    rw [headAt, Place.next, next_block hn]
    exact ih hi hs hX
  | loop hn h _ ih =>
    rw [next_loop hn] at hi
    refine .loop hn h ?_
    rw [headAt, Place.next, next_loop hn]
    exact ih hi hs hX
  | ifThen hn h hk _ ih =>
    rw [next_then hn] at hi
    refine .ifThen hn h hk ?_
    rw [headAt, Place.next, next_then hn]
    exact ih hi hs hX
  | ifElse hn h hk _ ih =>
    rw [next_else hn] at hi
    refine .ifElse hn h hk ?_
    rw [headAt, Place.next, next_else hn]
    exact ih hi hs hX

/-- Back at a loop. -/
theorem sits_again {r : List Val} {b : List Instr} (h : Sits M B F is c p c1 us [.plain (.loop r b)] vs fs B' F') (hi : p.instr is = some (.loop r b)) {k : Nat} {st : Store} {ls : List Value}
    (hs : Steps M k c1 [.plain (.loop r b)] ⟨st, ls, us⟩ [.plain (.loop r b)]) : Sits M B F is c p ⟨st, ls, us⟩ us [.plain (.loop r b)] vs fs B' F' := by
  generalize hX : [Admin.plain (.loop r b)] = X at h
  induction h with
  | here h =>
    subst hX
    exact .here (.again hi h hs)
  | block hn h _ ih => rw [next_block hn] at hi; subst hX; exact .block hn h (ih hi hs rfl)
  | loop hn h _ ih => rw [next_loop hn] at hi; subst hX; exact .loop hn h (ih hi hs rfl)
  | ifThen hn h hk _ ih => rw [next_then hn] at hi; subst hX; exact .ifThen hn h hk (ih hi hs rfl)
  | ifElse hn h hk _ ih => rw [next_else hn] at hi; subst hX; exact .ifElse hn h hk (ih hi hs rfl)

theorem head_start (b : List Instr) : plains b = headAt (.here 0) b ++ plains (b.drop 1) := by
  rw [← drop_head]
  rfl

/-- Into a block. -/
theorem sits_block {r : List Val} {b : List Instr} (h : Sits M B F is c p c1 us [.label r [] [] (plains b)] vs fs B' F') (hi : p.instr is = some (.block r b)) (hc : c1.stack = us) :
    Sits M B F is c p.enter ⟨c1.store, c1.locals, []⟩ [] (headAt p.enter is) vs fs (us ++ B') ((r, (us ++ B').length) :: F') := by
  generalize hX : [Admin.label r [] [] (plains b)] = X at h
  induction h with
  | @here B F is c n c1 us X h =>
    subst hX
    subst hc
    refine .block hi h ?_
    rw [headAt, Place.enter, next_block hi, head_start]
    exact .here (.here (k := 0) (Nat.zero_le _) .zero)
  | block hn h _ ih =>
    rw [next_block hn] at hi
    refine .block hn h ?_
    rw [headAt, Place.enter, next_block hn]
    exact ih hi hc hX
  | loop hn h _ ih =>
    rw [next_loop hn] at hi
    refine .loop hn h ?_
    rw [headAt, Place.enter, next_loop hn]
    exact ih hi hc hX
  | ifThen hn h hk _ ih =>
    rw [next_then hn] at hi
    refine .ifThen hn h hk ?_
    rw [headAt, Place.enter, next_then hn]
    exact ih hi hc hX
  | ifElse hn h hk _ ih =>
    rw [next_else hn] at hi
    refine .ifElse hn h hk ?_
    rw [headAt, Place.enter, next_else hn]
    exact ih hi hc hX

theorem sits_loop {r : List Val} {b : List Instr} (h : Sits M B F is c p c1 us [.label [] [.loop r b] [] (plains b)] vs fs B' F') (hi : p.instr is = some (.loop r b)) (hc : c1.stack = us) :
    Sits M B F is c p.enter ⟨c1.store, c1.locals, []⟩ [] (headAt p.enter is) vs fs (us ++ B') (([], (us ++ B').length) :: F') := by
  generalize hX : [Admin.label [] [.loop r b] [] (plains b)] = X at h
  induction h with
  | @here B F is c n c1 us X h =>
    subst hX
    subst hc
    refine .loop hi h ?_
    rw [headAt, Place.enter, next_loop hi, head_start]
    exact .here (.here (k := 0) (Nat.zero_le _) .zero)
  | block hn h _ ih =>
    rw [next_block hn] at hi
    refine .block hn h ?_
    rw [headAt, Place.enter, next_block hn]
    exact ih hi hc hX
  | loop hn h _ ih =>
    rw [next_loop hn] at hi
    refine .loop hn h ?_
    rw [headAt, Place.enter, next_loop hn]
    exact ih hi hc hX
  | ifThen hn h hk _ ih =>
    rw [next_then hn] at hi
    refine .ifThen hn h hk ?_
    rw [headAt, Place.enter, next_then hn]
    exact ih hi hc hX
  | ifElse hn h hk _ ih =>
    rw [next_else hn] at hi
    refine .ifElse hn h hk ?_
    rw [headAt, Place.enter, next_else hn]
    exact ih hi hc hX

theorem sits_then {r : List Val} {a b : List Instr} {st : Store} {ls : List Value} {k : BitVec 32} (h : Sits M B F is c p ⟨st, ls, .i32 k :: us⟩ us [.label r [] [] (plains a)] vs fs B' F')
    (hi : p.instr is = some (.ifElse r a b)) (hk : k ≠ 0) :
    Sits M B F is c p.enter ⟨st, ls, []⟩ [] (headAt p.enter is) vs fs (us ++ B') ((r, (us ++ B').length) :: F') := by
  generalize hX : [Admin.label r [] [] (plains a)] = X at h
  generalize hc : Conf.mk st ls (.i32 k :: us) = c1 at h
  induction h with
  | @here B F is c n c1 us X h =>
    subst hX
    subst hc
    refine .ifThen hi h hk ?_
    rw [headAt, Place.enter, next_then hi, head_start]
    exact .here (.here (k := 0) (Nat.zero_le _) .zero)
  | block hn h _ ih =>
    rw [next_block hn] at hi
    refine .block hn h ?_
    rw [headAt, Place.enter, next_block hn]
    exact ih hi hX hc
  | loop hn h _ ih =>
    rw [next_loop hn] at hi
    refine .loop hn h ?_
    rw [headAt, Place.enter, next_loop hn]
    exact ih hi hX hc
  | ifThen hn h hk _ ih =>
    rw [next_then hn] at hi
    refine .ifThen hn h hk ?_
    rw [headAt, Place.enter, next_then hn]
    exact ih hi hX hc
  | ifElse hn h hk _ ih =>
    rw [next_else hn] at hi
    refine .ifElse hn h hk ?_
    rw [headAt, Place.enter, next_else hn]
    exact ih hi hX hc

theorem sits_else {r : List Val} {a b : List Instr} {st : Store} {ls : List Value} {k : BitVec 32} (h : Sits M B F is c p ⟨st, ls, .i32 k :: us⟩ us [.label r [] [] (plains b)] vs fs B' F')
    (hi : p.instr is = some (.ifElse r a b)) (hk : k = 0) :
    Sits M B F is c p.enterElse ⟨st, ls, []⟩ [] (headAt p.enterElse is) vs fs (us ++ B') ((r, (us ++ B').length) :: F') := by
  generalize hX : [Admin.label r [] [] (plains b)] = X at h
  generalize hc : Conf.mk st ls (.i32 k :: us) = c1 at h
  induction h with
  | @here B F is c n c1 us X h =>
    subst hX
    subst hc
    refine .ifElse hi h hk ?_
    rw [headAt, Place.enterElse, next_else hi, head_start]
    exact .here (.here (k := 0) (Nat.zero_le _) .zero)
  | block hn h _ ih =>
    rw [next_block hn] at hi
    refine .block hn h ?_
    rw [headAt, Place.enterElse, next_block hn]
    exact ih hi hX hc
  | loop hn h _ ih =>
    rw [next_loop hn] at hi
    refine .loop hn h ?_
    rw [headAt, Place.enterElse, next_loop hn]
    exact ih hi hX hc
  | ifThen hn h hk _ ih =>
    rw [next_then hn] at hi
    refine .ifThen hn h hk ?_
    rw [headAt, Place.enterElse, next_then hn]
    exact ih hi hX hc
  | ifElse hn h hk _ ih =>
    rw [next_else hn] at hi
    refine .ifElse hn h hk ?_
    rw [headAt, Place.enterElse, next_else hn]
    exact ih hi hX hc

theorem outer_here : ∀ {p : Place}, p.outer = none → ∃ n, p = .here n
  | .here n, _ => ⟨n, rfl⟩
  | .inside n p, h => by
    simp only [Place.outer] at h
    split at h <;> cases h
  | .inElse n p, h => by
    simp only [Place.outer] at h
    split at h <;> cases h

/-- The block around. -/
theorem sits_outer (h : Sits M B F is c p c1 us X vs fs B' F') : ∀ {q : Place}, p.outer = some q →
    ∃ c' i r k b n us' B2 F2, q.instr is = some i ∧ Step M c' [.plain i] ⟨c'.store, c'.locals, us'⟩ [.label r k [] (plains b)] ∧
      (k = [] ∧ (∀ r b, i ≠ .loop r b) ∨ ∃ r', i = .loop r' b ∧ k = [i]) ∧ p.instr is = b[n]? ∧
      Gets M (us' ++ B2) ((r, (us' ++ B2).length) :: F2) b ⟨c'.store, c'.locals, []⟩ (.here n) c1 (us' ++ B2) ((r, (us' ++ B2).length) :: F2) ∧
      B' = us' ++ B2 ∧ F' = (r, (us' ++ B2).length) :: F2 ∧
      Sits M B F is c q c' us' [.label r k us (X ++ plains (b.drop (n + 1)))] vs fs B2 F2 := by
  induction h with
  | here => intro q hq; cases hq
  | @block B F is c n r b c' p c1 us X ws fs B' F' hn h hb ih =>
    intro q hq
    simp only [Place.outer] at hq
    split at hq
    · cases hq
      rename_i hp
      obtain ⟨n', rfl⟩ := outer_here hp
      cases hb with
      | here hb => exact ⟨c', _, r, [], b, n', c'.stack, B, F, hn, .block, .inl ⟨rfl, fun _ _ h => by cases h⟩, next_block hn, hb, rfl, rfl, .here h⟩
    · cases hq
      rename_i q hp
      obtain ⟨c2, i, r2, k, b2, n2, us2, B2, F2, a1, a2, a3, a4, a5, a6, a7, a8⟩ := ih hp
      exact ⟨c2, i, r2, k, b2, n2, us2, B2, F2, (next_block hn).trans a1, a2, a3, (next_block hn).trans a4, a5, a6, a7, .block hn h a8⟩
  | @loop B F is c n r b c' p c1 us X ws fs B' F' hn h hb ih =>
    intro q hq
    simp only [Place.outer] at hq
    split at hq
    · cases hq
      rename_i hp
      obtain ⟨n', rfl⟩ := outer_here hp
      cases hb with
      | here hb => exact ⟨c', _, [], _, b, n', c'.stack, B, F, hn, .loop, .inr ⟨r, rfl, rfl⟩, next_loop hn, hb, rfl, rfl, .here h⟩
    · cases hq
      rename_i q hp
      obtain ⟨c2, i, r2, k, b2, n2, us2, B2, F2, a1, a2, a3, a4, a5, a6, a7, a8⟩ := ih hp
      exact ⟨c2, i, r2, k, b2, n2, us2, B2, F2, (next_loop hn).trans a1, a2, a3, (next_loop hn).trans a4, a5, a6, a7, .loop hn h a8⟩
  | @ifThen B F is c n r a b st ls k vs p c1 us X ws fs B' F' hn h hk hb ih =>
    intro q hq
    simp only [Place.outer] at hq
    split at hq
    · cases hq
      rename_i hp
      obtain ⟨n', rfl⟩ := outer_here hp
      cases hb with
      | here hb => exact ⟨_, _, r, [], a, n', vs, B, F, hn, .ifThen hk, .inl ⟨rfl, fun _ _ h => by cases h⟩, next_then hn, hb, rfl, rfl, .here h⟩
    · cases hq
      rename_i q hp
      obtain ⟨c2, i, r2, k, b2, n2, us2, B2, F2, a1, a2, a3, a4, a5, a6, a7, a8⟩ := ih hp
      exact ⟨c2, i, r2, k, b2, n2, us2, B2, F2, (next_then hn).trans a1, a2, a3, (next_then hn).trans a4, a5, a6, a7, .ifThen hn h hk a8⟩
  | @ifElse B F is c n r a b st ls k vs p c1 us X ws fs B' F' hn h hk hb ih =>
    intro q hq
    simp only [Place.outer] at hq
    split at hq
    · cases hq
      rename_i hp
      obtain ⟨n', rfl⟩ := outer_here hp
      cases hb with
      | here hb => exact ⟨_, _, r, [], b, n', vs, B, F, hn, .ifElse hk, .inl ⟨rfl, fun _ _ h => by cases h⟩, next_else hn, hb, rfl, rfl, .here h⟩
    · cases hq
      rename_i q hp
      obtain ⟨c2, i, r2, k, b2, n2, us2, B2, F2, a1, a2, a3, a4, a5, a6, a7, a8⟩ := ih hp
      exact ⟨c2, i, r2, k, b2, n2, us2, B2, F2, (next_else hn).trans a1, a2, a3, (next_else hn).trans a4, a5, a6, a7, .ifElse hn h hk a8⟩

/-- The end of a block. -/
theorem sits_fall (h : Sits M B F is c p c1 c1.stack [] vs fs B' F') (hi : p.instr is = none) {q : Place} (hq : p.outer = some q) :
    ∃ vs' fs' us' B2 F2, Steps M 1 ⟨c1.store, c1.locals, vs⟩ fs ⟨c1.store, c1.locals, vs'⟩ fs' ∧ us' ++ B2 = c1.stack ++ B' ∧
      Sits M B F is c q.next ⟨c1.store, c1.locals, us'⟩ us' (headAt q.next is) vs' fs' B2 F2 := by
  obtain ⟨c', i, r, k, b, n, us', B2, F2, a1, a2, a3, a4, a5, rfl, a7, a8⟩ := sits_outer h hq
  rw [hi] at a4
  have hb := List.getElem?_eq_none_iff.mp a4.symm
  rw [List.drop_eq_nil_of_le (Nat.le_succ_of_le hb)] at a8
  have e1 : ∀ {v}, Step M ⟨c1.store, c1.locals, v⟩ [.label r k c1.stack []] ⟨c1.store, c1.locals, c1.stack ++ v⟩ [] := .endLabel
  obtain ⟨vs', fs', g1, g2⟩ := sits_steps a8 (.succ e1 .zero)
  obtain ⟨j, g3⟩ := gets_all a5
  rw [List.drop_eq_nil_of_le hb] at g3
  have g4 := steps_label (r := r) (k := k) (vs := us') (es := []) g3
  exact ⟨vs', fs', c1.stack ++ us', B2, F2, g1, List.append_assoc .., sits_next g2 a1 (.succ a2 (steps_trans g4 (.succ e1 .zero)))⟩

theorem land_next {q : Place} {i : Instr} (hi : q.instr is = some i) (h : ∀ r b, i ≠ .loop r b) : q.land is = q.next := by
  unfold Place.land
  rw [hi]
  cases i <;> first | rfl | exact (h _ _ rfl).elim

theorem land_loop {q : Place} {r : List Val} {b : List Instr} (hi : q.instr is = some (.loop r b)) : q.land is = q := by
  unfold Place.land
  rw [hi]

/-- A branch to the label of the `n`-th block around. -/
theorem sits_branch : ∀ (n : Nat) {p : Place} {c1 : Conf} {us vs : List Value} {fs : List Admin} {B' : List Value} {F' : List (List Val × Nat)} {l : Idx} {st : Store} {ls : List Value}
    {i : Instr} {j : Nat} {q : Place} {r : List Val} {h : Nat} {ws rest : List Value}, l.toNat = n →
    Sits M B F is c p c1 us [.plain (.br l)] vs fs B' F' → p.instr is = some i → Steps M j c1 [.plain i] ⟨st, ls, us⟩ [.plain (.br l)] → p.up n = some q → F'[n]? = some (r, h) →
    popArgs r us = some (ws, rest) →
    ∃ vs' fs' us' B2 F2, Steps M (n + 1) ⟨st, ls, vs⟩ fs ⟨st, ls, vs'⟩ fs' ∧ us' ++ B2 = ws.reverse ++ lowest h B' ∧ (∃ A, B' = A ++ lowest h B' ∧ (lowest h B').length = h) ∧
      Sits M B F is c (q.land is) ⟨st, ls, us'⟩ us' (headAt (q.land is) is) vs' fs' B2 F2
  | 0, p, c1, us, vs, fs, B', F', l, st, ls, i, j, q, r, h, ws, rest, hl, hs, hi, hj, hq, hF, hp => by
    obtain ⟨c', i', r2, k, b, n, us', B2, F2, a1, a2, a3, a4, a5, rfl, rfl, a8⟩ := sits_outer hs hq
    cases hF
    have hl0 : l = 0 := BitVec.eq_of_toNat_eq (by rw [hl]; rfl)
    have e1 : ∀ {v} {Y : List Admin}, Step M ⟨st, ls, v⟩ [.label r k us ([.plain (.br l)] ++ Y)] ⟨st, ls, ws.reverse ++ v⟩ (plains k) := by
      intro v Y
      have := Step.brHere (M := M) (st := st) (ls := ls) (vs := v) (es := []) (k := k) (fs := Y) hl0 hp
      rw [List.append_nil] at this
      exact this
    obtain ⟨vs', fs', g1, g2⟩ := sits_steps a8 (.succ e1 .zero)
    obtain ⟨j2, g3⟩ := gets_all a5
    have e3 : headAt (.here n) b = [.plain i] := by rw [headAt, Place.instr, ← a4, hi]; rfl
    rw [drop_head, e3] at g3
    have g4 := steps_label (r := r) (k := k) (vs := us') (es := []) (steps_trans g3 (steps_tail _ hj))
    have g5 := Steps.succ a2 (steps_trans g4 (.succ e1 .zero))
    have e4 : lowest (us' ++ B2).length (us' ++ B2) = us' ++ B2 := by
      unfold lowest
      rw [Nat.sub_self]
      rfl
    rw [e4]
    refine ⟨vs', fs', ws.reverse ++ us', B2, F2, g1, List.append_assoc .., ⟨[], rfl, rfl⟩, ?_⟩
    rcases a3 with ⟨rfl, hne⟩ | ⟨r', rfl, rfl⟩
    · rw [land_next a1 hne]
      exact sits_next g2 a1 g5
    · rw [land_loop a1, headAt, a1]
      exact sits_again g2 a1 g5
  | n + 1, p, c1, us, vs, fs, B', F', l, st, ls, i, j, q, r, h, ws, rest, hl, hs, hi, hj, hq, hF, hp => by
    simp only [Place.up, Option.bind_eq_some_iff] at hq
    obtain ⟨q1, hq1, hq2⟩ := hq
    obtain ⟨c', i', r2, k, b, n', us', B2, F2, a1, a2, a3, a4, a5, rfl, rfl, a8⟩ := sits_outer hs hq1
    have hl0 : l ≠ 0 := fun e => by subst e; cases hl
    have e1 : ∀ {v} {Y : List Admin}, Step M ⟨st, ls, v⟩ [.label r2 k us ([.plain (.br l)] ++ Y)] ⟨st, ls, us⟩ [.plain (.br (l - 1))] := .brOut hl0
    obtain ⟨vs', fs', g1, g2⟩ := sits_steps a8 (.succ e1 .zero)
    obtain ⟨j2, g3⟩ := gets_all a5
    have e3 : headAt (.here n') b = [.plain i] := by rw [headAt, Place.instr, ← a4, hi]; rfl
    rw [drop_head, e3] at g3
    have g4 := steps_label (r := r2) (k := k) (vs := us') (es := []) (steps_trans g3 (steps_tail _ hj))
    have g5 := Steps.succ a2 (steps_trans g4 (.succ e1 .zero))
    have hl1 : (l - 1).toNat = n := by have := pred_toNat hl0; omega
    rw [List.getElem?_cons_succ] at hF
    obtain ⟨vs2, fs2, us2, B3, F3, b1, b2, ⟨A, b3, b4⟩, b5⟩ := sits_branch n hl1 g2 a1 g5 hq2 hF hp
    have e5 : lowest h (us' ++ B2) = lowest h B2 := by
      generalize hL : lowest h B2 = L at b3 b4
      rw [b3, ← b4, ← List.append_assoc]
      unfold lowest
      rw [List.length_append, Nat.add_sub_cancel, List.drop_left' rfl]
    rw [e5]
    refine ⟨vs2, fs2, us2, B3, F3, ?_, b2, ⟨us' ++ A, by rw [List.append_assoc, ← b3], b4⟩, b5⟩
    have := steps_trans g1 b1
    rwa [Nat.add_comm] at this

/-- `return` and a trap on their way out of the blocks. -/
theorem sits_ret (h : Sits M B F is c p c1 us [.plain .ret] vs fs B' F') (st : Store) (ls : List Value) :
    ∃ k tl, Steps M k ⟨st, ls, vs⟩ fs ⟨st, ls, us⟩ (.plain .ret :: tl) := by
  generalize hX : [Admin.plain .ret] = X at h
  induction h with
  | here => subst hX; exact ⟨0, _, .zero⟩
  | block _ _ _ ih => obtain ⟨k, tl, h⟩ := ih hX; exact ⟨_, _, steps_trans (steps_label h) (.succ .retOut .zero)⟩
  | loop _ _ _ ih => obtain ⟨k, tl, h⟩ := ih hX; exact ⟨_, _, steps_trans (steps_label h) (.succ .retOut .zero)⟩
  | ifThen _ _ _ _ ih => obtain ⟨k, tl, h⟩ := ih hX; exact ⟨_, _, steps_trans (steps_label h) (.succ .retOut .zero)⟩
  | ifElse _ _ _ _ ih => obtain ⟨k, tl, h⟩ := ih hX; exact ⟨_, _, steps_trans (steps_label h) (.succ .retOut .zero)⟩

theorem sits_trap (h : Sits M B F is c p c1 us [.trap] vs fs B' F') (st : Store) (ls : List Value) :
    ∃ k vs' tl, Steps M k ⟨st, ls, vs⟩ fs ⟨st, ls, vs'⟩ (.trap :: tl) := by
  generalize hX : [Admin.trap] = X at h
  induction h with
  | here => subst hX; exact ⟨0, _, _, .zero⟩
  | block _ _ _ ih => obtain ⟨k, _, tl, h⟩ := ih hX; exact ⟨_, _, _, steps_trans (steps_label h) (.succ .trapOut .zero)⟩
  | loop _ _ _ ih => obtain ⟨k, _, tl, h⟩ := ih hX; exact ⟨_, _, _, steps_trans (steps_label h) (.succ .trapOut .zero)⟩
  | ifThen _ _ _ _ ih => obtain ⟨k, _, tl, h⟩ := ih hX; exact ⟨_, _, _, steps_trans (steps_label h) (.succ .trapOut .zero)⟩
  | ifElse _ _ _ _ ih => obtain ⟨k, _, tl, h⟩ := ih hX; exact ⟨_, _, _, steps_trans (steps_label h) (.succ .trapOut .zero)⟩

/-- What is not on its way out. -/
def Stays : Admin → Prop
  | .plain (.br _) => False
  | .plain .ret => False
  | .trap => False
  | _ => True

theorem sits_head (h : Sits M B F is c p c1 us X vs fs B' F') {e : Admin} (hX : X = [e]) : (∃ tl, fs = e :: tl) ∨ ∃ r k ws fs' tl, fs = .label r k ws fs' :: tl := by
  cases h with
  | here => subst hX; exact .inl ⟨_, rfl⟩
  | block => exact .inr ⟨_, _, _, _, _, rfl⟩
  | loop => exact .inr ⟨_, _, _, _, _, rfl⟩
  | ifThen => exact .inr ⟨_, _, _, _, _, rfl⟩
  | ifElse => exact .inr ⟨_, _, _, _, _, rfl⟩

theorem label_in {st : Store} {ls vs : List Value} {c2 : Conf} {fs2 : List Admin} {r : List Val} {k : List Instr} {ws : List Value} {fs tl : List Admin} {e : Admin}
    (h : Step M ⟨st, ls, vs⟩ (.label r k ws fs :: tl) c2 fs2) (he : Stays e) (hf : (∃ tl, fs = e :: tl) ∨ ∃ r k ws fs' tl, fs = .label r k ws fs' :: tl) :
    ∃ c3 fs3, Step M ⟨st, ls, ws⟩ fs c3 fs3 := by
  rcases hf with ⟨_, rfl⟩ | ⟨_, _, _, _, _, rfl⟩ <;> cases h <;> first
    | exact ⟨_, _, by assumption⟩
    | exact he.elim

/-- A step of the whole is one of the innermost block. -/
theorem sits_inv (h : Sits M B F is c p c1 us X vs fs B' F') {e : Admin} (hX : X = [e]) (he : Stays e) {st : Store} {ls : List Value} :
    (∃ c2 fs2, Step M ⟨st, ls, vs⟩ fs c2 fs2) → ∃ c3 X3, Step M ⟨st, ls, us⟩ [e] c3 X3 := by
  induction h with
  | here =>
    rintro ⟨c2, fs2, h⟩
    subst hX
    obtain ⟨X, _, h1⟩ := step_local h
    exact ⟨_, _, h1 []⟩
  | block _ _ hb ih => rintro ⟨c2, fs2, h⟩; exact ih hX (label_in h he (sits_head hb hX))
  | loop _ _ hb ih => rintro ⟨c2, fs2, h⟩; exact ih hX (label_in h he (sits_head hb hX))
  | ifThen _ _ _ hb ih => rintro ⟨c2, fs2, h⟩; exact ih hX (label_in h he (sits_head hb hX))
  | ifElse _ _ _ hb ih => rintro ⟨c2, fs2, h⟩; exact ih hX (label_in h he (sits_head hb hX))

theorem sits_calling {fi : FuncInst} {args : List Value} (h : Sits M B F is c p c1 us X vs fs B' F') (hc : Calling us X fi args) : Calling vs fs fi args := by
  induction h with
  | here =>
    cases hc with
    | here hp => exact .here hp
    | label h => exact .label h
    | frame h => exact .frame h
  | block _ _ _ ih => exact .label (ih hc)
  | loop _ _ _ ih => exact .label (ih hc)
  | ifThen _ _ _ _ ih => exact .label (ih hc)
  | ifElse _ _ _ _ ih => exact .label (ih hc)

end

/-- More operands below do not matter. -/
theorem popArgs_more {ts : List Val} {vs us rest : List Value} (h : popArgs ts vs = some (us, rest)) (B : List Value) : popArgs ts (vs ++ B) = some (us, rest ++ B) := by
  have hl := popArgs_len h
  unfold popArgs at h ⊢
  dsimp only at h ⊢
  split at h
  · rename_i ht
    cases h
    rw [List.length_reverse, List.length_take] at hl
    have : ts.length ≤ vs.length := by omega
    rw [List.take_append_of_le_length this, List.drop_append_of_le_length this, if_pos ht]
  · cases h

theorem step_more {st st' : Store} {ls ls' vs vs' : List Value} {i : Instr} {X : List Admin} (h : Step M ⟨st, ls, vs⟩ [.plain i] ⟨st', ls', vs'⟩ X) (B : List Value) :
    Step M ⟨st, ls, vs ++ B⟩ [.plain i] ⟨st', ls', vs' ++ B⟩ X := by
  cases h with
  | constI32 => exact .constI32
  | constI64 => exact .constI64
  | constF32 => exact .constF32
  | constF64 => exact .constF64
  | num hp hv => exact .num (popArgs_more hp B) hv
  | numTrap hp hv => exact .numTrap (popArgs_more hp B) hv
  | drop => exact .drop
  | selectFirst ht hb => exact .selectFirst ht hb
  | selectSecond ht hb => exact .selectSecond ht hb
  | localGet hx => exact .localGet hx
  | localSet hx => exact .localSet hx
  | localTee hx => exact .localTee hx
  | globalGet hx => exact .globalGet hx
  | globalSet hx => exact .globalSet hx
  | load hm hb => exact .load hm hb
  | loadTrap hm hb => exact .loadTrap hm hb
  | store hm ht hb => exact .store hm ht hb
  | storeTrap hm ht hb => exact .storeTrap hm ht hb
  | memSize hm => exact .memSize hm
  | memGrow hm hl hg => exact .memGrow hm hl hg
  | memGrowFail hm hf => exact .memGrowFail hm hf
  | nop => exact .nop
  | unreachable => exact .unreachable
  | block => exact .block
  | loop => exact .loop
  | ifThen hk => exact .ifThen hk
  | ifElse hk => exact .ifElse hk
  | brIf hk => exact .brIf hk
  | brIfNot hk => exact .brIfNot hk
  | brTable hx => exact .brTable hx
  | brTableElse hx => exact .brTableElse hx
  | call hf => exact .call hf
  | callIndirect hy hx hk ha ht => exact .callIndirect hy hx hk ha ht
  | callOther hy hx hk ha ht => exact .callOther hy hx hk ha ht
  | callEmpty hy hx hk => exact .callEmpty hy hx hk
  | callOutside hy hx hk => exact .callOutside hy hx hk

/-- What a step of an instruction can be. -/
theorem step_kinds {st st' : Store} {ls ls' vs vs' : List Value} {i : Instr} {X : List Admin} (h : Step M ⟨st, ls, vs⟩ [.plain i] ⟨st', ls', vs'⟩ X) :
    X = [] ∨ X = [.trap] ∨ (∃ r b, i = .block r b ∧ X = [.label r [] [] (plains b)] ∧ st' = st ∧ ls' = ls ∧ vs' = vs) ∨
    (∃ r b, i = .loop r b ∧ X = [.label [] [.loop r b] [] (plains b)] ∧ st' = st ∧ ls' = ls ∧ vs' = vs) ∨
    (∃ r a b k, i = .ifElse r a b ∧ X = [.label r [] [] (plains (if k = 0 then b else a))] ∧ st' = st ∧ ls' = ls ∧ vs = .i32 k :: vs') ∨
    (∃ fi, X = [.invoke fi] ∧ st' = st ∧ ls' = ls) ∨ ∃ l, X = [.plain (.br l)] ∧ Jumps (some i) l.toNat vs' vs ∧ st' = st ∧ ls' = ls := by
  cases h with
  | numTrap hp hv => exact .inr (.inl rfl)
  | loadTrap hm hb => exact .inr (.inl rfl)
  | storeTrap hm ht hb => exact .inr (.inl rfl)
  | unreachable => exact .inr (.inl rfl)
  | block => exact .inr (.inr (.inl ⟨_, _, rfl, rfl, rfl, rfl, rfl⟩))
  | loop => exact .inr (.inr (.inr (.inl ⟨_, _, rfl, rfl, rfl, rfl, rfl⟩)))
  | ifThen hk => exact .inr (.inr (.inr (.inr (.inl ⟨_, _, _, _, rfl, by rw [if_neg hk], rfl, rfl, rfl⟩))))
  | ifElse hk => exact .inr (.inr (.inr (.inr (.inl ⟨_, _, _, _, rfl, by rw [if_pos hk], rfl, rfl, rfl⟩))))
  | brIf hk => exact .inr (.inr (.inr (.inr (.inr (.inr ⟨_, rfl, .brIf hk, rfl, rfl⟩)))))
  | brTable hx => exact .inr (.inr (.inr (.inr (.inr (.inr ⟨_, rfl, .brTable hx, rfl, rfl⟩)))))
  | brTableElse hx => exact .inr (.inr (.inr (.inr (.inr (.inr ⟨_, rfl, .brTableElse hx, rfl, rfl⟩)))))
  | call hf => exact .inr (.inr (.inr (.inr (.inr (.inl ⟨_, rfl, rfl, rfl⟩)))))
  | callIndirect hy hx hk ha ht => exact .inr (.inr (.inr (.inr (.inr (.inl ⟨_, rfl, rfl, rfl⟩)))))
  | callOther hy hx hk ha ht => exact .inr (.inl rfl)
  | callEmpty hy hx hk => exact .inr (.inl rfl)
  | callOutside hy hx hk => exact .inr (.inl rfl)
  | _ => exact .inl rfl

theorem jumps_more {i : Option Instr} {n : Nat} {us vs : List Value} (h : Jumps i n us vs) (B : List Value) : Jumps i n (us ++ B) (vs ++ B) := by
  cases h with
  | br => exact .br
  | brIf hk => exact .brIf hk
  | brTable hx => exact .brTable hx
  | brTableElse hx => exact .brTableElse hx

end Whasm.Run
