import Verif.Lemmas.Depth
import Verif.Lemmas.Flat
import Verif.Spec.Safety

/-!
# The machine without labels: calls
-/

namespace Whasm.Run
open Spec

variable {m : Module} {M : Machine}

section
variable {B B' : List Value} {F F' : List (List Val × Nat)} {is : List Instr} {c c1 : Conf} {p : Place} {us vs : List Value} {X fs : List Admin}

theorem sits_run (h : Sits M B F is c p c1 us X vs fs B' F') {st : Store} {ls : List Value} {k : Nat} (hs : Steps M k c1 (headAt p is) ⟨st, ls, us⟩ X) :
    ∃ j, Steps M j c (plains is) ⟨st, ls, vs⟩ fs := by
  have enter : ∀ {is : List Instr} {c c1 c' : Conf} {B B' : List Value} {F F' : List (List Val × Nat)} {n : Nat} {i : Instr} {e : Admin}, Gets M B F is c (.here n) c1 B' F' → is[n]? = some i →
      Step M c1 [.plain i] c' [e] → ∃ j, Steps M j c (plains is) c' (e :: plains (is.drop (n + 1))) := by
    intro is c c1 c' B B' F F' n i e h1 h2 h3
    obtain ⟨j, h4⟩ := gets_all h1
    have e1 : headAt (.here n) is = [.plain i] := by rw [headAt, Place.instr, h2]; rfl
    rw [drop_head, e1] at h4
    exact ⟨_, steps_trans h4 (steps_tail (plains (is.drop (n + 1))) (.succ h3 .zero))⟩
  induction h with
  | here h =>
    obtain ⟨j, h1⟩ := gets_all h
    rw [drop_head] at h1
    exact ⟨_, steps_trans h1 (steps_tail _ hs)⟩
  | block hn h _ ih =>
    rw [headAt, next_block hn] at hs
    obtain ⟨j, h1⟩ := ih hs
    obtain ⟨j2, h2⟩ := enter h hn .block
    exact ⟨_, steps_trans h2 (steps_label h1)⟩
  | loop hn h _ ih =>
    rw [headAt, next_loop hn] at hs
    obtain ⟨j, h1⟩ := ih hs
    obtain ⟨j2, h2⟩ := enter h hn .loop
    exact ⟨_, steps_trans h2 (steps_label h1)⟩
  | ifThen hn h hk _ ih =>
    rw [headAt, next_then hn] at hs
    obtain ⟨j, h1⟩ := ih hs
    obtain ⟨j2, h2⟩ := enter h hn (.ifThen hk)
    exact ⟨_, steps_trans h2 (steps_label h1)⟩
  | ifElse hn h hk _ ih =>
    rw [headAt, next_else hn] at hs
    obtain ⟨j, h1⟩ := ih hs
    obtain ⟨j2, h2⟩ := enter h hn (.ifElse hk)
    exact ⟨_, steps_trans h2 (steps_label h1)⟩

theorem sits_nextOf {i : Instr} (h : Sits M B F is c p c1 us [.plain i] vs fs B' F') : Next vs fs i us ∧ laidL B F vs fs = (us ++ B', F') := by
  generalize hX : [Admin.plain i] = X at h
  induction h with
  | here => subst hX; exact ⟨.here, rfl⟩
  | block _ _ _ ih => exact ⟨.label (ih hX).1, (ih hX).2⟩
  | loop _ _ _ ih => exact ⟨.label (ih hX).1, (ih hX).2⟩
  | ifThen _ _ _ _ ih => exact ⟨.label (ih hX).1, (ih hX).2⟩
  | ifElse _ _ _ _ ih => exact ⟨.label (ih hX).1, (ih hX).2⟩

end

/-- Where a call of a function of the module has begun. -/
structure ActOk (m : Module) (M : Machine) (a : Act) (st0 : Store) (l0 : List Value) : Prop where
  store : StoreOk m M.all.length st0
  func : a.func ∈ m.funcs
  type : m.types[a.func.ty.toNat]? = some a.type
  locals : ∃ args, args.map Value.type = a.type.params ∧ l0 = args ++ a.func.locals.map zero

/-- The calls `as` around: `es` is `X` inside of them. Each is at the place of its `call`. -/
inductive Callers (m : Module) (M : Machine) : Store → List Act → List Admin → List Admin → Prop
  | none {st X} : Callers m M st [] X X
  | more {st a as X es st0 l0 c1 us ws fs B' F' i k} (g : ActOk m M a st0 l0)
    (hs : Sits M [] [(a.type.results, 0)] a.func.body ⟨st0, l0, []⟩ a.place c1 us X ws fs B' F') (hi : a.place.instr a.func.body = some i)
    (hr : Steps M k c1 [.plain i] ⟨st, a.locals, us⟩ X) (ha : a.stack = us ++ B')
    (h : Callers m M st as [.frame a.type.results a.locals [] [.label a.type.results [] ws fs]] es) : Callers m M st (a :: as) X es

/-- A state of the machine without labels and one of the rules. -/
inductive FRel (m : Module) (M : Machine) : FState → Conf → List Admin → Prop
  | running {st a as st0 l0 us ws fs B' F' es} (g : ActOk m M a st0 l0)
    (hs : Sits M [] [(a.type.results, 0)] a.func.body ⟨st0, l0, []⟩ a.place ⟨st, a.locals, us⟩ us (headAt a.place a.func.body) ws fs B' F') (ha : a.stack = us ++ B')
    (h : Callers m M st as [.frame a.type.results a.locals [] [.label a.type.results [] ws fs]] es) : FRel m M (.running st a as) ⟨st, [], []⟩ es
  | finished {st ls vs} : FRel m M (.finished st vs) ⟨st, ls, vs.reverse⟩ []
  | trapped {st ls vs es} : FRel m M (.trapped st) ⟨st, ls, vs⟩ (.trap :: es)

variable {st st' : Store} {as : List Act} {X X' es : List Admin} {k : Nat}

theorem callers_steps (h : Callers m M st as X es) : ∀ {X' : List Admin}, (∀ ls vs, Steps M k ⟨st, ls, vs⟩ X ⟨st', ls, vs⟩ X') →
    ∃ es', Steps M k ⟨st, [], []⟩ es ⟨st', [], []⟩ es' ∧ Callers m M st' as X' es' := by
  induction h with
  | none => exact fun hs => ⟨_, hs [] [], .none⟩
  | @more a as X es st0 l0 c1 us ws fs B' F' i k' g hs hi hr ha h ih =>
    intro X' hx
    obtain ⟨ws', fs', h1, h2⟩ := sits_steps hs (hx a.locals us)
    obtain ⟨es', h3, h4⟩ := ih (X' := [.frame a.type.results a.locals [] [.label a.type.results [] ws' fs']]) fun ls vs =>
      steps_frame (c := ⟨st, a.locals, []⟩) (c' := ⟨st', a.locals, []⟩) (steps_label h1)
    exact ⟨es', h3, .more g h2 hi (steps_trans hr (hx _ _)) ha h4⟩

/-- Steps of the current call. -/
theorem call_steps {ws ws' ls ls' : List Value} {fs fs' : List Admin} {R : List Val} (h : Callers m M st as [.frame R ls [] [.label R [] ws fs]] es)
    (hs : Steps M k ⟨st, ls, ws⟩ fs ⟨st', ls', ws'⟩ fs') :
    ∃ es', Steps M k ⟨st, [], []⟩ es ⟨st', [], []⟩ es' ∧ Callers m M st' as [.frame R ls' [] [.label R [] ws' fs']] es' :=
  callers_steps h fun _ _ => steps_frame (c := ⟨st, ls, []⟩) (c' := ⟨st', ls', []⟩) (steps_label hs)

theorem callers_frame (h : Callers m M st as X es) : (∃ r ls vs fs, X = [.frame r ls vs fs]) → ∃ r ls vs fs, es = [.frame r ls vs fs] := by
  induction h with
  | none => exact id
  | more _ _ _ _ _ _ ih => exact fun _ => ih ⟨_, _, _, _, rfl⟩

theorem callers_inv (h : Callers m M st as X es) : ∀ {e : Admin}, X = [e] → Stays e → (∃ c2 es2, Step M ⟨st, [], []⟩ es c2 es2) →
    ∃ ls vs c3 X3, Step M ⟨st, ls, vs⟩ [e] c3 X3 := by
  induction h with
  | none =>
    rintro e rfl _ ⟨c2, es2, h⟩
    exact ⟨_, _, _, _, h⟩
  | @more a as X es st0 l0 c1 us ws fs B' F' i k' g hs hi hr ha h ih =>
    intro e hX he hstep
    obtain ⟨ls, vs, c3, X3, h1⟩ := ih rfl trivial hstep
    cases h1 with
    | inFrame h1 =>
      obtain ⟨c4, X4, h2⟩ := sits_inv hs hX he (label_in h1 he (sits_head hs hX))
      exact ⟨_, _, _, _, h2⟩

/-- The current call, one step. -/
theorem call_inv {ws ls : List Value} {fs : List Admin} {R : List Val} {B B' us : List Value} {F F' : List (List Val × Nat)} {is : List Instr} {c c1 : Conf} {p : Place} {e : Admin}
    (h : Callers m M st as [.frame R ls [] [.label R [] ws fs]] es) (hs : Sits M B F is c p c1 us [e] ws fs B' F') (he : Stays e) (hstep : ∃ c2 es2, Step M ⟨st, [], []⟩ es c2 es2) :
    ∃ c3 X3, Step M ⟨st, ls, us⟩ [e] c3 X3 := by
  obtain ⟨ls, vs, c3, X3, h1⟩ := callers_inv h rfl trivial hstep
  cases h1 with
  | inFrame h1 => exact sits_inv hs rfl he (label_in h1 he (sits_head hs rfl))

theorem callers_calling {fi : FuncInst} {args : List Value} (h : Callers m M st as X es) : (∀ vs, Calling vs X fi args) → Calling [] es fi args := by
  induction h with
  | none => exact fun h => h []
  | more _ hs _ _ _ _ ih => exact fun h => ih fun vs => .frame (.label (sits_calling hs (h _)))

theorem callers_trap (h : Callers m M st as X es) : (∀ ls vs, ∃ k vs', 0 < k ∧ Steps M k ⟨st, ls, vs⟩ X ⟨st', ls, vs'⟩ [.trap]) →
    ∃ k vs' tl, 0 < k ∧ Steps M k ⟨st, [], []⟩ es ⟨st', [], vs'⟩ (.trap :: tl) := by
  induction h with
  | none =>
    intro h
    obtain ⟨k, vs', h1, h2⟩ := h [] []
    exact ⟨k, vs', [], h1, h2⟩
  | @more a as X es st0 l0 c1 us ws fs B' F' i k' g hs hi hr ha h ih =>
    intro hx
    obtain ⟨k, vs', h1, h2⟩ := hx a.locals us
    obtain ⟨ws', fs', h3, h4⟩ := sits_steps hs h2
    obtain ⟨k2, vs2, tl, h5⟩ := sits_trap h4 st' a.locals
    refine ih fun ls vs => ⟨k + k2 + 1 + 1, vs, by omega, ?_⟩
    have h6 := steps_label (r := a.type.results) (k := []) (vs := []) (es := []) (steps_trans h3 h5)
    exact steps_trans (steps_frame (c := ⟨st, a.locals, []⟩) (c' := ⟨st', a.locals, []⟩) (steps_trans h6 (.succ .trapOut .zero))) (.succ .trapFrame .zero)

theorem callers_back {a : Act} {us : List Value} (h : Callers m M st (a :: as) X es) (hx : ∀ ls vs, Steps M k ⟨st, ls, vs⟩ X ⟨st, ls, us.reverse ++ vs⟩ []) :
    ∃ es', Steps M k ⟨st, [], []⟩ es ⟨st, [], []⟩ es' ∧ FRel m M (.running st { a with place := a.place.next, stack := us.reverse ++ a.stack } as) ⟨st, [], []⟩ es' := by
  cases h with
  | more g hs hi hr ha h =>
    obtain ⟨ws', fs', h1, h2⟩ := sits_steps hs (hx _ _)
    obtain ⟨es', h3, h4⟩ := call_steps h h1
    have h5 := sits_next h2 hi (steps_trans hr (hx _ _))
    exact ⟨es', h3, .running (a := { a with place := a.place.next, stack := us.reverse ++ a.stack }) ⟨g.store, g.func, g.type, g.locals⟩ h5 (by rw [List.append_assoc, ← ha]) h4⟩

theorem up_some : ∀ {l : Nat} {p : Place}, l < p.depth → ∃ q, p.up l = some q := by
  have outer : ∀ {p : Place}, 0 < p.depth → ∃ q, p.outer = some q ∧ q.depth + 1 = p.depth := by
    intro p
    induction p with
    | here n => exact fun h => absurd h (Nat.lt_irrefl 0)
    | inside n p ih =>
      intro _
      simp only [Place.outer]
      by_cases hd : 0 < p.depth
      · obtain ⟨q, h1, h2⟩ := ih hd
        rw [h1]
        exact ⟨_, rfl, by simp only [Place.depth]; omega⟩
      · cases p with
        | here => exact ⟨_, rfl, rfl⟩
        | inside => exact (hd (Nat.succ_pos _)).elim
        | inElse => exact (hd (Nat.succ_pos _)).elim
    | inElse n p ih =>
      intro _
      simp only [Place.outer]
      by_cases hd : 0 < p.depth
      · obtain ⟨q, h1, h2⟩ := ih hd
        rw [h1]
        exact ⟨_, rfl, by simp only [Place.depth]; omega⟩
      · cases p with
        | here => exact ⟨_, rfl, rfl⟩
        | inside => exact (hd (Nat.succ_pos _)).elim
        | inElse => exact (hd (Nat.succ_pos _)).elim
  intro l
  induction l with
  | zero =>
    intro p h
    obtain ⟨q, h1, _⟩ := outer h
    exact ⟨q, h1⟩
  | succ l ih =>
    intro p h
    obtain ⟨q, h1, h2⟩ := outer (p := p) (by omega)
    simp only [Place.up, h1, Option.bind_some]
    exact ih (by omega)

/-- The instruction at a place has a type, with a label for each block around. -/
theorem typed_place {i : Instr} : ∀ {p : Place} {is : List Instr} {C : Env} {a b : List Val}, HasTypes C is a b → p.instr is = some i →
    ∃ C' a' b', C'.labels.length = C.labels.length + p.depth ∧ HasType C' i a' b'
  | .here n, is, C, a, b, h, hi => by
    obtain ⟨a', b', h1⟩ := hasTypes_mem h (List.mem_of_getElem? hi)
    exact ⟨C, a', b', rfl, h1⟩
  | .inside n p, is, C, a, b, h, hi => by
    simp only [Place.instr] at hi
    split at hi
    · rename_i hn
      obtain ⟨a', b', h1⟩ := hasTypes_mem h (List.mem_of_getElem? hn)
      cases h1 with
      | block h1 =>
        obtain ⟨C', a', b', h2, h3⟩ := typed_place h1 hi
        exact ⟨C', a', b', by rw [h2, List.length_cons, Place.depth]; omega, h3⟩
    · rename_i hn
      obtain ⟨a', b', h1⟩ := hasTypes_mem h (List.mem_of_getElem? hn)
      cases h1 with
      | loop h1 =>
        obtain ⟨C', a', b', h2, h3⟩ := typed_place h1 hi
        exact ⟨C', a', b', by rw [h2, List.length_cons, Place.depth]; omega, h3⟩
    · rename_i hn
      obtain ⟨a', b', h1⟩ := hasTypes_mem h (List.mem_of_getElem? hn)
      cases h1 with
      | ifElse h1 _ =>
        obtain ⟨C', a', b', h2, h3⟩ := typed_place h1 hi
        exact ⟨C', a', b', by rw [h2, List.length_cons, Place.depth]; omega, h3⟩
    · cases hi
  | .inElse n p, is, C, a, b, h, hi => by
    simp only [Place.instr] at hi
    split at hi
    · rename_i hn
      obtain ⟨a', b', h1⟩ := hasTypes_mem h (List.mem_of_getElem? hn)
      cases h1 with
      | ifElse _ h1 =>
        obtain ⟨C', a', b', h2, h3⟩ := typed_place h1 hi
        exact ⟨C', a', b', by rw [h2, List.length_cons, Place.depth]; omega, h3⟩
    · cases hi

theorem jumps_depth {C : Env} {p : Place} {is : List Instr} {a b : List Val} {n : Nat} {us vs : List Value} (h : HasTypes C is a b) (hC : C.labels = []) (hj : Jumps (p.instr is) n us vs) :
    n < p.depth := by
  have key : ∀ {i C' a' b'}, Jumps (some i) n us vs → HasType C' i a' b' → ∃ r, C'.labels[n]? = some r := by
    intro i C' a' b' hj ht
    cases hj with
    | br => cases ht; exact ⟨_, by assumption⟩
    | brIf => cases ht; exact ⟨_, by assumption⟩
    | brTable hx =>
      cases ht with
      | brTable _ _ h1 _ => exact ⟨_, h1 _ (List.mem_of_getElem? hx)⟩
    | brTableElse => cases ht; exact ⟨_, by assumption⟩
  cases hi : p.instr is with
  | none => rw [hi] at hj; cases hj
  | some i =>
    rw [hi] at hj
    obtain ⟨C', a', b', h1, h2⟩ := typed_place h hi
    obtain ⟨r, h3⟩ := key hj h2
    rw [hC, List.length_nil, Nat.zero_add] at h1
    rw [← h1]
    exact (List.getElem?_eq_some_iff.mp h3).1

theorem jumps_unique {i : Option Instr} {n n' : Nat} {us us' vs : List Value} (h : Jumps i n us vs) (h' : Jumps i n' us' vs) : n = n' ∧ us = us' := by
  cases h <;> cases h' <;> first
    | exact ⟨rfl, rfl⟩
    | (rename_i h1 _ h2; rw [h1] at h2; cases h2; exact ⟨rfl, rfl⟩)
    | (rename_i h1 h2; have := (List.getElem?_eq_some_iff.mp h1).1; omega)
    | (rename_i h1 _ h2; have := (List.getElem?_eq_some_iff.mp h2).1; omega)

theorem jumps_no_step {i : Instr} {n : Nat} {us vs : List Value} {st : Store} {ls : List Value} {c' : Conf} {X : List Admin} (h : Jumps (some i) n us vs) (hs : Step M ⟨st, ls, vs⟩ [.plain i] c' X) :
    ∃ l, X = [.plain (.br l)] := by
  cases h with
  | br => exact (not_step_br hs).elim
  | brIf hk => cases hs with
    | brIf => exact ⟨_, rfl⟩
    | brIfNot h => exact (hk h).elim
  | brTable hx => cases hs <;> exact ⟨_, rfl⟩
  | brTableElse hx => cases hs <;> exact ⟨_, rfl⟩

/-- The machine without labels is deterministic. -/
theorem flat_det {T : Landings} {s s1 s2 : FState} (h1 : FStep M T s s1) (h2 : FStep M T s s2) : s1 = s2 := by
  have both : ∀ {a : Act} {st : Store} {i i' : Instr} {c c' : Conf} {X X' : List Admin}, a.place.instr a.func.body = some i → a.place.instr a.func.body = some i' →
      Step M ⟨st, a.locals, a.stack⟩ [.plain i] c X → Step M ⟨st, a.locals, a.stack⟩ [.plain i'] c' X' → c = c' ∧ X = X' := by
    intro a st i i' c c' X X' e1 e2 g1 g2
    rw [e1] at e2
    cases e2
    exact step_det g1 g2
  have jump : ∀ {a : Act} {st : Store} {i : Instr} {n : Nat} {us : List Value} {c : Conf} {X : List Admin}, a.place.instr a.func.body = some i →
      Jumps (a.place.instr a.func.body) n us a.stack → Step M ⟨st, a.locals, a.stack⟩ [.plain i] c X → ∃ l, X = [.plain (.br l)] := by
    intro a st i n us c X e1 g1 g2
    rw [e1] at g1
    exact jumps_no_step g1 g2
  have enters : ∀ {a : Act} {st st' : Store} {ls' S' : List Value} {i j : Instr} {X : List Admin}, a.place.instr a.func.body = some i → a.place.instr a.func.body = some j →
      Step M ⟨st, a.locals, a.stack⟩ [.plain i] ⟨st', ls', S'⟩ X → (match j, X with | .block _ _, [.label _ _ _ _] => False | .loop _ _, [.label _ _ _ _] => False | .ifElse _ _ _, [.label _ _ _ _] => False | .block _ _, _ => True | .loop _ _, _ => True | .ifElse _ _ _, _ => True | _, _ => False) → False := by
    intro a st st' ls' S' i j X e1 e2 g hm
    rw [e1] at e2
    cases e2
    generalize a.stack = S at g
    cases g <;> exact hm
  have noRet : ∀ {a : Act} {st : Store} {i : Instr} {c : Conf} {X : List Admin}, a.place.instr a.func.body = some i →
      (a.place.instr a.func.body = some .ret ∨ a.place.instr a.func.body = none ∧ a.place.outer = none) → Step M ⟨st, a.locals, a.stack⟩ [.plain i] c X → False := by
    intro a st i c X e1 e2 g
    rcases e2 with e2 | ⟨e2, _⟩
    · rw [e1] at e2
      cases e2
      exact not_step_ret g
    · rw [e1] at e2
      cases e2
  have notBack : ∀ {a : Act} {i : Instr}, (a.place.instr a.func.body = some .ret ∨ a.place.instr a.func.body = none ∧ a.place.outer = none) → a.place.instr a.func.body = some i → i ≠ .ret → False := by
    intro a i e1 e2 e3
    rcases e1 with e1 | ⟨e1, _⟩
    · rw [e1] at e2
      cases e2
      exact e3 rfl
    · rw [e1] at e2
      cases e2
  have inBlock : ∀ {a : Act} {q : Place}, a.place.instr a.func.body = none → a.place.outer = some q →
      (a.place.instr a.func.body = some .ret ∨ a.place.instr a.func.body = none ∧ a.place.outer = none) → False := by
    intro a q e1 e2 e3
    rcases e3 with e3 | ⟨_, e3⟩
    · rw [e1] at e3
      cases e3
    · rw [e2] at e3
      cases e3
  have noJump : ∀ {a : Act} {n : Nat} {us : List Value}, (a.place.instr a.func.body = some .ret ∨ a.place.instr a.func.body = none ∧ a.place.outer = none) →
      Jumps (a.place.instr a.func.body) n us a.stack → False := by
    intro a n us e j
    rcases e with e | ⟨e, _⟩ <;> rw [e] at j <;> cases j
  cases h1 with
  | instr e1 g1 =>
    cases h2 with
    | instr e2 g2 => obtain ⟨x1, x2⟩ := both e1 e2 g1 g2; cases x1; rfl
    | trap e2 g2 => obtain ⟨x1, x2⟩ := both e1 e2 g1 g2; cases x2
    | block e2 => exact (enters e1 e2 g1 trivial).elim
    | loop e2 => exact (enters e1 e2 g1 trivial).elim
    | ifThen e2 s2 k2 => exact (enters e1 e2 g1 trivial).elim
    | ifElse e2 s2 k2 => exact (enters e1 e2 g1 trivial).elim
    | fall e2 q2 => rw [e1] at e2; cases e2
    | branch j2 t2 q2 => obtain ⟨l, x⟩ := jump e1 j2 g1; cases x
    | call e2 g2 p2 => obtain ⟨x1, x2⟩ := both e1 e2 g1 g2; cases x2
    | host e2 g2 p2 w2 => obtain ⟨x1, x2⟩ := both e1 e2 g1 g2; cases x2
    | hostTrap e2 g2 p2 w2 => obtain ⟨x1, x2⟩ := both e1 e2 g1 g2; cases x2
    | back e2 p2 => exact (noRet e1 e2 g1).elim
    | last e2 p2 => exact (noRet e1 e2 g1).elim
  | trap e1 g1 =>
    cases h2 with
    | instr e2 g2 => obtain ⟨x1, x2⟩ := both e1 e2 g1 g2; cases x2
    | trap e2 g2 => obtain ⟨x1, x2⟩ := both e1 e2 g1 g2; cases x1; rfl
    | block e2 => exact (enters e1 e2 g1 trivial).elim
    | loop e2 => exact (enters e1 e2 g1 trivial).elim
    | ifThen e2 s2 k2 => exact (enters e1 e2 g1 trivial).elim
    | ifElse e2 s2 k2 => exact (enters e1 e2 g1 trivial).elim
    | fall e2 q2 => rw [e1] at e2; cases e2
    | branch j2 t2 q2 => obtain ⟨l, x⟩ := jump e1 j2 g1; cases x
    | call e2 g2 p2 => obtain ⟨x1, x2⟩ := both e1 e2 g1 g2; cases x2
    | host e2 g2 p2 w2 => obtain ⟨x1, x2⟩ := both e1 e2 g1 g2; cases x2
    | hostTrap e2 g2 p2 w2 => obtain ⟨x1, x2⟩ := both e1 e2 g1 g2; cases x2
    | back e2 p2 => exact (noRet e1 e2 g1).elim
    | last e2 p2 => exact (noRet e1 e2 g1).elim
  | block e1 =>
    cases h2 with
    | instr e2 g2 => exact (enters e2 e1 g2 trivial).elim
    | trap e2 g2 => exact (enters e2 e1 g2 trivial).elim
    | block e2 => rfl
    | loop e2 => rfl
    | ifThen e2 s2 k2 => rw [e1] at e2; cases e2
    | ifElse e2 s2 k2 => rw [e1] at e2; cases e2
    | fall e2 q2 => rw [e1] at e2; cases e2
    | branch j2 t2 q2 => rw [e1] at j2; cases j2
    | call e2 g2 p2 => exact (enters e2 e1 g2 trivial).elim
    | host e2 g2 p2 w2 => exact (enters e2 e1 g2 trivial).elim
    | hostTrap e2 g2 p2 w2 => exact (enters e2 e1 g2 trivial).elim
    | back e2 p2 => exact (notBack e2 e1 (by intro h; cases h)).elim
    | last e2 p2 => exact (notBack e2 e1 (by intro h; cases h)).elim
  | loop e1 =>
    cases h2 with
    | instr e2 g2 => exact (enters e2 e1 g2 trivial).elim
    | trap e2 g2 => exact (enters e2 e1 g2 trivial).elim
    | block e2 => rfl
    | loop e2 => rfl
    | ifThen e2 s2 k2 => rw [e1] at e2; cases e2
    | ifElse e2 s2 k2 => rw [e1] at e2; cases e2
    | fall e2 q2 => rw [e1] at e2; cases e2
    | branch j2 t2 q2 => rw [e1] at j2; cases j2
    | call e2 g2 p2 => exact (enters e2 e1 g2 trivial).elim
    | host e2 g2 p2 w2 => exact (enters e2 e1 g2 trivial).elim
    | hostTrap e2 g2 p2 w2 => exact (enters e2 e1 g2 trivial).elim
    | back e2 p2 => exact (notBack e2 e1 (by intro h; cases h)).elim
    | last e2 p2 => exact (notBack e2 e1 (by intro h; cases h)).elim
  | ifThen e1 s1 k1 =>
    cases h2 with
    | instr e2 g2 => exact (enters e2 e1 g2 trivial).elim
    | trap e2 g2 => exact (enters e2 e1 g2 trivial).elim
    | block e2 => rw [e1] at e2; cases e2
    | loop e2 => rw [e1] at e2; cases e2
    | ifThen e2 s2 k2 => rw [s1] at s2; cases s2; rfl
    | ifElse e2 s2 k2 => rw [s1] at s2; cases s2; exact (k1 k2).elim
    | fall e2 q2 => rw [e1] at e2; cases e2
    | branch j2 t2 q2 => rw [e1] at j2; cases j2
    | call e2 g2 p2 => exact (enters e2 e1 g2 trivial).elim
    | host e2 g2 p2 w2 => exact (enters e2 e1 g2 trivial).elim
    | hostTrap e2 g2 p2 w2 => exact (enters e2 e1 g2 trivial).elim
    | back e2 p2 => exact (notBack e2 e1 (by intro h; cases h)).elim
    | last e2 p2 => exact (notBack e2 e1 (by intro h; cases h)).elim
  | ifElse e1 s1 k1 =>
    cases h2 with
    | instr e2 g2 => exact (enters e2 e1 g2 trivial).elim
    | trap e2 g2 => exact (enters e2 e1 g2 trivial).elim
    | block e2 => rw [e1] at e2; cases e2
    | loop e2 => rw [e1] at e2; cases e2
    | ifThen e2 s2 k2 => rw [s1] at s2; cases s2; exact (k2 k1).elim
    | ifElse e2 s2 k2 => rw [s1] at s2; cases s2; rfl
    | fall e2 q2 => rw [e1] at e2; cases e2
    | branch j2 t2 q2 => rw [e1] at j2; cases j2
    | call e2 g2 p2 => exact (enters e2 e1 g2 trivial).elim
    | host e2 g2 p2 w2 => exact (enters e2 e1 g2 trivial).elim
    | hostTrap e2 g2 p2 w2 => exact (enters e2 e1 g2 trivial).elim
    | back e2 p2 => exact (notBack e2 e1 (by intro h; cases h)).elim
    | last e2 p2 => exact (notBack e2 e1 (by intro h; cases h)).elim
  | fall e1 q1 =>
    cases h2 with
    | instr e2 g2 => rw [e1] at e2; cases e2
    | trap e2 g2 => rw [e1] at e2; cases e2
    | block e2 => rw [e1] at e2; cases e2
    | loop e2 => rw [e1] at e2; cases e2
    | ifThen e2 s2 k2 => rw [e1] at e2; cases e2
    | ifElse e2 s2 k2 => rw [e1] at e2; cases e2
    | fall e2 q2 => rw [q1] at q2; cases q2; rfl
    | branch j2 t2 q2 => rw [e1] at j2; cases j2
    | call e2 g2 p2 => rw [e1] at e2; cases e2
    | host e2 g2 p2 w2 => rw [e1] at e2; cases e2
    | hostTrap e2 g2 p2 w2 => rw [e1] at e2; cases e2
    | back e2 p2 => exact (inBlock e1 q1 e2).elim
    | last e2 p2 => exact (inBlock e1 q1 e2).elim
  | branch j1 t1 q1 =>
    cases h2 with
    | instr e2 g2 => obtain ⟨l, x⟩ := jump e2 j1 g2; cases x
    | trap e2 g2 => obtain ⟨l, x⟩ := jump e2 j1 g2; cases x
    | block e2 => rw [e2] at j1; cases j1
    | loop e2 => rw [e2] at j1; cases j1
    | ifThen e2 s2 k2 => rw [e2] at j1; cases j1
    | ifElse e2 s2 k2 => rw [e2] at j1; cases j1
    | fall e2 q2 => rw [e2] at j1; cases j1
    | branch j2 t2 q2 => obtain ⟨x1, x2⟩ := jumps_unique j1 j2; subst x1; subst x2; rw [t1] at t2; cases t2; rw [q1] at q2; cases q2; rfl
    | call e2 g2 p2 => obtain ⟨l, x⟩ := jump e2 j1 g2; cases x
    | host e2 g2 p2 w2 => obtain ⟨l, x⟩ := jump e2 j1 g2; cases x
    | hostTrap e2 g2 p2 w2 => obtain ⟨l, x⟩ := jump e2 j1 g2; cases x
    | back e2 p2 => exact (noJump e2 j1).elim
    | last e2 p2 => exact (noJump e2 j1).elim
  | call e1 g1 p1 =>
    cases h2 with
    | instr e2 g2 => obtain ⟨x1, x2⟩ := both e1 e2 g1 g2; cases x2
    | trap e2 g2 => obtain ⟨x1, x2⟩ := both e1 e2 g1 g2; cases x2
    | block e2 => exact (enters e1 e2 g1 trivial).elim
    | loop e2 => exact (enters e1 e2 g1 trivial).elim
    | ifThen e2 s2 k2 => exact (enters e1 e2 g1 trivial).elim
    | ifElse e2 s2 k2 => exact (enters e1 e2 g1 trivial).elim
    | fall e2 q2 => rw [e1] at e2; cases e2
    | branch j2 t2 q2 => obtain ⟨l, x⟩ := jump e1 j2 g1; cases x
    | call e2 g2 p2 => obtain ⟨x1, x2⟩ := both e1 e2 g1 g2; cases x2; cases x1; rw [p1] at p2; cases p2; rfl
    | host e2 g2 p2 w2 => obtain ⟨x1, x2⟩ := both e1 e2 g1 g2; cases x2
    | hostTrap e2 g2 p2 w2 => obtain ⟨x1, x2⟩ := both e1 e2 g1 g2; cases x2
    | back e2 p2 => exact (noRet e1 e2 g1).elim
    | last e2 p2 => exact (noRet e1 e2 g1).elim
  | host e1 g1 p1 w1 =>
    cases h2 with
    | instr e2 g2 => obtain ⟨x1, x2⟩ := both e1 e2 g1 g2; cases x2
    | trap e2 g2 => obtain ⟨x1, x2⟩ := both e1 e2 g1 g2; cases x2
    | block e2 => exact (enters e1 e2 g1 trivial).elim
    | loop e2 => exact (enters e1 e2 g1 trivial).elim
    | ifThen e2 s2 k2 => exact (enters e1 e2 g1 trivial).elim
    | ifElse e2 s2 k2 => exact (enters e1 e2 g1 trivial).elim
    | fall e2 q2 => rw [e1] at e2; cases e2
    | branch j2 t2 q2 => obtain ⟨l, x⟩ := jump e1 j2 g1; cases x
    | call e2 g2 p2 => obtain ⟨x1, x2⟩ := both e1 e2 g1 g2; cases x2
    | host e2 g2 p2 w2 => obtain ⟨x1, x2⟩ := both e1 e2 g1 g2; cases x2; cases x1; rw [p1] at p2; cases p2; rw [w1] at w2; cases w2; rfl
    | hostTrap e2 g2 p2 w2 => obtain ⟨x1, x2⟩ := both e1 e2 g1 g2; cases x2; cases x1; rw [p1] at p2; cases p2; rw [w1] at w2; cases w2
    | back e2 p2 => exact (noRet e1 e2 g1).elim
    | last e2 p2 => exact (noRet e1 e2 g1).elim
  | hostTrap e1 g1 p1 w1 =>
    cases h2 with
    | instr e2 g2 => obtain ⟨x1, x2⟩ := both e1 e2 g1 g2; cases x2
    | trap e2 g2 => obtain ⟨x1, x2⟩ := both e1 e2 g1 g2; cases x2
    | block e2 => exact (enters e1 e2 g1 trivial).elim
    | loop e2 => exact (enters e1 e2 g1 trivial).elim
    | ifThen e2 s2 k2 => exact (enters e1 e2 g1 trivial).elim
    | ifElse e2 s2 k2 => exact (enters e1 e2 g1 trivial).elim
    | fall e2 q2 => rw [e1] at e2; cases e2
    | branch j2 t2 q2 => obtain ⟨l, x⟩ := jump e1 j2 g1; cases x
    | call e2 g2 p2 => obtain ⟨x1, x2⟩ := both e1 e2 g1 g2; cases x2
    | host e2 g2 p2 w2 => obtain ⟨x1, x2⟩ := both e1 e2 g1 g2; cases x2; cases x1; rw [p1] at p2; cases p2; rw [w1] at w2; cases w2
    | hostTrap e2 g2 p2 w2 => obtain ⟨x1, x2⟩ := both e1 e2 g1 g2; cases x2; cases x1; rw [p1] at p2; cases p2; rw [w1] at w2; cases w2; rfl
    | back e2 p2 => exact (noRet e1 e2 g1).elim
    | last e2 p2 => exact (noRet e1 e2 g1).elim
  | back e1 p1 =>
    cases h2 with
    | instr e2 g2 => exact (noRet e2 e1 g2).elim
    | trap e2 g2 => exact (noRet e2 e1 g2).elim
    | block e2 => exact (notBack e1 e2 (by intro h; cases h)).elim
    | loop e2 => exact (notBack e1 e2 (by intro h; cases h)).elim
    | ifThen e2 s2 k2 => exact (notBack e1 e2 (by intro h; cases h)).elim
    | ifElse e2 s2 k2 => exact (notBack e1 e2 (by intro h; cases h)).elim
    | fall e2 q2 => exact (inBlock e2 q2 e1).elim
    | branch j2 t2 q2 => exact (noJump e1 j2).elim
    | call e2 g2 p2 => exact (noRet e2 e1 g2).elim
    | host e2 g2 p2 w2 => exact (noRet e2 e1 g2).elim
    | hostTrap e2 g2 p2 w2 => exact (noRet e2 e1 g2).elim
    | back e2 p2 => rw [p1] at p2; cases p2; rfl
  | last e1 p1 =>
    cases h2 with
    | instr e2 g2 => exact (noRet e2 e1 g2).elim
    | trap e2 g2 => exact (noRet e2 e1 g2).elim
    | block e2 => exact (notBack e1 e2 (by intro h; cases h)).elim
    | loop e2 => exact (notBack e1 e2 (by intro h; cases h)).elim
    | ifThen e2 s2 k2 => exact (notBack e1 e2 (by intro h; cases h)).elim
    | ifElse e2 s2 k2 => exact (notBack e1 e2 (by intro h; cases h)).elim
    | fall e2 q2 => exact (inBlock e2 q2 e1).elim
    | branch j2 t2 q2 => exact (noJump e1 j2).elim
    | call e2 g2 p2 => exact (noRet e2 e1 g2).elim
    | host e2 g2 p2 w2 => exact (noRet e2 e1 g2).elim
    | hostTrap e2 g2 p2 w2 => exact (noRet e2 e1 g2).elim
    | last e2 p2 => rw [p1] at p2; cases p2; rfl

end Whasm.Run
