import Verif.Lemmas.Native
import Verif.Lemmas.Prefix
import Verif.Lemmas.Validity
import Verif.Spec.Deep

/-!
# Which modules exhaust the native stack in validation

For `Props/Deep.lean`.
-/

namespace Whasm
open Spec Run

theorem bindV_assoc {α β γ : Type} (p : V α) (f : α → V β) (g : β → V γ) : (p >>= f) >>= g = p >>= fun x => f x >>= g := by
  funext c
  show V.bind (V.bind p f) g c = V.bind p (fun x => V.bind (f x) g) c
  unfold V.bind
  cases p c with
  | error e => rfl
  | ok z => rfl

theorem errV {α β : Type} {p : V α} {f : α → V β} {c : Ctx} {e : VErr} (h : (p >>= f) c = .error e) :
    p c = .error e ∨ ∃ x c', p c = .ok (x, c') ∧ f x c' = .error e := by
  cases hp : p c with
  | error e' => rw [bind_err hp] at h; cases h; exact .inl rfl
  | ok z => obtain ⟨x, c'⟩ := z; rw [bind_ok hp] at h; exact .inr ⟨x, c', rfl, h⟩

theorem okV {α β : Type} {p : V α} {f : α → V β} {c y : Ctx} {b : β} (h : (p >>= f) c = .ok (b, y)) : ∃ x c', p c = .ok (x, c') ∧ f x c' = .ok (b, y) := by
  cases hp : p c with
  | error e => rw [bind_err hp] at h; cases h
  | ok z => obtain ⟨x, c'⟩ := z; rw [bind_ok hp] at h; exact ⟨x, c', rfl, h⟩

/-- Aborted, or the same as with an unlimited stack. -/
theorem exprOn_cases (e : List Instr) (k : Nat) (c : Ctx) : validateExprOn e k c = .error .panic ∨ validateExprOn e k c = validateExpr e c := by
  by_cases h : depthL e ≤ k
  · exact .inr (by rw [(limV_list e k).1 h])
  · rcases (limV_list e k).2 h c with h1 | ⟨h1, _⟩
    · exact .inl h1
    · exact .inr h1

theorem instrOn_cases (i : Instr) (k : Nat) (c : Ctx) : validateInstrOn i k c = .error .panic ∨ validateInstrOn i k c = validateInstr i c := by
  by_cases h : depthI i ≤ k
  · exact .inr (by rw [(limV_instr i k).1 h])
  · rcases (limV_instr i k).2 h c with h1 | ⟨h1, _⟩
    · exact .inl h1
    · exact .inr h1

theorem exprOn_append (k : Nat) : ∀ a b : List Instr, validateExprOn (a ++ b) k = validateExprOn a k >>= fun _ => validateExprOn b k
  | [], b => rfl
  | i :: a, b => by
    show (validateInstrOn i k >>= fun _ => validateExprOn (a ++ b) k) = _
    rw [exprOn_append k a b]
    exact (bindV_assoc ..).symm

/-- If `arrive` gets to a place that is too deep, validation is aborted. -/
theorem abort_of_arrive : ∀ (p : Place) (e : List Instr) (k : Nat) (c y : Ctx), k < p.depth → arrive p e c = .ok ((), y) → validateExprOn e k c = .error .panic
  | .here n, _, k, _, _, hk, _ => absurd hk (Nat.not_lt_zero k)
  | .inside n p, e, k, c, y, hk, h => by
    have hk' : k < p.depth + 1 := hk
    have key : ∀ (i : Instr), e[n]? = some i → ∀ c1, validateExpr (e.take n) c = .ok ((), c1) → validateInstrOn i k c1 = .error .panic → validateExprOn e k c = .error .panic := by
      intro i hi c1 h1 h2
      have he : e = e.take n ++ (i :: e.drop (n + 1)) := by
        obtain ⟨hn, rfl⟩ := List.getElem?_eq_some_iff.mp hi
        rw [List.getElem_cons_drop, List.take_append_drop]
      rw [he, exprOn_append]
      rcases exprOn_cases (e.take n) k c with h3 | h3
      · exact bind_err h3
      · rw [bind_ok (h3.trans h1)]
        exact bind_err h2
    have inner : ∀ (b : List Instr) (c1 : Ctx), arrive p b c1 = .ok ((), y) → nestedV k (validateExprOn b) c1 = .error .panic := by
      intro b c1 h1
      cases k with
      | zero => rfl
      | succ k => exact abort_of_arrive p b k c1 y (by omega) h1
    rcases hi : e[n]? with _ | i
    · simp only [arrive, hi] at h
      cases h
    cases i with
    | block r b =>
      simp only [arrive, hi] at h
      obtain ⟨_, c1, h1, h⟩ := okV h
      obtain ⟨ret, c2, h2, h⟩ := okV h
      obtain ⟨_, c3, h3, h⟩ := okV h
      refine key _ hi c1 h1 ?_
      unfold validateInstrOn
      rw [bind_ok h2, bind_ok h3]
      exact bind_err (inner b c3 h)
    | loop r b =>
      simp only [arrive, hi] at h
      obtain ⟨_, c1, h1, h⟩ := okV h
      obtain ⟨ret, c2, h2, h⟩ := okV h
      obtain ⟨_, c3, h3, h⟩ := okV h
      refine key _ hi c1 h1 ?_
      unfold validateInstrOn
      rw [bind_ok h2, bind_ok h3]
      exact bind_err (inner b c3 h)
    | ifElse r a b =>
      simp only [arrive, hi] at h
      obtain ⟨_, c1, h1, h⟩ := okV h
      obtain ⟨ret, c2, h2, h⟩ := okV h
      obtain ⟨_, c3, h3, h⟩ := okV h
      obtain ⟨_, c4, h4, h⟩ := okV h
      refine key _ hi c1 h1 ?_
      unfold validateInstrOn
      rw [bind_ok h2, bind_ok h3, bind_ok h4]
      exact bind_err (inner a c4 h)
    | _ =>
      simp only [arrive, hi] at h
      cases h
  | .inElse n p, e, k, c, y, hk, h => by
    have hk' : k < p.depth + 1 := hk
    rcases hi : e[n]? with _ | i
    · simp only [arrive, hi] at h
      cases h
    cases i with
    | ifElse r a b =>
      simp only [arrive, hi] at h
      obtain ⟨_, c1, h1, h⟩ := okV h
      obtain ⟨ret, c2, h2, h⟩ := okV h
      obtain ⟨_, c3, h3, h⟩ := okV h
      obtain ⟨_, c4, h4, h⟩ := okV h
      obtain ⟨_, c5, h5, h⟩ := okV h
      obtain ⟨_, c6, h6, h⟩ := okV h
      have he : e = e.take n ++ (.ifElse r a b :: e.drop (n + 1)) := by
        obtain ⟨hn, h⟩ := List.getElem?_eq_some_iff.mp hi
        rw [← h, List.getElem_cons_drop, List.take_append_drop]
      rw [he, exprOn_append]
      rcases exprOn_cases (e.take n) k c with h' | h'
      · exact bind_err h'
      · rw [bind_ok (h'.trans h1)]
        refine bind_err ?_
        unfold validateInstrOn
        rw [bind_ok h2, bind_ok h3, bind_ok h4]
        cases k with
        | zero => rfl
        | succ k =>
          show (validateExprOn a k >>= _) c4 = _
          rcases exprOn_cases a k c4 with h' | h'
          · exact bind_err h'
          · rw [bind_ok (h'.trans h5), bind_ok h6]
            exact bind_err (abort_of_arrive p b k c6 y (by omega) h)
    | _ =>
      simp only [arrive, hi] at h
      cases h

/-- The place in the rest of the code, seen from one instruction before. -/
def later : Place → Place
  | .here n => .here (n + 1)
  | .inside n p => .inside (n + 1) p
  | .inElse n p => .inElse (n + 1) p

theorem depth_later (p : Place) : (later p).depth = p.depth := by cases p <;> rfl

theorem same_later {p : Place} {a b : List Instr} (i : Instr) (h : SameBefore p a b) : SameBefore (later p) (i :: a) (i :: b) := by
  cases h with
  | here pre a b => exact .here (i :: pre) a b
  | block pre a b r h => exact .block (i :: pre) a b r h
  | loop pre a b r h => exact .loop (i :: pre) a b r h
  | ifThen pre a b r e e' h => exact .ifThen (i :: pre) a b r e e' h
  | ifElse pre a b r t h => exact .ifElse (i :: pre) a b r t h

theorem arrive_later (p : Place) (i : Instr) (e : List Instr) {c c' : Ctx} (h : validateInstr i c = .ok ((), c')) : arrive (later p) (i :: e) c = arrive p e c' := by
  have key : ∀ {α : Type} (f : Unit → V α) (n : Nat), (validateExpr ((i :: e).take (n + 1)) >>= f) c = (validateExpr (e.take n) >>= f) c' := by
    intro α f n
    show ((validateInstr i >>= fun _ => validateExpr (e.take n)) >>= f) c = _
    rw [bindV_assoc, bind_ok h]
  cases p with
  | here n =>
    show (validateInstr i >>= fun _ => validateExpr (e.take n)) c = _
    rw [bind_ok h]
    rfl
  | inside n p =>
    simp only [later, arrive, List.getElem?_cons_succ]
    cases e[n]? with
    | none => rfl
    | some j => cases j <;> first | exact key _ n | rfl
  | inElse n p =>
    simp only [later, arrive, List.getElem?_cons_succ]
    cases e[n]? with
    | none => rfl
    | some j => cases j <;> first | exact key _ n | rfl

theorem depthL_mid : ∀ (pre : List Instr) (i : Instr) (a : List Instr), depthI i ≤ depthL (pre ++ i :: a)
  | [], i, a => by simp only [List.nil_append, depthL]; omega
  | j :: pre, i, a => by
    have := depthL_mid pre i a
    simp only [List.cons_append, depthL]
    omega

theorem depth_le {p : Place} {a b : List Instr} (h : SameBefore p a b) : p.depth ≤ depthL a := by
  induction h with
  | here => exact Nat.zero_le _
  | block pre a b r h ih => exact Nat.le_trans (by simp only [Place.depth, depthI]; omega) (depthL_mid ..)
  | loop pre a b r h ih => exact Nat.le_trans (by simp only [Place.depth, depthI]; omega) (depthL_mid ..)
  | ifThen pre a b r e e' h ih => exact Nat.le_trans (by simp only [Place.depth, depthI]; omega) (depthL_mid ..)
  | ifElse pre a b r t h ih => exact Nat.le_trans (by simp only [Place.depth, depthI]; omega) (depthL_mid ..)

/-- Where validation is when it is aborted. -/
def DeepCode (k : Nat) (e : List Instr) (c : Ctx) : Prop := ∃ p y, SameBefore p e e ∧ k < p.depth ∧ arrive p e c = .ok ((), y)

theorem same_here (e : List Instr) : SameBefore (.here 0) e e := .here [] e e

mutual

theorem deep_instr : ∀ (i : Instr) (is : List Instr) (k : Nat) (c : Ctx), validateInstrOn i k c = .error .panic → validateInstr i c ≠ .error .panic → DeepCode k (i :: is) c
  | .block r b, is, k, c, h, hn => by
    unfold validateInstrOn at h
    unfold validateInstr at hn
    rcases errV h with h1 | ⟨ret, c1, h1, h⟩
    · exact absurd (bind_err h1) hn
    rw [bind_ok h1] at hn
    rcases errV h with h2 | ⟨_, c2, h2, h⟩
    · exact absurd (bind_err h2) hn
    rw [bind_ok h2] at hn
    rcases deep_nested b k c2 h hn with rfl | ⟨p, y, h3, h4, h5⟩
    · exact ⟨.inside 0 (.here 0), c2, .block [] is is r (same_here b), Nat.zero_lt_one, by
        show (validateExpr [] >>= _) c = _
        rw [bind_ok (x := ()) (c' := c) rfl, bind_ok h1, bind_ok h2]; rfl⟩
    · exact ⟨.inside 0 p, y, .block [] is is r h3, h4, by
        show (validateExpr [] >>= _) c = _
        rw [bind_ok (x := ()) (c' := c) rfl, bind_ok h1, bind_ok h2]; exact h5⟩
  | .loop r b, is, k, c, h, hn => by
    unfold validateInstrOn at h
    unfold validateInstr at hn
    rcases errV h with h1 | ⟨ret, c1, h1, h⟩
    · exact absurd (bind_err h1) hn
    rw [bind_ok h1] at hn
    rcases errV h with h2 | ⟨_, c2, h2, h⟩
    · exact absurd (bind_err h2) hn
    rw [bind_ok h2] at hn
    rcases deep_nested b k c2 h hn with rfl | ⟨p, y, h3, h4, h5⟩
    · exact ⟨.inside 0 (.here 0), c2, .loop [] is is r (same_here b), Nat.zero_lt_one, by
        show (validateExpr [] >>= _) c = _
        rw [bind_ok (x := ()) (c' := c) rfl, bind_ok h1, bind_ok h2]; rfl⟩
    · exact ⟨.inside 0 p, y, .loop [] is is r h3, h4, by
        show (validateExpr [] >>= _) c = _
        rw [bind_ok (x := ()) (c' := c) rfl, bind_ok h1, bind_ok h2]; exact h5⟩
  | .ifElse r a b, is, k, c, h, hn => by
    unfold validateInstrOn at h
    unfold validateInstr at hn
    rcases errV h with h1 | ⟨ret, c1, h1, h⟩
    · exact absurd (bind_err h1) hn
    rw [bind_ok h1] at hn
    rcases errV h with h2 | ⟨_, c2, h2, h⟩
    · exact absurd (bind_err h2) hn
    rw [bind_ok h2] at hn
    rcases errV h with h3 | ⟨_, c3, h3, h⟩
    · exact absurd (bind_err h3) hn
    rw [bind_ok h3] at hn
    have start : ∀ p, arrive (.inside 0 p) (.ifElse r a b :: is) c = arrive p a c3 := by
      intro p
      show (validateExpr [] >>= _) c = _
      rw [bind_ok (x := ()) (c' := c) rfl, bind_ok h1, bind_ok h2, bind_ok h3]
    by_cases ha : nestedV k (validateExprOn a) c3 = .error .panic
    · have hna : validateExpr a c3 ≠ .error .panic := fun h => hn (bind_err h)
      cases k with
      | zero => exact ⟨.inside 0 (.here 0), c3, .ifThen [] is is r b b (same_here a), Nat.zero_lt_one, by rw [start]; rfl⟩
      | succ k =>
        obtain ⟨p, y, h4, h5, h6⟩ := deep_list a k c3 ha hna
        exact ⟨.inside 0 p, y, .ifThen [] is is r b b h4, Nat.succ_lt_succ h5, by rw [start]; exact h6⟩
    · cases k with
      | zero => exact absurd rfl ha
      | succ k =>
        have ha' : validateExprOn a k c3 = validateExpr a c3 := (exprOn_cases a k c3).resolve_left ha
        rcases errV h with h4 | ⟨_, c4, h4, h⟩
        · exact absurd h4 ha
        have h4' : validateExpr a c3 = .ok ((), c4) := ha'.symm.trans h4
        rw [bind_ok h4'] at hn
        rcases errV h with h5 | ⟨_, c5, h5, h⟩
        · exact absurd (bind_err h5) hn
        rw [bind_ok h5] at hn
        have start : ∀ p, arrive (.inElse 0 p) (.ifElse r a b :: is) c = arrive p b c5 := by
          intro p
          show (validateExpr [] >>= _) c = _
          rw [bind_ok (x := ()) (c' := c) rfl, bind_ok h1, bind_ok h2, bind_ok h3, bind_ok h4', bind_ok h5]
        rcases deep_nested b (k + 1) c5 h hn with h6 | ⟨p, y, h6, h7, h8⟩
        · cases h6
        · exact ⟨.inElse 0 p, y, .ifElse [] is is r a h6, h7, by rw [start]; exact h8⟩
  | .unreachable, _, k, c, h, hn | .nop, _, k, c, h, hn | .elseMark, _, k, c, h, hn | .endMark, _, k, c, h, hn | .br _, _, k, c, h, hn | .brIf _, _, k, c, h, hn
  | .brTable _ _, _, k, c, h, hn | .ret, _, k, c, h, hn | .call _, _, k, c, h, hn | .callIndirect _ _, _, k, c, h, hn | .drop, _, k, c, h, hn | .select, _, k, c, h, hn
  | .localGet _, _, k, c, h, hn | .localSet _, _, k, c, h, hn | .localTee _, _, k, c, h, hn | .globalGet _, _, k, c, h, hn | .globalSet _, _, k, c, h, hn
  | .load _ _ _, _, k, c, h, hn | .store _ _ _, _, k, c, h, hn | .memSize _, _, k, c, h, hn | .memGrow _, _, k, c, h, hn | .constI32 _, _, k, c, h, hn
  | .constI64 _, _, k, c, h, hn | .constF32 _, _, k, c, h, hn | .constF64 _, _, k, c, h, hn | .num _, _, k, c, h, hn => absurd h hn

/-- The body of a block, and what comes behind it. -/
theorem deep_nested (b : List Instr) (k : Nat) (c : Ctx) {f : Unit → V Unit} (h : (nestedV k (validateExprOn b) >>= f) c = .error .panic)
    (hn : (validateExpr b >>= f) c ≠ .error .panic) : k = 0 ∨ ∃ p y, SameBefore p b b ∧ k < p.depth + 1 ∧ arrive p b c = .ok ((), y) := by
  cases k with
  | zero => exact .inl rfl
  | succ k =>
    right
    have hb : validateExprOn b k c = .error .panic := by
      refine Classical.byContradiction fun hb => hn ?_
      have hs : nestedV (k + 1) (validateExprOn b) c = validateExpr b c := (exprOn_cases b k c).resolve_left hb
      rw [← h]
      show V.bind _ _ c = V.bind _ _ c
      unfold V.bind
      rw [hs]
    obtain ⟨p, y, h1, h2, h3⟩ := deep_list b k c hb fun h => hn (bind_err h)
    exact ⟨p, y, h1, Nat.succ_lt_succ h2, h3⟩

theorem deep_list : ∀ (e : List Instr) (k : Nat) (c : Ctx), validateExprOn e k c = .error .panic → validateExpr e c ≠ .error .panic → DeepCode k e c
  | [], _, _, h, _ => by cases h
  | i :: is, k, c, h, hn => by
    have h' : (validateInstrOn i k >>= fun _ => validateExprOn is k) c = .error .panic := h
    have hn' : (validateInstr i >>= fun _ => validateExpr is) c ≠ .error .panic := hn
    rcases errV h' with h1 | ⟨_, c', h1, h2⟩
    · exact deep_instr i is k c h1 fun h => hn' (bind_err h)
    · have h1' : validateInstr i c = .ok ((), c') := by
        rcases instrOn_cases i k c with h3 | h3
        · rw [h1] at h3; cases h3
        · rw [← h3]; exact h1
      rw [bind_ok h1'] at hn'
      obtain ⟨p, y, h3, h4, h5⟩ := deep_list is k c' h2 hn'
      exact ⟨later p, y, same_later i h3, by rw [depth_later]; exact h4, by rw [arrive_later p i is h1']; exact h5⟩

end

/-- Expressions, in any context in which validation with an unlimited stack does not panic. -/
theorem exprOn_panic {e : List Instr} {k : Nat} {c : Ctx} (hn : validateExpr e c ≠ .error .panic) : validateExprOn e k c = .error .panic ↔ DeepCode k e c :=
  ⟨fun h => deep_list e k c h hn, fun ⟨p, y, _, h1, h2⟩ => abort_of_arrive p e k c y h1 h2⟩

theorem func_ok_or_invalid (m : Module) (f : Func) : validateFunc f (ctxOf m) ≠ .error .panic := by
  rcases func_total (clean_ctxOf m) f with ⟨t, _, _, h⟩ | h <;> rw [h] <;> exact fun h => by cases h

theorem funcOn_cases (k : Nat) (f : Func) (c : Ctx) : validateFuncOn k f c = .error .panic ∨ validateFuncOn k f c = validateFunc f c := by
  by_cases h : depthL f.body ≤ k
  · exact .inr (by rw [(limV_func k f).1 h])
  · rcases (limV_func k f).2 h c with h1 | ⟨h1, _⟩
    · exact .inl h1
    · exact .inr h1

/-- Where validation is in a function when it is aborted. -/
def DeepFunc (m : Module) (k : Nat) (f : Func) : Prop := ∃ p y, SameBefore p f.body f.body ∧ k < p.depth ∧ arriveFunc f p (ctxOf m) = .ok ((), y)

theorem funcOn_panic {m : Module} {k : Nat} {f : Func} : validateFuncOn k f (ctxOf m) = .error .panic ↔ DeepFunc m k f := by
  have hn := func_ok_or_invalid m f
  unfold validateFunc at hn
  cases ht : validateTypeIdx f.ty (ctxOf m) with
  | error e =>
    have h1 : validateFuncOn k f (ctxOf m) = .error e := bind_err ht
    constructor
    · intro h
      rw [h1] at h
      cases h
      exact absurd (bind_err ht) hn
    · rintro ⟨p, y, _, _, h⟩
      have h2 : arriveFunc f p (ctxOf m) = .error e := bind_err ht
      rw [h2] at h
      cases h
  | ok z =>
    obtain ⟨t, c⟩ := z
    let c' : Ctx := { c with ret := some t.results, locals := t.params ++ f.locals, frames := ⟨t.results, t.results, c.operands.length, false⟩ :: c.frames }
    rw [bind_ok ht] at hn
    have hn' : (validateExpr f.body >>= _) c' ≠ .error .panic := hn
    have h1 : validateFuncOn k f (ctxOf m) = (validateExprOn f.body k >>= _) c' := bind_ok ht
    have h2 : ∀ p, arriveFunc f p (ctxOf m) = arrive p f.body c' := fun p => bind_ok ht
    have hb : validateExpr f.body c' ≠ .error .panic := fun h => hn' (bind_err h)
    constructor
    · intro h
      refine (show DeepCode k f.body c' from (exprOn_panic hb).mp ?_).elim fun p ⟨y, h3, h4, h5⟩ => ⟨p, y, h3, h4, (h2 p).trans h5⟩
      refine Classical.byContradiction fun hc => hn' ?_
      have hs := (exprOn_cases f.body k c').resolve_left hc
      rw [← h, h1]
      show V.bind _ _ c' = V.bind _ _ c'
      unfold V.bind
      rw [hs]
    · rintro ⟨p, y, h3, h4, h5⟩
      rw [h1]
      exact bind_err ((exprOn_panic hb).mpr ⟨p, y, h3, h4, (h2 p).symm.trans h5⟩)

theorem funcsOn_panic {m : Module} {k : Nat} : ∀ fs : List Func, forEach (fun f => do let _ ← validateFuncOn k f; pure ()) fs (ctxOf m) = .error .panic ↔
    ∃ before f after, fs = before ++ f :: after ∧ (∀ g ∈ before, Accepted m g) ∧ DeepFunc m k f
  | [] => by
    constructor
    · intro h; cases h
    · rintro ⟨before, f, after, h, _⟩
      cases before <;> cases h
  | g :: fs => by
    have step : forEach (fun f => do let _ ← validateFuncOn k f; pure ()) (g :: fs) (ctxOf m) =
        ((do let _ ← validateFuncOn k g; pure ()) >>= fun _ => forEach (fun f => do let _ ← validateFuncOn k f; pure ()) fs) (ctxOf m) := rfl
    rw [step]
    by_cases hg : validateFuncOn k g (ctxOf m) = .error .panic
    · exact ⟨fun _ => ⟨[], g, fs, rfl, fun _ h => by (cases h), funcOn_panic.mp hg⟩, fun _ => bind_err (bind_err hg)⟩
    · have hs := (funcOn_cases k g (ctxOf m)).resolve_left hg
      rcases func_total (clean_ctxOf m) g with ⟨t, _, _, h⟩ | h
      · rw [bind_ok (x := ()) (c' := ctxOf m) (bind_ok (hs.trans h)), funcsOn_panic fs]
        constructor
        · rintro ⟨before, f, after, rfl, h1, h2⟩
          exact ⟨g :: before, f, after, rfl, List.forall_mem_cons.mpr ⟨⟨t, h⟩, h1⟩, h2⟩
        · rintro ⟨before, f, after, h1, h2, h3⟩
          cases before with
          | nil => cases h1; exact absurd (funcOn_panic.mpr h3) hg
          | cons x before => cases h1; exact ⟨before, f, after, rfl, fun y hy => h2 y (List.mem_cons_of_mem _ hy), h3⟩
      · rw [bind_err (bind_err (hs.trans h))]
        constructor
        · intro h; cases h
        · rintro ⟨before, f, after, h1, h2, h3⟩
          cases before with
          | nil => cases h1; exact absurd (funcOn_panic.mpr h3) hg
          | cons x before =>
            cases h1
            obtain ⟨t, h4⟩ := h2 g List.mem_cons_self
            rw [h] at h4
            cases h4

theorem validate_no_panic (m : Module) : validateModule m ≠ .error .panic := by
  obtain ⟨h1, h2⟩ := validate_any m
  by_cases h : DeclsOk .code m ∧ ∀ f ∈ m.funcs, Accepted m f
  · rw [h1 h]; exact fun h => by cases h
  · rw [h2 h]; exact fun h => by cases h

/-- Modules, with or without instructions `Else` and `End`. -/
theorem moduleOn_panic {m : Module} {k : Nat} : validateModuleOn k m = .error .panic ↔ TypesIn m ∧ (∀ t ∈ m.types, t.results.length ≤ 1) ∧
    ∃ before f after, m.funcs = before ++ f :: after ∧ (∀ g ∈ before, Accepted m g) ∧ DeepFunc m k f := by
  obtain ⟨c1, c2⟩ := contextFrom_eq m
  have ht : Checks (forEach validateFuncTy m.types) (ctxOf m) (∀ t ∈ m.types, t.results.length ≤ 1) := checks_forEach fun t _ => checks_if.congr (by simp)
  rw [← funcsOn_panic]
  constructor
  · intro h
    have hi : TypesIn m := by
      refine Classical.byContradiction fun hi => ?_
      unfold validateModuleOn at h
      rw [bind_err (c2 hi)] at h
      cases h
    have htt : ∀ t ∈ m.types, t.results.length ≤ 1 := by
      refine Classical.byContradiction fun hn => ?_
      unfold validateModuleOn at h
      rw [bind_ok (c1 hi), show validateModuleBodyOn k m (ctxOf m) = .error .invalid from bind_err (ht.2 hn)] at h
      cases h
    refine ⟨hi, htt, Classical.byContradiction fun hf => validate_no_panic m ?_⟩
    have hl : LimV (forEach (fun f => do let _ ← validateFuncOn k f; pure ()) m.funcs) (forEach (fun f => do let _ ← validateFunc f; pure ()) m.funcs) _ :=
      limV_forEach (fun f => (limV_func k f).before) m.funcs
    have hs : forEach (fun f => do let _ ← validateFuncOn k f; pure ()) m.funcs (ctxOf m) = forEach (fun f => do let _ ← validateFunc f; pure ()) m.funcs (ctxOf m) := by
      by_cases hb : ∀ f ∈ m.funcs, depthL f.body ≤ k
      · rw [hl.1 hb]
      · exact ((hl.2 hb (ctxOf m)).resolve_left hf).1
    rw [← h]
    unfold validateModuleOn validateModule
    rw [bind_ok (c1 hi), bind_ok (c1 hi)]
    have hb : validateModuleBody m (ctxOf m) = validateModuleBodyOn k m (ctxOf m) := by
      refine (bind_ok (ht.1 htt)).trans (Eq.trans ?_ (bind_ok (ht.1 htt)).symm)
      show V.bind _ _ _ = V.bind _ _ _
      unfold V.bind
      rw [hs]
      rfl
    rw [hb]
    rfl
  · rintro ⟨hi, htt, h⟩
    unfold validateModuleOn
    rw [bind_ok (c1 hi), show validateModuleBodyOn k m (ctxOf m) = .error .panic from (bind_ok (ht.1 htt)).trans (bind_err h)]

/-- Validation gets to a place in a body if there is a valid body that begins in the same way. -/
theorem arriveFunc_iff {m : Module} {f : Func} (hb : plainL f.body) {p : Place} (hp : SameBefore p f.body f.body) :
    (∃ y, arriveFunc f p (ctxOf m) = .ok ((), y)) ↔ ∃ b', SameBefore p f.body b' ∧ FuncOk .code m { f with body := b' } := by
  cases ht : m.types[f.ty.toNat]? with
  | none =>
    constructor
    · rintro ⟨y, hy⟩
      have hl : validateTypeIdx f.ty (ctxOf m) = .error .invalid := by
        show lookup m.types f.ty (ctxOf m) = _
        unfold lookup
        rw [if_pos (List.getElem?_eq_none_iff.mp ht)]
      have h1 : arriveFunc f p (ctxOf m) = .error .invalid := bind_err hl
      rw [h1] at hy
      cases hy
    · rintro ⟨b', _, t, h, _⟩
      have h' : m.types[f.ty.toNat]? = some t := h
      rw [ht] at h'
      cases h'
  | some t =>
    let x : Ctx := { ctxOf m with ret := some t.results, locals := t.params ++ f.locals }
    have start : arriveFunc f p (ctxOf m) = arrive p f.body (mk x [] t.results t.results [] ([], false)) := by
      have hl : validateTypeIdx f.ty (ctxOf m) = .ok (t, ctxOf m) := by
        show lookup m.types f.ty (ctxOf m) = _
        unfold lookup
        rw [ht, if_neg (Nat.not_le_of_lt (List.getElem?_eq_some_iff.mp ht).1)]
      unfold arriveFunc
      rw [bind_ok hl]
      rfl
    constructor
    · rintro ⟨y, hy⟩
      rw [start] at hy
      obtain ⟨e, h1, h2, h3⟩ := complete_of_arrive (x := x) hp hb
      refine ⟨e, h1, t, ht, (eval_iff (C := bodyEnv .code m t f.locals) rfl).mp ?_⟩
      have h4 : evalExpr (bodyEnv .code m t f.locals) e ([], false) = some ([], true) := h3 hy
      rw [h4]
      exact endL_poly _
    · rintro ⟨b', h1, t', h2, h3⟩
      have h2' : m.types[f.ty.toNat]? = some t' := h2
      obtain rfl : t = t' := Option.some.inj (ht.symm.trans h2')
      obtain ⟨s, hs, _⟩ := complete_expr (C := envOf x []) h3 (s := ([], false)) (r := []) (.inr rfl)
      rw [start, arrive_same h1]
      exact arrive_of_eval (same_symm h1) (base := []) (l := t.results) (o := t.results) (rest := []) (hasTypes_plain h3) hs

theorem deepFunc_iff {m : Module} {k : Nat} {f : Func} (hb : plainL f.body) : DeepFunc m k f ↔ GetsDeep m k f := by
  constructor
  · rintro ⟨p, y, h1, h2, h3⟩
    obtain ⟨b', h4, h5⟩ := (arriveFunc_iff hb h1).mp ⟨y, h3⟩
    exact ⟨p, b', h2, h4, h5⟩
  · rintro ⟨p, b', h1, h2, h3⟩
    obtain ⟨y, h4⟩ := (arriveFunc_iff hb (same_left h2)).mpr ⟨b', h2, h3⟩
    exact ⟨p, y, same_left h2, h1, h4⟩

theorem tooDeep_iff {m : Module} {k : Nat} (hp : Plain m) : validateModuleOn k m = .error .panic ↔ TooDeep k m := by
  rw [moduleOn_panic]
  constructor
  · rintro ⟨⟨h1, h2⟩, h3, before, f, after, h4, h5, h6⟩
    have hm : ∀ g, g ∈ before ++ f :: after → plainL g.body := fun g hg => hp g (h4 ▸ hg)
    exact ⟨h1, h2, h3, before, f, after, h4, fun g hg => (accepted_iff m (hm g (List.mem_append_left _ hg))).mp (h5 g hg),
      (deepFunc_iff (hm f (List.mem_append_right _ List.mem_cons_self))).mp h6⟩
  · rintro ⟨h1, h2, h3, before, f, after, h4, h5, h6⟩
    have hm : ∀ g, g ∈ before ++ f :: after → plainL g.body := fun g hg => hp g (h4 ▸ hg)
    exact ⟨⟨h1, h2⟩, h3, before, f, after, h4, fun g hg => (accepted_iff m (hm g (List.mem_append_left _ hg))).mpr (h5 g hg),
      (deepFunc_iff (hm f (List.mem_append_right _ List.mem_cons_self))).mpr h6⟩

end Whasm
