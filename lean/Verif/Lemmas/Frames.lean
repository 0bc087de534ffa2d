import Verif.Spec.Frames
import Verif.Lemmas.Registers

/-! # Registers of all calls in one row -/

namespace Whasm.Run
open Spec Spec.Pass

/-- Calls that wait, with registers of their own. `top` is where the registers of the call begin for which the first one waits. -/
def apart (mem : Nat → Cell) : Nat → List QAct → List RAct
  | _, [] => []
  | top, a :: as => ⟨a.type, a.func, a.pc, view mem a.base, top - a.base⟩ :: apart mem a.base as

/-- A state, with registers of its own for each call. -/
def QState.apart : QState → RState
  | .running st mem a as => .running st ⟨a.type, a.func, a.pc, view mem a.base, 0⟩ (Run.apart mem a.base as)
  | .finished st vs => .finished st vs
  | .trapped st => .trapped st

/-- The registers of each call begin within those of its caller, those of the first call at zero. -/
def Layout (N : Func → Nat) : Nat → List QAct → Prop
  | top, [] => top = 0
  | top, a :: as => a.base ≤ top ∧ top ≤ a.base + N a.func ∧ Layout N a.base as

def QState.Laid (N : Func → Nat) : QState → Prop
  | .running _ _ a as => Layout N a.base as
  | _ => True

theorem layout_frames {N : Func → Nat} : ∀ {top : Nat} {as : List QAct}, Layout N top as → top ≤ frames N as
  | _, [], h => by rw [h]; exact Nat.zero_le _
  | top, a :: as, ⟨_, h2, h3⟩ => by
    have := layout_frames h3
    show top ≤ N a.func + frames N as
    omega

theorem view_over {mem : Nat → Cell} {b : Nat} {g : Regs} : view (over mem b g) b = g := by
  funext i
  rw [view, over, if_pos (Nat.le_add_right b i), Nat.add_sub_cancel_left]

variable {K : Codes}

theorem agree_low {g g' : Regs} {xs : List Cell} (h : Agree g xs) (hg : ∀ i, i < xs.length → g' i = g i) : Agree g' xs := fun i x hx =>
  (hg i (List.getElem?_eq_some_iff.mp hx).1).trans (h i x hx)

/-- Calls that wait only need what is before `top`. -/
theorem parked_low {N : Func → Nat} {mem mem' : Nat → Cell} : ∀ {top : Nat} {qs : List QAct} {as : List Act}, Layout N top qs → (∀ i, i < top → mem' i = mem i) →
    Related (Parked K) as (apart mem top qs) → Related (Parked K) as (apart mem' top qs)
  | _, [], _, _, _, h => h
  | top, q :: qs, _, ⟨h1, h2, h3⟩, hm, .cons ⟨⟨u, v, g, b, p1, p2, p3, p4⟩, hb, hi⟩ h => by
    injection p4 with e1 e2 e3 e4 e5
    refine .cons ⟨⟨u, v, view mem' q.base, _, p1, p2, agree_low p3 ?_, by rw [e1, e2, e3]⟩, hb, hi⟩ (parked_low h3 (fun i hi => hm i (by omega)) h)
    intro i hi
    have : top - q.base = _ := hb
    rw [file_length] at hi
    rw [← e4]
    exact hm _ (by omega)

/-- The first registers of the call are enough. -/
theorem kept_low {a : Act} {q : QAct} {g g' : Regs} {b b' : Nat} (h : Kept K a ⟨q.type, q.func, q.pc, g, b⟩) (hg : ∀ i, i < a.locals.length + a.stack.length → g' i = g i) :
    Kept K a ⟨q.type, q.func, q.pc, g', b'⟩ := by
  obtain ⟨u, v, g, b, p1, p2, p3, p4⟩ := h
  injection p4 with e1 e2 e3 e4 e5
  exact ⟨u, v, g', b', p1, p2, agree_low p3 (by rw [file_length, ← e4]; exact hg), by rw [e1, e2, e3]⟩

theorem kept_func {a : Act} {r : RAct} (h : Kept K a r) : r.func = a.func := by
  obtain ⟨_, _, _, _, _, _, _, rfl⟩ := h
  rfl

theorem kept_type {a : Act} {r : RAct} (h : Kept K a r) : r.type = a.type := by
  obtain ⟨_, _, _, _, _, _, _, rfl⟩ := h
  rfl

/-- What is beyond the operands does not matter. -/
theorem rel_spoil {N : Func → Nat} {s : FState} {q : QState} (h : RRel K s q.apart) (hl : q.Laid N) (hn : ∀ {st a as}, s = .running st a as → a.locals.length + a.stack.length ≤ N a.func) (j : Nat → Cell) :
    RRel K s (spoil N j q).apart ∧ (spoil N j q).Laid N := by
  cases q with
  | running st mem a as =>
    refine ⟨?_, hl⟩
    obtain ⟨hk, hs⟩ := h
    have h1 := hn rfl
    have e1 := kept_func hk
    dsimp only at e1
    refine .running (kept_low hk fun i hi => ?_) (parked_low hl (fun i hi => ?_) hs)
    · exact if_pos (by rw [e1]; omega)
    · exact if_pos (by omega)
  | finished => exact ⟨h, hl⟩
  | trapped => exact ⟨h, hl⟩

variable {M : Machine} {R : RCodes} {N : Func → Nat}

theorem view_putAll {mem : Nat → Cell} {b d : Nat} {ws : List Cell} : view (putAll mem (b + d) ws) b = putAll (view mem b) d ws := by
  funext i
  simp only [view, putAll]
  by_cases h : d ≤ i
  · rw [if_pos h, if_pos (by omega), Nat.add_sub_add_left]
  · rw [if_neg h, if_neg (by omega)]

theorem window_view {mem : Nat → Cell} {b d n : Nat} : window (view mem b) d n = window mem (b + d) n := by
  simp only [window, view, Nat.add_assoc]

theorem related_len {α β : Type} {Q : α → β → Prop} {xs : List α} {ys : List β} (h : Related Q xs ys) : xs.length = ys.length := by
  induction h with
  | nil => rfl
  | cons _ _ ih => exact congrArg (· + 1) ih

theorem apart_length {mem : Nat → Cell} : ∀ {top : Nat} {qs : List QAct}, (apart mem top qs).length = qs.length
  | _, [] => rfl
  | _, _ :: _ => congrArg (· + 1) apart_length

/-- If the machine on registers of its own comes to a state, so does this one. -/
theorem rel_qstep {s : FState} {st : Store} {mem : Nat → Cell} {q : QAct} {qs : List QAct} (hl : Layout N q.base qs)
    (hz : ∀ {st a b as}, s = .running st a (b :: as) → as.length = qs.length → a.locals.length + a.stack.length = a.type.params.length + a.func.locals.length ∧ b.locals.length + b.stack.length ≤ N b.func)
    (h : RRel K s (rstep M R (QState.running st mem q qs).apart)) : RRel K s (qstep M R (.running st mem q qs)).apart ∧ (qstep M R (.running st mem q qs)).Laid N := by
  have below : ∀ {b : Nat} {g : Regs} (i : Nat), i < b → over mem b g i = mem i := fun i hi => if_neg (by omega)
  have below' : ∀ {b : Nat} {ws : List Cell} (i : Nat), i < b → putAll mem b ws i = mem i := fun i hi => if_neg (by omega)
  rw [QState.apart, rstep] at h
  rw [qstep]
  dsimp only at h ⊢
  cases hi : (R q.func)[q.pc]? with
  | none =>
    rw [hi] at h
    exact ⟨h, trivial⟩
  | some i =>
    rw [hi] at h
    dsimp only at h ⊢
    cases he : rexec M st (view mem q.base) i with
    | trap => rw [he] at h; exact ⟨h, trivial⟩
    | next st' g =>
      rw [he] at h
      dsimp only at h
      cases h with
      | running hk hs =>
        refine ⟨.running ?_ (parked_low hl below hs), hl⟩
        rw [view_over]
        exact hk
    | goto pc g =>
      rw [he] at h
      dsimp only at h
      cases h with
      | running hk hs =>
        refine ⟨.running ?_ (parked_low hl below hs), hl⟩
        rw [view_over]
        exact hk
    | leave s0 =>
      rw [he] at h
      dsimp only at h ⊢
      cases qs with
      | nil => exact ⟨h, trivial⟩
      | cons a as =>
        obtain ⟨l1, l2, l3⟩ := hl
        rw [apart, rleave] at h
        cases h with
        | running hk hs =>
          refine ⟨.running (kept_low (q := { a with pc := a.pc + 1 }) hk fun i _ => ?_) (parked_low l3 (fun i hi => below' i (by dsimp only at hi; omega)) hs), l3⟩
          show view (putAll mem q.base _) a.base i = _
          have e : q.base = a.base + (q.base - a.base) := by omega
          generalize window (view mem q.base) s0 q.type.results.length = ws
          conv => lhs; rw [e, view_putAll]
    | call fi d =>
      rw [he] at h
      dsimp only at h ⊢
      cases fi with
      | host t id =>
        rw [rinvoke, window_view] at h
        rw [qinvoke]
        dsimp only at h ⊢
        split at h
        · rename_i st' us hh
          rw [hh]
          dsimp only
          cases h with
          | running hk hs =>
            refine ⟨.running (kept_low (q := { q with pc := q.pc + 1 }) hk fun i _ => ?_) (parked_low hl (fun i hi => below' i (by dsimp only at hi; omega)) hs), hl⟩
            show view (putAll mem (q.base + d) _) q.base i = _
            rw [view_putAll]
        · rename_i st' hh
          rw [hh]
          exact ⟨h, trivial⟩
      | own t f =>
        rw [rinvoke, window_view] at h
        rw [qinvoke]
        dsimp only at h ⊢
        cases h with
        | running hk hs =>
          cases hs with
          | @cons b _ bs _ hp hs =>
            obtain ⟨z1, z2⟩ := hz rfl (by rw [related_len hs, apart_length])
            have e1 := kept_func hp.1
            have e2 : d = _ := hp.2.1
            have e3 := kept_func hk
            have e4 := kept_type hk
            dsimp only at e1 e3 e4
            have hl' : Layout N (q.base + d) (q :: qs) := ⟨by omega, by rw [e1]; omega, hl⟩
            refine ⟨.running (kept_low (q := ⟨t, f, 0, q.base + d⟩) hk fun i hi => ?_) (parked_low hl' (fun i hi => below' i (by dsimp only at hi; omega)) ?_), hl'⟩
            · rw [z1, ← e3, ← e4] at hi
              rw [view_putAll]
              simp only [putAll, fresh, view]
              by_cases hi' : t.params.length ≤ i
              · rw [if_pos hi', getD_some (x := 0) (by rw [List.getElem?_map, List.getElem?_eq_getElem (by omega)]; rfl)]
                exact (getD_none (by rw [window, List.length_map, List.length_range]; exact hi')).symm
              · rw [if_neg hi']
                exact (getD_some (by rw [window, List.getElem?_map, List.getElem?_range (by omega)]; rfl)).symm
            · obtain ⟨hk, hb, hi⟩ := hp
              refine .cons ⟨?_, ?_, hi⟩ hs
              · exact kept_low (q := q) hk fun _ _ => rfl
              · show q.base + d - q.base = _
                omega

end Whasm.Run
