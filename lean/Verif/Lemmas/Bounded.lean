import Verif.Spec.Bounded

/-! # The machine with a fixed number of words is the one with a row without end, for some words beyond -/

namespace Whasm.Run
open Spec Spec.Pass

variable {M : Machine} {R : RCodes} {N : Func → Nat} {W : Nat}

/-- What a step does to the calls. -/
theorem qstep_calls {st st' : Store} {mem mem' : Nat → Cell} {a b : QAct} {as bs : List QAct} (h : qstep M R (.running st mem a as) = .running st' mem' b bs) :
    (b.base = a.base ∧ b.func = a.func ∧ bs = as) ∨ bs = a :: as ∨ ∃ c, as = c :: bs ∧ b.base = c.base ∧ b.func = c.func := by
  unfold qstep at h
  dsimp only at h
  split at h
  · cases h
  · split at h
    · cases h; exact .inl ⟨rfl, rfl, rfl⟩
    · cases h
    · cases h; exact .inl ⟨rfl, rfl, rfl⟩
    · unfold qinvoke at h
      split at h
      · cases h; exact .inr (.inl rfl)
      · split at h
        · cases h; exact .inl ⟨rfl, rfl, rfl⟩
        · cases h
    · cases as with
      | nil => cases h
      | cons c cs => cases h; exact .inr (.inr ⟨c, rfl, rfl, rfl⟩)

theorem wide_cut {mem : Nat → Cell} {i : Nat} (h : i < W) : wide (cut W mem) i = mem i := by
  simp [wide, cut, List.getD_eq_getElem?_getD, h]

/-- The registers of all calls are within the row. -/
def Within (N : Func → Nat) (W : Nat) (as : List QAct) : Prop := ∀ a ∈ as, a.base + N a.func ≤ W

/-- The same state on the other machine. -/
inductive Same (N : Func → Nat) (W : Nat) : QState → BState → Prop
  | running {st : Store} {row : List Cell} {a : QAct} {as : List QAct} : Within N W (a :: as) → row.length = W → Same N W (.running st (wide row) a as) (.running st row a as)
  | finished {st : Store} {vs : List Value} : Same N W (.finished st vs) (.finished st vs)
  | trapped {st : Store} : Same N W (.trapped st) (.trapped st)

theorem same_not {q : QState} : ¬ Same N W q .exhausted := nofun

theorem same_length {q : QState} {st : Store} {row : List Cell} {a : QAct} {as : List QAct} (h : Same N W q (.running st row a as)) : row.length = W := by
  cases h with
  | running _ h => exact h

/-- What is beyond the registers in a state. -/
def BState.beyond : BState → Nat → Cell
  | .running _ row _ _ => wide row
  | _ => fun _ => 0

/-- A state is put in the row, or there is a call whose registers are not within it. -/
theorem fit_same {q : QState} {d : Nat} (h : ∀ {st mem a as}, q = .running st mem a as → Within N W as ∧ (as.length < d → a.base + N a.func ≤ W)) :
    Same N W (spoil N (fit N W d q).beyond q) (fit N W d q) ∨ fit N W d q = .exhausted ∧ ∃ st mem a as, q = .running st mem a as ∧ W < a.base + N a.func := by
  cases q with
  | finished => exact .inl .finished
  | trapped => exact .inl .trapped
  | running st mem a as =>
    obtain ⟨h1, h2⟩ := h rfl
    unfold fit
    dsimp only
    by_cases hw : a.base + N a.func ≤ W
    · refine .inl ?_
      rw [if_pos (.inr hw)]
      have e : spoil N (BState.running st (cut W mem) a as).beyond (.running st mem a as) = .running st (wide (cut W mem)) a as := by
        unfold spoil
        dsimp only
        congr 1
        funext i
        split
        · rw [wide_cut (by omega)]
        · rfl
      rw [e]
      refine .running (fun b hb => ?_) (by simp [cut])
      rcases List.mem_cons.mp hb with rfl | hb
      · exact hw
      · exact h1 b hb
    · rw [if_neg fun hc => hc.elim (fun hl => hw (h2 hl)) hw]
      exact .inr ⟨rfl, _, _, _, _, rfl, Nat.lt_of_not_le hw⟩

/-- With the right words beyond the registers the machine with a row without end does the same, until there is no room for a call. -/
theorem bsteps_same {t : FuncTy} {f : Func} {args : List Cell} {st : Store} :
    let b := bsteps M R N W (bentered N W t f args st)
    ∀ n, Same N W (qsteps M R N (fun i => (b i).beyond) (qentered t f args st) n) (b n) ∨
      b n = .exhausted ∧ ∃ k, k ≤ n ∧ ∃ st' mem a as, qsteps M R N (fun i => (b i).beyond) (qentered t f args st) k = .running st' mem a as ∧ W < a.base + N a.func := by
  intro b n
  induction n with
  | zero =>
    rcases fit_same (N := N) (W := W) (d := 0) (q := qentered t f args st) (fun e => by cases e; exact ⟨fun _ h => (nomatch h), fun h => (nomatch h)⟩) with h | ⟨h1, st', mem, a, as, h2, h3⟩
    · exact .inl h
    · have e : qsteps M R N (fun i => (b i).beyond) (qentered t f args st) 0 = spoil N (b 0).beyond (.running st' mem a as) := by rw [qsteps, h2]
      exact .inr ⟨h1, 0, Nat.le_refl _, st', _, a, as, e, h3⟩
  | succ n ih =>
    rcases ih with ih | ⟨h1, k, hk, h2⟩
    · have hb : b (n + 1) = bstep M R N W (b n) := rfl
      rw [qsteps]
      generalize hq : qsteps M R N (fun i => (b i).beyond) (qentered t f args st) n = q at ih
      generalize hc : b n = c at ih hb
      cases ih with
      | finished => rw [hb]; exact .inl .finished
      | trapped => rw [hb]; exact .inl .trapped
      | @running st1 row a as hw hl =>
        have := fit_same (N := N) (W := W) (d := as.length + 1) (q := qstep M R (.running st1 (wide row) a as)) (fun {st' mem' b' bs} e => ?_)
        · rcases this with h | ⟨h1, st', mem, a', as', h2, h3⟩
          · rw [hb]
            exact .inl h
          · have e : qsteps M R N (fun i => (b i).beyond) (qentered t f args st) (n + 1) = spoil N (b (n + 1)).beyond (.running st' mem a' as') := by rw [qsteps, hq, h2]
            exact .inr ⟨by rw [hb]; exact h1, n + 1, Nat.le_refl _, st', _, a', as', e, h3⟩
        · rcases qstep_calls e with ⟨e1, e2, rfl⟩ | rfl | ⟨c', rfl, e1, e2⟩
          · exact ⟨fun x hx => hw x (List.mem_cons_of_mem _ hx), fun _ => by rw [e1, e2]; exact hw a List.mem_cons_self⟩
          · exact ⟨hw, fun h => absurd h (Nat.lt_irrefl _)⟩
          · exact ⟨fun x hx => hw x (List.mem_cons_of_mem _ (List.mem_cons_of_mem _ hx)), fun _ => by rw [e1, e2]; exact hw c' (List.mem_cons_of_mem _ List.mem_cons_self)⟩
    · refine .inr ⟨?_, k, by omega, h2⟩
      show bstep M R N W (b n) = _
      rw [h1]
      rfl

/-- Each step begins one call at most. -/
theorem qsteps_calls {js : Nat → Nat → Cell} {t : FuncTy} {f : Func} {args : List Cell} {st : Store} : ∀ {n : Nat} {st' : Store} {mem : Nat → Cell} {a : QAct} {as : List QAct},
    qsteps M R N js (qentered t f args st) n = .running st' mem a as → as.length ≤ n
  | 0, _, _, _, _, h => by cases h; exact Nat.le_refl _
  | n + 1, _, _, a, as, h => by
    rw [qsteps] at h
    cases hq : qsteps M R N js (qentered t f args st) n with
    | finished => rw [hq] at h; cases h
    | trapped => rw [hq] at h; cases h
    | running st1 mem1 a1 as1 =>
      rw [hq] at h
      have ih := qsteps_calls hq
      cases hs : qstep M R (.running st1 mem1 a1 as1) with
      | finished => rw [hs] at h; cases h
      | trapped => rw [hs] at h; cases h
      | running st2 mem2 a2 as2 =>
        rw [hs] at h
        cases h
        rcases qstep_calls hs with ⟨_, _, rfl⟩ | rfl | ⟨c, rfl, _⟩
        · omega
        · rw [List.length_cons]; omega
        · rw [List.length_cons] at ih; omega

end Whasm.Run
