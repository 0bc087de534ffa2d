import Verif.Spec.Grant
import Verif.Model.Grant
import Verif.Lemmas.Scope
import Verif.Lemmas.Memory

/-!
# Runs on a machine that may refuse anything
-/

namespace Whasm.Grant
open Spec

/-! ## Lists of requests -/

/-- Asking for a list of things. -/
def consult (ok : Machine) : List Ask → List Ask → Except (List Ask) (List Ask)
  | h, [] => .ok h
  | h, a :: t => if ok h a then consult ok (h ++ [a]) t else .error h

theorem consult_append (ok : Machine) : ∀ (a b h : List Ask), consult ok h (a ++ b) = match consult ok h a with
    | .ok h => consult ok h b
    | .error h => .error h
  | [], b, h => rfl
  | x :: a, b, h => by
    simp only [List.cons_append, consult]
    cases ok h x with
    | false => rfl
    | true => simp only [if_true]; exact consult_append ok a b _

/-- `x` asks for `t`, whatever the machine grants, and its result is `r`. -/
def Does {R : Type} (x : Mach R) (t : List Ask) (r : R) : Prop := ∀ ok h, x ok h = match consult ok h t with
  | .ok h => .ok (r, h)
  | .error h => .error h

section
variable {R S : Type}

theorem Does.pure (r : R) : Does (pure r) [] r := fun _ _ => rfl

theorem Does.bind {x : Mach R} {f : R → Mach S} {t u : List Ask} {r : R} {y : S} (h : Does x t r) (h' : Does (f r) u y) : Does (x >>= f) (t ++ u) y := by
  intro ok hist
  show Mach.bind x f ok hist = _
  unfold Mach.bind
  rw [h, consult_append]
  cases consult ok hist t with
  | ok h1 => exact h' ok h1
  | error h1 => rfl

theorem Does.ask (a : Ask) : Does (ask a) [a] () := by
  intro ok h
  simp only [Grant.ask, consult]
  cases ok h a <;> rfl

theorem Does.map {x : Mach R} {t : List Ask} {r : R} (f : R → S) (h : Does x t r) : Does (x >>= fun y => Pure.pure (f y)) t (f r) := by
  have := h.bind (f := fun y => Pure.pure (f y)) (.pure (f r))
  rwa [List.append_nil] at this

theorem Does.askAll : ∀ l : List Ask, Does (askAll l) l ()
  | [] => .pure ()
  | a :: l => (Does.ask a).bind (u := l) (Does.askAll l)

theorem Does.level {x : Mach R} {t : List Ask} {r : R} (w : Work) (h : Does x t r) : Does (level w x) (.call w :: (t ++ [.back w])) r :=
  (Does.ask (.call w)).bind (u := t ++ [.back w]) (h.bind (u := [.back w]) ((Does.ask (.back w)).bind (u := []) (.pure r)))

end

/-! ### Levels -/

theorem levels_append (w : Work) : ∀ a b, levels w (a ++ b) = levels w a + levels w b
  | [], b => by simp [levels]
  | x :: a, b => by simp only [List.cons_append, levels, levels_append w a b]; omega

/-- The most levels at a time. -/
def peak (w : Work) : List Ask → Int
  | [] => 0
  | a :: t => max 0 (change w a + peak w t)

theorem peak_nonneg (w : Work) : ∀ t, 0 ≤ peak w t
  | [] => Int.le_refl _
  | _ :: _ => Int.le_max_left ..

theorem peak_append (w : Work) : ∀ a b, peak w (a ++ b) = max (peak w a) (levels w a + peak w b)
  | [], b => by have := peak_nonneg w b; simp only [List.nil_append, peak, levels]; omega
  | x :: a, b => by simp only [List.cons_append, peak, levels, peak_append w a b]; omega

theorem levels_le_peak (w : Work) (t : List Ask) : levels w t ≤ peak w t := by
  induction t with
  | nil => simp [levels, peak]
  | cons a t ih => simp only [levels, peak]; omega

theorem levels_before {w : Work} {h rest : List Ask} {a : Ask} : levels w h + change w a ≤ peak w (h ++ a :: rest) := by
  rw [peak_append]
  have := peak_nonneg w rest
  simp only [peak]
  omega

/-- All levels are left again, and there are at most `d` of them at a time. -/
structure Tidy (d : Work → Nat) (t : List Ask) : Prop where
  done : ∀ w, levels w t = 0
  most : ∀ w, peak w t ≤ d w

variable {d d' : Work → Nat}

theorem Tidy.nil : Tidy d [] := ⟨fun _ => rfl, fun w => by simp only [peak]; omega⟩

theorem Tidy.append {a b : List Ask} (ha : Tidy d a) (hb : Tidy d b) : Tidy d (a ++ b) :=
  ⟨fun w => by rw [levels_append, ha.done, hb.done]; rfl, fun w => by
    rw [peak_append, ha.done]
    have := ha.most w
    have := hb.most w
    omega⟩

theorem Tidy.mono {a : List Ask} (h : Tidy d a) (hd : ∀ w, d w ≤ d' w) : Tidy d' a :=
  ⟨h.done, fun w => by have := h.most w; have := hd w; omega⟩

theorem Tidy.one {a : Ask} (h : ∀ w, change w a = 0) : Tidy d [a] :=
  ⟨fun w => by simp only [levels, h w]; rfl, fun w => by simp only [peak, h w]; omega⟩

theorem Tidy.level {v : Work} {a : List Ask} (h : Tidy d a) (hd : ∀ w, d w + (if v = w then 1 else 0) ≤ d' w) : Tidy d' (.call v :: (a ++ [.back v])) := by
  refine ⟨fun w => ?_, fun w => ?_⟩
  · simp only [levels, levels_append, h.done, change]
    split <;> omega
  · have h1 := h.most w
    have h2 := hd w
    simp only [peak, peak_append, h.done, change]
    by_cases hv : v = w
    · simp only [hv, if_true] at h2 ⊢; omega
    · simp only [hv, if_false] at h2 ⊢; omega

/-! ### Parts -/

theorem elementsAsked_append : ∀ a b, elementsAsked (a ++ b) = elementsAsked a + elementsAsked b
  | [], b => by simp [elementsAsked]
  | x :: a, b => by
    cases x <;> simp only [List.cons_append, elementsAsked, elementsAsked_append a b]
    omega

/-! ### Destructors and printing -/

/-- Levels of one kind only. -/
def Only (v : Work) (t : List Ask) : Prop := ∀ a ∈ t, a = .call v ∨ a = .back v

theorem Only.append {v : Work} {a b : List Ask} (ha : Only v a) (hb : Only v b) : Only v (a ++ b) := fun x hx => by
  rcases List.mem_append.mp hx with h | h
  · exact ha x h
  · exact hb x h

theorem Only.level {v : Work} {a : List Ask} (ha : Only v a) : Only v (.call v :: (a ++ [.back v])) := fun x hx => by
  rcases List.mem_cons.mp hx with rfl | h
  · exact .inl rfl
  · rcases List.mem_append.mp h with h | h
    · exact ha x h
    · exact .inr (List.mem_singleton.mp h)

theorem Only.parts {v : Work} : ∀ {t : List Ask}, Only v t → elementsAsked t = 0
  | [], _ => rfl
  | a :: t, h => by
    have ht := Only.parts (t := t) fun x hx => h x (List.mem_cons_of_mem _ hx)
    rcases h a (List.mem_cons_self ..) with rfl | rfl <;> exact ht

/-- At most `n` levels of one kind. -/
def just (v : Work) (n : Nat) (w : Work) : Nat := if v = w then n else 0

mutual

theorem tidy_instr (v : Work) : ∀ (i : Instr) (n : Nat), depthI i ≤ n → Tidy (just v n) (visitInstr v i) ∧ Only v (visitInstr v i)
  | .block _ b, n, h => by
    simp only [depthI] at h
    obtain ⟨h1, h2⟩ := tidy_instrs v b (n - 1) (by omega)
    exact ⟨h1.level fun w => by unfold just; split <;> omega, h2.level⟩
  | .loop _ b, n, h => by
    simp only [depthI] at h
    obtain ⟨h1, h2⟩ := tidy_instrs v b (n - 1) (by omega)
    exact ⟨h1.level fun w => by unfold just; split <;> omega, h2.level⟩
  | .ifElse _ b b', n, h => by
    simp only [depthI] at h
    obtain ⟨h1, h2⟩ := tidy_instrs v b (n - 1) (by omega)
    obtain ⟨h3, h4⟩ := tidy_instrs v b' (n - 1) (by omega)
    have e : visitInstr v (.ifElse ‹_› b b') = (.call v :: (visitInstrs v b ++ [.back v])) ++ (.call v :: (visitInstrs v b' ++ [.back v])) := by
      simp [visitInstr]
    rw [e]
    exact ⟨(h1.level fun w => by unfold just; split <;> omega).append (h3.level fun w => by unfold just; split <;> omega), h2.level.append h4.level⟩
  | .unreachable, _, _ | .nop, _, _ | .elseMark, _, _ | .endMark, _, _ | .br _, _, _ | .brIf _, _, _ | .brTable _ _, _, _ | .ret, _, _ | .call _, _, _ | .callIndirect _ _, _, _ | .drop, _, _ | .select, _, _
  | .localGet _, _, _ | .localSet _, _, _ | .localTee _, _, _ | .globalGet _, _, _ | .globalSet _, _, _ | .load _ _ _, _, _ | .store _ _ _, _, _ | .memSize _, _, _ | .memGrow _, _, _
  | .constI32 _, _, _ | .constI64 _, _, _ | .constF32 _, _, _ | .constF64 _, _, _ | .num _, _, _ => ⟨.nil, fun _ h => by cases h⟩

theorem tidy_instrs (v : Work) : ∀ (is : List Instr) (n : Nat), depthL is ≤ n → Tidy (just v n) (visitInstrs v is) ∧ Only v (visitInstrs v is)
  | [], _, _ => ⟨.nil, fun _ h => by cases h⟩
  | i :: is, n, h => by
    simp only [depthL] at h
    obtain ⟨h1, h2⟩ := tidy_instr v i n (by omega)
    obtain ⟨h3, h4⟩ := tidy_instrs v is n (by omega)
    exact ⟨h1.append h3, h2.append h4⟩

end

/-- What is visited is tidy. -/
def Visit (v : Work) (n : Nat) (t : List Ask) : Prop := Tidy (just v n) t ∧ Only v t

theorem Visit.append {v : Work} {n : Nat} {a b : List Ask} (ha : Visit v n a) (hb : Visit v n b) : Visit v n (a ++ b) := ⟨ha.1.append hb.1, ha.2.append hb.2⟩

theorem Visit.nil {v : Work} {n : Nat} : Visit v n [] := ⟨.nil, fun _ h => by cases h⟩

theorem visit_instrs {v : Work} {is : List Instr} {n : Nat} (h : depthL is ≤ n) : Visit v n (visitInstrs v is) := tidy_instrs v is n h

theorem visit_flatMap {α : Type} {v : Work} {n : Nat} {f : α → List Ask} : ∀ {l : List α}, (∀ x ∈ l, Visit v n (f x)) → Visit v n (l.flatMap f)
  | [], _ => .nil
  | x :: l, h => by
    rw [List.flatMap_cons]
    exact (h x (List.mem_cons_self ..)).append (visit_flatMap fun y hy => h y (List.mem_cons_of_mem _ hy))

theorem visit_module {v : Work} {m : Module} {n : Nat} (h : NestsAtMost n m) : Visit v n (visitModule v m) :=
  (visit_flatMap fun x hx => visit_instrs (h.funcs x hx)).append ((visit_flatMap fun x hx => visit_instrs (h.globals x hx)).append
    ((visit_flatMap fun x hx => visit_instrs (h.elem x hx)).append (visit_flatMap fun x hx => visit_instrs (h.data x hx))))

end Whasm.Grant
