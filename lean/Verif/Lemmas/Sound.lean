import Verif.Lemmas.Local

/-!
# `evalInstr` decides the type system
-/

namespace Whasm
open Spec

/-- Types an operand can stand for. -/
def fits : Operand → Val → Prop
  | .unknown, _ => True
  | .val v, t => v = t

/-- Stack types (top first) that the operands of a frame can stand for. -/
def MatchesL (u : Bool) : List Operand → List Val → Prop
  | [], ts => u = true ∨ ts = []
  | _ :: _, [] => False
  | o :: loc, t :: ts => fits o t ∧ MatchesL u loc ts

def Matches (s : Loc) (ts : List Val) : Prop := MatchesL s.2 s.1 ts

theorem popL_sound {op x : Operand} {s s' : Loc} (h : popL op s = some (x, s')) {ts : List Val} (hm : Matches s' ts) {t : Val}
    (hx : fits x t) : Matches s (t :: ts) ∧ fits op t := by
  obtain ⟨loc, u⟩ := s
  cases loc with
  | nil =>
    cases u with
    | false => cases h
    | true => cases h; exact ⟨.inl rfl, hx⟩
  | cons v loc =>
    simp only [popL] at h
    split at h
    · cases h; exact ⟨⟨trivial, hm⟩, hx⟩
    · cases h; exact ⟨⟨hx, hm⟩, trivial⟩
    · split at h
      · next hv => cases h; exact ⟨⟨hx, hm⟩, hv ▸ hx⟩
      · cases h

theorem popL_complete {op : Operand} {s : Loc} {t : Val} {ts : List Val} (hm : Matches s (t :: ts)) (hf : fits op t) :
    ∃ x s', popL op s = some (x, s') ∧ fits x t ∧ Matches s' ts := by
  obtain ⟨loc, u⟩ := s
  cases loc with
  | nil =>
    rcases hm with rfl | hm
    · exact ⟨op, _, rfl, hf, .inl rfl⟩
    · cases hm
  | cons v loc =>
    obtain ⟨h1, h2⟩ := hm
    cases v with
    | unknown => exact ⟨op, (loc, u), rfl, hf, h2⟩
    | val v =>
      cases op with
      | unknown => exact ⟨.val v, (loc, u), rfl, h1, h2⟩
      | val w =>
        cases h1; cases hf
        exact ⟨.val t, (loc, u), by simp [popL], rfl, h2⟩

theorem popL_flag {op x : Operand} {s s' : Loc} (h : popL op s = some (x, s')) : s'.2 = s.2 := by
  obtain ⟨loc, u⟩ := s
  cases loc with
  | nil =>
    cases u with
    | false => cases h
    | true => cases h; rfl
  | cons v loc =>
    simp only [popL] at h
    split at h
    · cases h; rfl
    · cases h; rfl
    · split at h
      · cases h; rfl
      · cases h

theorem popsL_sound : ∀ {vs : List Val} {s s' : Loc}, popsL vs s = some s' → ∀ {ts : List Val}, Matches s' ts → Matches s (vs ++ ts)
  | [], _, _, h, _, hm => by cases h; exact hm
  | v :: vs, s, s', h, ts, hm => by
    simp only [popsL, Option.bind_eq_some_iff] at h
    obtain ⟨⟨x, s1⟩, h1, h2⟩ := h
    have h3 := popsL_sound h2 hm
    have : fits x v := by
      obtain ⟨loc, u⟩ := s
      cases loc with
      | nil => cases u <;> cases h1; rfl
      | cons w loc =>
        cases w with
        | unknown => cases h1; rfl
        | val w =>
          simp only [popL] at h1
          split at h1
          · next hw => cases h1; cases hw; rfl
          · cases h1
    exact (popL_sound h1 h3 this).1

theorem popsL_complete : ∀ {vs : List Val} {s : Loc} {ts : List Val}, Matches s (vs ++ ts) → ∃ s', popsL vs s = some s' ∧ Matches s' ts
  | [], s, _, hm => ⟨s, rfl, hm⟩
  | v :: vs, s, ts, hm => by
    obtain ⟨x, s1, h1, _, h3⟩ := popL_complete (op := .val v) hm rfl
    obtain ⟨s', h4, h5⟩ := popsL_complete h3
    exact ⟨s', by simp only [popsL, h1, Option.bind_some, h4], h5⟩

theorem matchesL_vals {u : Bool} {loc : List Operand} : ∀ {vs ts : List Val}, MatchesL u (vs.map .val ++ loc) ts ↔
    ∃ ts0, ts = vs ++ ts0 ∧ MatchesL u loc ts0
  | [], ts => ⟨fun h => ⟨ts, rfl, h⟩, by rintro ⟨_, rfl, h⟩; exact h⟩
  | v :: vs, [] => ⟨fun h => h.elim, by rintro ⟨_, h, _⟩; cases h⟩
  | v :: vs, t :: ts => by
    constructor
    · rintro ⟨rfl, h⟩
      obtain ⟨ts0, rfl, h'⟩ := matchesL_vals.mp h
      exact ⟨ts0, rfl, h'⟩
    · rintro ⟨ts0, h, h'⟩
      cases h
      exact ⟨rfl, matchesL_vals.mpr ⟨ts0, rfl, h'⟩⟩

theorem pushL_matches {vs : List Val} {s : Loc} {ts : List Val} : Matches (pushL vs s) ts ↔ ∃ ts0, ts = vs.reverse ++ ts0 ∧ Matches s ts0 :=
  matchesL_vals

theorem matches_exists (s : Loc) : ∃ ts, Matches s ts := by
  obtain ⟨loc, u⟩ := s
  induction loc with
  | nil => exact ⟨[], .inr rfl⟩
  | cons o loc ih =>
    obtain ⟨ts, h⟩ := ih
    cases o with
    | unknown => exact ⟨.i32 :: ts, trivial, h⟩
    | val v => exact ⟨v :: ts, rfl, h⟩

theorem endL_iff {r : List Val} {s : Loc} : endL r s = some () ↔ Matches s r.reverse := by
  unfold endL
  rw [Option.bind_eq_some_iff]
  constructor
  · rintro ⟨s', h1, h2⟩
    split at h2
    · next h0 =>
      have : Matches s' [] := by unfold Matches; rw [h0]; exact .inr rfl
      simpa using popsL_sound h1 this
    · cases h2
  · intro h
    rw [← List.append_nil r.reverse] at h
    obtain ⟨s', h1, h2⟩ := popsL_complete h
    refine ⟨s', h1, if_pos ?_⟩
    obtain ⟨loc, u⟩ := s'
    cases loc with
    | nil => rfl
    | cons o loc => exact h2.elim

/-! ## Soundness -/

/-- Instructions that pop and push. -/
theorem sound_step {C : Env} {i : Instr} {a b : List Val} (hi : HasType C i a b) {s s1 : Loc} (h : popsL a.reverse s = some s1)
    {ts' : List Val} (hm : Matches (pushL b s1) ts') : ∃ ts, Matches s ts ∧ HasTypes C [i] ts.reverse ts'.reverse := by
  obtain ⟨ts0, rfl, h0⟩ := pushL_matches.mp hm
  refine ⟨_, popsL_sound h h0, ?_⟩
  simp only [List.reverse_append, List.reverse_reverse]
  exact hasTypes_single _ hi

/-- Instructions after which the stack is polymorphic. -/
theorem sound_stop {C : Env} {i : Instr} {a : List Val} (hi : ∀ ts ts', HasType C i (ts ++ a) ts') {s s1 : Loc}
    (h : popsL a.reverse s = some s1) (ts' : List Val) : ∃ ts, Matches s ts ∧ HasTypes C [i] ts.reverse ts'.reverse := by
  obtain ⟨ts0, h0⟩ := matches_exists s1
  refine ⟨_, popsL_sound h h0, ?_⟩
  simp only [List.reverse_append, List.reverse_reverse]
  simpa using hasTypes_single [] (hi ts0.reverse ts'.reverse)

theorem matches_nil {ts : List Val} (h : Matches ([], false) ts) : ts = [] := by
  rcases h with h | h
  · cases h
  · exact h

theorem popsL_append {a b : List Val} {s s1 s2 : Loc} (h1 : popsL a s = some s1) (h2 : popsL b s1 = some s2) :
    popsL (a ++ b) s = some s2 := by
  induction a generalizing s with
  | nil => cases h1; exact h2
  | cons v a ih =>
    simp only [popsL, Option.bind_eq_some_iff] at h1
    obtain ⟨x, hx, hy⟩ := h1
    simp only [List.cons_append, popsL, hx, Option.bind_some]
    exact ih hy

mutual

theorem sound_instr : ∀ {i : Instr} {C : Env} {s s' : Loc}, C.aligned = false → evalInstr C i s = some s' → ∀ {ts' : List Val},
    Matches s' ts' → ∃ ts, Matches s ts ∧ HasTypes C [i] ts.reverse ts'.reverse
  | .unreachable, C, s, s', _, h, ts', _ => sound_stop (a := []) (fun ts ts' => .unreachable _ _) (s1 := s) rfl ts'
  | .nop, C, s, s', _, h, ts', hm => by
    cases h
    exact ⟨ts', hm, by simpa using hasTypes_single ts'.reverse (HasType.nop (C := C))⟩
  | .block r body, C, s, s', hC, h, ts', hm => by
    simp only [evalInstr, Option.bind_eq_some_iff] at h
    obtain ⟨s1, h1, _, h2, h3⟩ := h
    obtain ⟨ts, k1, k2⟩ := sound_expr (by exact hC) h1 (endL_iff.mp h2)
    obtain rfl := matches_nil k1
    rw [List.reverse_reverse] at k2
    cases h3
    exact sound_step (a := []) (.block k2) rfl hm
  | .loop r body, C, s, s', hC, h, ts', hm => by
    simp only [evalInstr, Option.bind_eq_some_iff] at h
    obtain ⟨s1, h1, _, h2, h3⟩ := h
    obtain ⟨ts, k1, k2⟩ := sound_expr (by exact hC) h1 (endL_iff.mp h2)
    obtain rfl := matches_nil k1
    rw [List.reverse_reverse] at k2
    cases h3
    exact sound_step (a := []) (.loop k2) rfl hm
  | .ifElse r thn els, C, s, s', hC, h, ts', hm => by
    simp only [evalInstr, Option.bind_eq_some_iff] at h
    obtain ⟨s0, h0, s1, h1, _, h2, s2, h3, _, h4, h5⟩ := h
    obtain ⟨ts, k1, k2⟩ := sound_expr (by exact hC) h1 (endL_iff.mp h2)
    obtain rfl := matches_nil k1
    obtain ⟨ts, k3, k4⟩ := sound_expr (by exact hC) h3 (endL_iff.mp h4)
    obtain rfl := matches_nil k3
    rw [List.reverse_reverse] at k2 k4
    cases h5
    exact sound_step (.ifElse k2 k4) h0 hm
  | .elseMark, _, _, _, _, h, _, _ => by cases h
  | .endMark, _, _, _, _, h, _, _ => by cases h
  | .br l, C, s, s', _, h, ts', hm => by
    simp only [evalInstr, Option.bind_eq_some_iff] at h
    obtain ⟨r, h1, s1, h2, h3⟩ := h
    exact sound_stop (fun ts ts' => .br ts ts' h1) h2 ts'
  | .brIf l, C, s, s', _, h, ts', hm => by
    simp only [evalInstr, Option.bind_eq_some_iff] at h
    obtain ⟨r, h1, s1, h2, s2, h3, h4⟩ := h
    cases h4
    refine sound_step (.brIf h1) (a := r ++ [.i32]) (s1 := s2) ?_ hm
    rw [List.reverse_append]
    exact popsL_append h2 h3
  | .brTable ls l, C, s, s', _, h, ts', hm => by
    simp only [evalInstr, Option.bind_eq_some_iff] at h
    obtain ⟨r, h1, h2⟩ := h
    split at h2
    · next hl =>
      simp only [Option.bind_eq_some_iff] at h2
      obtain ⟨s1, h2, s2, h3, h4⟩ := h2
      refine sound_stop (a := r ++ [.i32]) (s1 := s2) (fun ts ts' => ?_) ?_ ts'
      · rw [← List.append_assoc]; exact .brTable ts ts' hl h1
      · rw [List.reverse_append]
        exact popsL_append h2 h3
    · cases h2
  | .ret, C, s, s', _, h, ts', hm => by
    simp only [evalInstr, Option.bind_eq_some_iff] at h
    obtain ⟨r, h1, s1, h2, h3⟩ := h
    exact sound_stop (fun ts ts' => .ret ts ts' h1) h2 ts'
  | .call x, C, s, s', _, h, ts', hm => by
    simp only [evalInstr, Option.bind_eq_some_iff] at h
    obtain ⟨r, h1, s1, h2, h3⟩ := h
    cases h3
    exact sound_step (.call h1) h2 hm
  | .callIndirect x y, C, s, s', _, h, ts', hm => by
    simp only [evalInstr, Option.bind_eq_some_iff] at h
    obtain ⟨tb, h0, r, h1, s1, h2, s2, h3, h4⟩ := h
    cases h4
    refine sound_step (.callIndirect h0 (by cases tb.elem; rfl) h1) (s1 := s2) ?_ hm
    rw [List.reverse_append]
    exact popsL_append h2 h3
  | .drop, C, s, s', _, h, ts', hm => by
    simp only [evalInstr, Option.bind_eq_some_iff] at h
    obtain ⟨⟨x, s1⟩, h1, h2⟩ := h
    cases h2
    obtain ⟨t, ht⟩ : ∃ t, fits x t := by
      cases x with
      | unknown => exact ⟨.i32, trivial⟩
      | val v => exact ⟨v, rfl⟩
    refine ⟨t :: ts', (popL_sound h1 hm ht).1, ?_⟩
    simpa using hasTypes_single ts'.reverse (HasType.drop (C := C) t)
  | .select, C, s, s', _, h, ts', hm => by
    simp only [evalInstr, Option.bind_eq_some_iff] at h
    obtain ⟨s0, h0, ⟨x, s1⟩, h1, ⟨y, s2⟩, h2, h3⟩ := h
    cases h3
    cases ts' with
    | nil => exact hm.elim
    | cons t ts =>
      obtain ⟨hy, hm⟩ := hm
      obtain ⟨m1, hx⟩ := popL_sound h2 (t := t) hm hy
      obtain ⟨m0, _⟩ := popL_sound h1 m1 hx
      refine ⟨_, popsL_sound h0 m0, ?_⟩
      simpa using hasTypes_single ts.reverse (HasType.select (C := C) t)
  | .localGet x, C, s, s', _, h, ts', hm => by
    simp only [evalInstr, Option.bind_eq_some_iff] at h
    obtain ⟨t, h1, h2⟩ := h
    cases h2
    exact sound_step (a := []) (.localGet h1) rfl hm
  | .localSet x, C, s, s', _, h, ts', hm => by
    simp only [evalInstr, Option.bind_eq_some_iff] at h
    obtain ⟨t, h1, h2⟩ := h
    exact sound_step (b := []) (.localSet h1) h2 hm
  | .localTee x, C, s, s', _, h, ts', hm => by
    simp only [evalInstr, Option.bind_eq_some_iff] at h
    obtain ⟨t, h1, s1, h2, h3⟩ := h
    cases h3
    exact sound_step (.localTee h1) h2 hm
  | .globalGet x, C, s, s', _, h, ts', hm => by
    simp only [evalInstr, Option.bind_eq_some_iff] at h
    obtain ⟨t, h1, h2⟩ := h
    cases h2
    exact sound_step (a := []) (.globalGet h1) rfl hm
  | .globalSet x, C, s, s', _, h, ts', hm => by
    simp only [evalInstr, Option.bind_eq_some_iff] at h
    obtain ⟨t, h1, h2⟩ := h
    split at h2
    · next hv => exact sound_step (b := []) (.globalSet h1 hv) h2 hm
    · cases h2
  | .load op a b, C, s, s', hC, h, ts', hm => by
    simp only [evalInstr, Option.bind_eq_some_iff] at h
    obtain ⟨t, h1, s1, h2, h3⟩ := h
    cases h3
    rw [← loadType_eq] at hm
    exact sound_step (.load h1 (by rw [hC]; intro h; cases h)) h2 hm
  | .store op a b, C, s, s', hC, h, ts', hm => by
    simp only [evalInstr, Option.bind_eq_some_iff] at h
    obtain ⟨t, h1, h2⟩ := h
    rw [← storeType_eq] at h2
    exact sound_step (b := []) (.store h1 (by rw [hC]; intro h; cases h)) h2 hm
  | .memSize x, C, s, s', _, h, ts', hm => by
    simp only [evalInstr, Option.bind_eq_some_iff] at h
    obtain ⟨t, h1, h2⟩ := h
    cases h2
    exact sound_step (a := []) (.memSize h1) rfl hm
  | .memGrow x, C, s, s', _, h, ts', hm => by
    simp only [evalInstr, Option.bind_eq_some_iff] at h
    obtain ⟨t, h1, s1, h2, h3⟩ := h
    cases h3
    exact sound_step (.memGrow h1) h2 hm
  | .constI32 v, C, s, s', _, h, ts', hm => by
    cases h; exact sound_step (a := []) .constI32 rfl hm
  | .constI64 v, C, s, s', _, h, ts', hm => by
    cases h; exact sound_step (a := []) .constI64 rfl hm
  | .constF32 v, C, s, s', _, h, ts', hm => by
    cases h; exact sound_step (a := []) .constF32 rfl hm
  | .constF64 v, C, s, s', _, h, ts', hm => by
    cases h; exact sound_step (a := []) .constF64 rfl hm
  | .num op, C, s, s', _, h, ts', hm => by
    simp only [evalInstr, Option.bind_eq_some_iff] at h
    obtain ⟨s1, h1, h2⟩ := h
    cases h2
    rw [← numType_eq] at h1 hm
    exact sound_step .num h1 hm

theorem sound_expr : ∀ {e : List Instr} {C : Env} {s s' : Loc}, C.aligned = false → evalExpr C e s = some s' → ∀ {ts' : List Val},
    Matches s' ts' → ∃ ts, Matches s ts ∧ HasTypes C e ts.reverse ts'.reverse
  | [], _, _, _, _, h, ts', hm => by cases h; exact ⟨ts', hm, .nil _⟩
  | i :: is, C, s, s', hC, h, ts', hm => by
    simp only [evalExpr, Option.bind_eq_some_iff] at h
    obtain ⟨s1, h1, h2⟩ := h
    obtain ⟨ts1, k1, k2⟩ := sound_expr hC h2 hm
    obtain ⟨ts0, k3, k4⟩ := sound_instr hC h1 k1
    exact ⟨ts0, k3, hasTypes_append (is := [i]) k4 k2⟩

end

/-! ## Completeness -/

theorem complete_step {a b r : List Val} {s : Loc} (h : Matches s (a.reverse ++ r)) : ∃ s1, popsL a.reverse s = some s1 ∧
    Matches (pushL b s1) (b.reverse ++ r) := by
  obtain ⟨s1, h1, h2⟩ := popsL_complete h
  exact ⟨s1, h1, pushL_matches.mpr ⟨r, rfl, h2⟩⟩

mutual

theorem complete_instr : ∀ {i : Instr} {C : Env} {a b : List Val}, HasType C i a b → ∀ {s : Loc} {r : List Val}, Matches s (a.reverse ++ r) →
    ∃ s', evalInstr C i s = some s' ∧ Matches s' (b.reverse ++ r)
  | .unreachable, C, a, b, h, s, r, hm => ⟨_, rfl, .inl rfl⟩
  | .nop, C, a, b, h, s, r, hm => by cases h; exact ⟨s, rfl, hm⟩
  | .block ret body, C, a, b, h, s, r, hm => by
    cases h with
    | block h =>
      obtain ⟨s1, k1, k2⟩ := complete_expr h (s := ([], false)) (r := []) (.inr rfl)
      rw [List.append_nil] at k2
      refine ⟨pushL ret s, ?_, pushL_matches.mpr ⟨r, rfl, hm⟩⟩
      simp only [evalInstr, k1, Option.bind_some, endL_iff.mpr k2]
  | .loop ret body, C, a, b, h, s, r, hm => by
    cases h with
    | loop h =>
      obtain ⟨s1, k1, k2⟩ := complete_expr h (s := ([], false)) (r := []) (.inr rfl)
      rw [List.append_nil] at k2
      refine ⟨pushL ret s, ?_, pushL_matches.mpr ⟨r, rfl, hm⟩⟩
      simp only [evalInstr, k1, Option.bind_some, endL_iff.mpr k2]
  | .ifElse ret thn els, C, a, b, h, s, r, hm => by
    cases h with
    | ifElse h h' =>
      obtain ⟨s1, k1, k2⟩ := complete_expr h (s := ([], false)) (r := []) (.inr rfl)
      obtain ⟨s2, k3, k4⟩ := complete_expr h' (s := ([], false)) (r := []) (.inr rfl)
      rw [List.append_nil] at k2 k4
      obtain ⟨s0, k5, k6⟩ := complete_step (b := ret) hm
      refine ⟨pushL ret s0, ?_, k6⟩
      rw [show [Val.i32].reverse = [.i32] from rfl] at k5
      simp only [evalInstr, k5, k1, k3, Option.bind_some, endL_iff.mpr k2, endL_iff.mpr k4]
  | .elseMark, _, _, _, h, _, _, _ => by cases h
  | .endMark, _, _, _, h, _, _, _ => by cases h
  | .br l, C, a, b, h, s, r, hm => by
    cases h with
    | @br _ _ lr ts _ h =>
      rw [List.reverse_append, List.append_assoc] at hm
      obtain ⟨s1, k1, _⟩ := popsL_complete hm
      exact ⟨([], true), by simp only [evalInstr, h, k1, Option.bind_some], .inl rfl⟩
  | .brIf l, C, a, b, h, s, r, hm => by
    cases h with
    | brIf h =>
      rw [List.reverse_append, List.append_assoc] at hm
      obtain ⟨s1, k1, k2⟩ := popsL_complete hm
      obtain ⟨s2, k3, k4⟩ := complete_step (b := b) k2
      rw [show [Val.i32].reverse = [.i32] from rfl] at k1
      exact ⟨_, by simp only [evalInstr, h, k1, k3, Option.bind_some], k4⟩
  | .brTable ls l, C, a, b, h, s, r, hm => by
    cases h with
    | @brTable _ _ _ lr ts _ h1 h2 =>
      rw [List.reverse_append, List.reverse_append, List.append_assoc, List.append_assoc] at hm
      obtain ⟨s1, k1, k2⟩ := popsL_complete hm
      obtain ⟨s2, k3, k4⟩ := popsL_complete k2
      rw [show [Val.i32].reverse = [.i32] from rfl] at k1
      exact ⟨([], true), by simp only [evalInstr, h2, k1, k3, Option.bind_some]; rw [if_pos h1], .inl rfl⟩
  | .ret, C, a, b, h, s, r, hm => by
    cases h with
    | @ret _ lr ts _ h =>
      rw [List.reverse_append, List.append_assoc] at hm
      obtain ⟨s1, k1, _⟩ := popsL_complete hm
      exact ⟨([], true), by simp only [evalInstr, h, k1, Option.bind_some], .inl rfl⟩
  | .call x, C, a, b, h, s, r, hm => by
    cases h with
    | @call _ _ t h =>
      obtain ⟨s1, k1, k2⟩ := complete_step (b := t.results) hm
      exact ⟨_, by simp only [evalInstr, h, k1, Option.bind_some], k2⟩
  | .callIndirect x y, C, a, b, h, s, r, hm => by
    cases h with
    | @callIndirect _ _ _ t tb h0 _ h =>
      rw [List.reverse_append, List.append_assoc] at hm
      obtain ⟨s1, k1, k2⟩ := popsL_complete hm
      obtain ⟨s2, k3, k4⟩ := complete_step (b := t.results) k2
      rw [show [Val.i32].reverse = [.i32] from rfl] at k1
      exact ⟨_, by simp only [evalInstr, h0, h, k1, k3, Option.bind_some], k4⟩
  | .drop, C, a, b, h, s, r, hm => by
    cases h with
    | drop t =>
      obtain ⟨x, s1, k1, _, k2⟩ := popL_complete (op := .unknown) hm trivial
      exact ⟨s1, by simp only [evalInstr, k1, Option.bind_some], k2⟩
  | .select, C, a, b, h, s, r, hm => by
    cases h with
    | select t =>
      obtain ⟨s0, k0, k1⟩ := popsL_complete (vs := [.i32]) (ts := t :: t :: r) hm
      obtain ⟨x, s1, k2, k3, k4⟩ := popL_complete (op := .unknown) k1 trivial
      obtain ⟨y, s2, k5, k6, k7⟩ := popL_complete k4 k3
      exact ⟨(y :: s2.1, s2.2), by simp only [evalInstr, k0, k2, k5, Option.bind_some], k6, k7⟩
  | .localGet x, C, a, b, h, s, r, hm => by
    cases h with
    | localGet h => exact ⟨_, by simp only [evalInstr, h, Option.bind_some], pushL_matches.mpr ⟨r, rfl, hm⟩⟩
  | .localSet x, C, a, b, h, s, r, hm => by
    cases h with
    | @localSet _ _ t h =>
      obtain ⟨s1, k1, k2⟩ := popsL_complete (vs := [t]) hm
      exact ⟨s1, by simp only [evalInstr, h, k1, Option.bind_some], k2⟩
  | .localTee x, C, a, b, h, s, r, hm => by
    cases h with
    | @localTee _ _ t h =>
      obtain ⟨s1, k1, k2⟩ := popsL_complete (vs := [t]) hm
      exact ⟨_, by simp only [evalInstr, h, k1, Option.bind_some], pushL_matches.mpr ⟨r, rfl, k2⟩⟩
  | .globalGet x, C, a, b, h, s, r, hm => by
    cases h with
    | globalGet h => exact ⟨_, by simp only [evalInstr, h, Option.bind_some], pushL_matches.mpr ⟨r, rfl, hm⟩⟩
  | .globalSet x, C, a, b, h, s, r, hm => by
    cases h with
    | @globalSet _ _ t h hv =>
      obtain ⟨s1, k1, k2⟩ := popsL_complete (vs := [t.val]) hm
      exact ⟨s1, by simp only [evalInstr, h, k1, Option.bind_some, if_pos hv], k2⟩
  | .load op _ _, C, a, b, h, s, r, hm => by
    cases h with
    | @load _ _ _ _ m h _ =>
      obtain ⟨s1, k1, k2⟩ := popsL_complete (vs := [.i32]) hm
      refine ⟨_, by simp only [evalInstr, h, k1, Option.bind_some]; rfl, ?_⟩
      rw [← loadType_eq]
      exact pushL_matches.mpr ⟨r, rfl, k2⟩
  | .store op _ _, C, a, b, h, s, r, hm => by
    cases h with
    | @store _ _ _ _ m h _ =>
      obtain ⟨s1, k1, k2⟩ := popsL_complete (vs := [(storeType op).1, .i32]) hm
      rw [storeType_eq] at k1
      exact ⟨s1, by simp only [evalInstr, h, k1, Option.bind_some], k2⟩
  | .memSize x, C, a, b, h, s, r, hm => by
    cases h with
    | memSize h => exact ⟨_, by simp only [evalInstr, h, Option.bind_some], pushL_matches.mpr ⟨r, rfl, hm⟩⟩
  | .memGrow x, C, a, b, h, s, r, hm => by
    cases h with
    | memGrow h =>
      obtain ⟨s1, k1, k2⟩ := popsL_complete (vs := [.i32]) hm
      exact ⟨_, by simp only [evalInstr, h, k1, Option.bind_some], pushL_matches.mpr ⟨r, rfl, k2⟩⟩
  | .constI32 _, C, a, b, h, s, r, hm => by cases h; exact ⟨_, rfl, pushL_matches.mpr ⟨r, rfl, hm⟩⟩
  | .constI64 _, C, a, b, h, s, r, hm => by cases h; exact ⟨_, rfl, pushL_matches.mpr ⟨r, rfl, hm⟩⟩
  | .constF32 _, C, a, b, h, s, r, hm => by cases h; exact ⟨_, rfl, pushL_matches.mpr ⟨r, rfl, hm⟩⟩
  | .constF64 _, C, a, b, h, s, r, hm => by cases h; exact ⟨_, rfl, pushL_matches.mpr ⟨r, rfl, hm⟩⟩
  | .num op, C, a, b, h, s, r, hm => by
    cases h with
    | num =>
      obtain ⟨s1, k1, k2⟩ := complete_step (b := (numType op).2) hm
      rw [numType_eq] at k1 k2
      refine ⟨_, by simp only [evalInstr, k1, Option.bind_some]; rfl, ?_⟩
      rw [numType_eq]
      exact k2

theorem complete_expr : ∀ {e : List Instr} {C : Env} {a b : List Val}, HasTypes C e a b → ∀ {s : Loc} {r : List Val},
    Matches s (a.reverse ++ r) → ∃ s', evalExpr C e s = some s' ∧ Matches s' (b.reverse ++ r)
  | [], _, _, _, h, s, r, hm => by obtain rfl := hasTypes_nil h; exact ⟨s, rfl, hm⟩
  | i :: is, C, a, b, h, s, r, hm => by
    obtain ⟨t0, x, y, rfl, h1, h2⟩ := hasTypes_cons.mp h
    rw [List.reverse_append, List.append_assoc] at hm
    obtain ⟨s1, k1, k2⟩ := complete_instr h1 hm
    rw [← List.append_assoc, ← List.reverse_append] at k2
    obtain ⟨s2, k3, k4⟩ := complete_expr h2 k2
    exact ⟨s2, by simp only [evalExpr, k1, Option.bind_some, k3], k4⟩

end

end Whasm
