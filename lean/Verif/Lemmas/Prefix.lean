import Verif.Lemmas.Inside
import Verif.Lemmas.Points
import Verif.Spec.Prefix

/-!
# Validation of the beginning of a function body
-/

namespace Whasm
open Spec Run

/-! ## The types that a context admits -/

theorem matchesL_iff {u : Bool} : ∀ {ops : List Operand} {ts : List Val}, MatchesL u ops ts ↔
    ∃ known below, ts = known ++ below ∧ (below = [] ∨ u = true) ∧ known.length = ops.length ∧ ∀ (n : Nat) t, known[n]? = some t → ops[n]? = some Operand.unknown ∨ ops[n]? = some (Operand.val t)
  | [], ts => by
    constructor
    · rintro (h | rfl)
      · exact ⟨[], ts, rfl, .inr h, rfl, fun n t h => by cases h⟩
      · exact ⟨[], [], rfl, .inl rfl, rfl, fun n t h => by cases h⟩
    · rintro ⟨known, below, rfl, h, h2, _⟩
      obtain rfl := List.length_eq_zero_iff.mp h2
      exact h.symm
  | o :: ops, [] => by
    refine ⟨fun h => h.elim, ?_⟩
    rintro ⟨known, below, h1, _, h2, _⟩
    obtain ⟨rfl, rfl⟩ := List.append_eq_nil_iff.mp h1.symm
    cases h2
  | o :: ops, t :: ts => by
    show _ ∧ MatchesL u ops ts ↔ _
    rw [matchesL_iff (ops := ops)]
    constructor
    · rintro ⟨h1, known, below, rfl, h2, h3, h4⟩
      refine ⟨t :: known, below, rfl, h2, by simp [h3], fun n t' h => ?_⟩
      cases n with
      | zero =>
        simp only [List.getElem?_cons_zero, Option.some.injEq] at h ⊢
        subst h
        cases o with
        | unknown => exact .inl rfl
        | val v => exact .inr (congrArg _ h1)
      | succ n => exact h4 n t' h
    · rintro ⟨known, below, h1, h2, h3, h4⟩
      cases known with
      | nil => cases h3
      | cons k known =>
        obtain ⟨rfl, rfl⟩ := List.cons.inj h1
        refine ⟨?_, known, below, rfl, h2, by simpa using h3, fun n t' h => h4 (n + 1) t' h⟩
        have := h4 0 t rfl
        cases o with
        | unknown => exact trivial
        | val v =>
          rcases this with h | h
          · cases h
          · cases h; rfl

theorem admits_mk {c : Ctx} {base : List Operand} {l o : List Val} {rest : List Frame} {s : Loc} {ts : List Val} :
    Admits (mk c base l o rest s) ts ↔ Matches s ts.reverse := by
  unfold Matches
  rw [matchesL_iff]
  constructor
  · rintro ⟨f, fs, below, known, h1, rfl, h2, h3, h4⟩
    cases h1
    have h5 : known.length = s.1.length := by
      rw [h3]; simp [mk]
    refine ⟨known.reverse, below.reverse, by rw [List.reverse_append], by simpa using h2, by simpa using h5, fun n t h => ?_⟩
    have hn : n < s.1.length := by
      have := (List.getElem?_eq_some_iff.mp h).1
      rw [List.length_reverse] at this
      omega
    have := h4 n t h
    simpa [mk, List.getElem?_append_left hn] using this
  · rintro ⟨known, below, h1, h2, h3, h4⟩
    refine ⟨_, _, below.reverse, known.reverse, rfl, ?_, by simpa using h2, by simp [mk, h3], fun n t h => ?_⟩
    · rw [← List.reverse_append, ← h1, List.reverse_reverse]
    · rw [List.reverse_reverse] at h
      have hn : n < s.1.length := by
        have := (List.getElem?_eq_some_iff.mp h).1
        omega
      have := h4 n t h
      simpa [mk, List.getElem?_append_left hn] using this

/-! ## Places -/

theorem get_mid {pre a : List Instr} {i : Instr} : (pre ++ i :: a)[pre.length]? = some i := by simp

/-- Validation up to a place does not depend on what comes later. -/
theorem arrive_same {p : Place} {a b : List Instr} (h : SameBefore p a b) : arrive p a = arrive p b := by
  induction h with
  | here pre a b => simp only [arrive, List.take_left' rfl]
  | block pre a b r h ih => simp only [arrive, get_mid, List.take_left' rfl, ih]
  | loop pre a b r h ih => simp only [arrive, get_mid, List.take_left' rfl, ih]
  | ifThen pre a b r e e' h ih => simp only [arrive, get_mid, List.take_left' rfl, ih]
  | ifElse pre a b r t h ih => simp only [arrive, get_mid, List.take_left' rfl, ih]

theorem same_left {p : Place} {a b : List Instr} (h : SameBefore p a b) : SameBefore p a a := by
  induction h with
  | here pre a b => exact .here ..
  | block pre a b r h ih => exact .block _ _ _ _ ih
  | loop pre a b r h ih => exact .loop _ _ _ _ ih
  | ifThen pre a b r e e' h ih => exact .ifThen _ _ _ _ _ _ ih
  | ifElse pre a b r t h ih => exact .ifElse _ _ _ _ _ ih

theorem same_symm {p : Place} {a b : List Instr} (h : SameBefore p a b) : SameBefore p b a := by
  induction h with
  | here pre a b => exact .here ..
  | block pre a b r h ih => exact .block _ _ _ _ ih
  | loop pre a b r h ih => exact .loop _ _ _ _ ih
  | ifThen pre a b r e e' h ih => exact .ifThen _ _ _ _ _ _ ih
  | ifElse pre a b r t h ih => exact .ifElse _ _ _ _ _ ih

theorem plainL_append {a b : List Instr} : plainL (a ++ b) ↔ plainL a ∧ plainL b := by
  induction a with
  | nil => simp [plainL]
  | cons i a ih => simp only [List.cons_append, plainL, ih, and_assoc]

theorem pops_poly : ∀ (vs : List Val), popsL vs ([], true) = some ([], true)
  | [] => rfl
  | v :: vs => by simp [popsL, popL, pops_poly vs]

theorem endL_poly (r : List Val) : endL r ([], true) = some () := by simp [endL, pops_poly]

theorem eval_unreachable {C : Env} {s : Loc} : evalExpr C [.unreachable] s = some ([], true) := rfl

section
variable {x : Ctx}

/-- A whole expression that is accepted is accepted up to every place. -/
theorem arrive_of_eval {p : Place} {a b : List Instr} (h : SameBefore p a b) : ∀ {base : List Operand} {l o : List Val} {rest : List Frame} {s s' : Loc}, plainL a →
    evalExpr (envOf x (labelsOf l rest)) a s = some s' → ∃ y, arrive p a (mk x base l o rest s) = .ok ((), y) := by
  induction h with
  | here pre a b =>
    intro base l o rest s s' hp he
    rw [evalExpr_append, Option.bind_eq_some_iff] at he
    obtain ⟨s1, h1, _⟩ := he
    refine ⟨mk x base l o rest s1, ?_⟩
    rw [arrive, List.take_left' rfl, exec_expr x _ (plainL_append.mp hp).1, h1]
    rfl
  | block pre a b r h ih =>
    intro base l o rest s s' hp he
    obtain ⟨hp1, hp2, _⟩ := plainL_append.mp hp
    simp only [evalExpr_append, evalExpr, evalInstr, Option.bind_eq_some_iff] at he
    obtain ⟨s1, h1, s2, ⟨s3, h3, _⟩, _⟩ := he
    simp only [arrive, get_mid, List.take_left' rfl]
    rw [bind_ok (by rw [exec_expr x _ hp1, h1]; rfl)]
    exact ih (base := s1.1 ++ base) (l := r) (o := r) (rest := ⟨l, o, base.length, s1.2⟩ :: rest) (s := ([], false)) hp2 h3
  | loop pre a b r h ih =>
    intro base l o rest s s' hp he
    obtain ⟨hp1, hp2, _⟩ := plainL_append.mp hp
    simp only [evalExpr_append, evalExpr, evalInstr, Option.bind_eq_some_iff] at he
    obtain ⟨s1, h1, s2, ⟨s3, h3, _⟩, _⟩ := he
    simp only [arrive, get_mid, List.take_left' rfl]
    rw [bind_ok (by rw [exec_expr x _ hp1, h1]; rfl)]
    exact ih (base := s1.1 ++ base) (l := []) (o := r) (rest := ⟨l, o, base.length, s1.2⟩ :: rest) (s := ([], false)) hp2 h3
  | ifThen pre a b r e e' h ih =>
    intro base l o rest s s' hp he
    obtain ⟨hp1, hp2, _⟩ := plainL_append.mp hp
    simp only [evalExpr_append, evalExpr, evalInstr, Option.bind_eq_some_iff] at he
    obtain ⟨s1, h1, s2, ⟨s3, h3, s4, h4, _⟩, _⟩ := he
    simp only [arrive, get_mid, List.take_left' rfl]
    rw [bind_ok (by rw [exec_expr x _ hp1, h1]; rfl)]
    have hq := Whasm.pops (c := x) (base := base) (l := l) (o := o) (rest := rest) [.i32] s1
    rw [List.reverse_singleton, h3] at hq
    show ∃ y, (popOperands [.i32] >>= fun _ => pushFrame r r >>= fun _ => arrive _ _) _ = _
    rw [bind_ok hq]
    exact ih (base := s3.1 ++ base) (l := r) (o := r) (rest := ⟨l, o, base.length, s3.2⟩ :: rest) (s := ([], false)) hp2.1 h4
  | ifElse pre a b r t h ih =>
    intro base l o rest s s' hp he
    obtain ⟨hp1, hp2, _⟩ := plainL_append.mp hp
    simp only [evalExpr_append, evalExpr, evalInstr, Option.bind_eq_some_iff] at he
    obtain ⟨s1, h1, s2, ⟨s3, h3, s4, h4, _, h5, s6, h6, _⟩, _⟩ := he
    simp only [arrive, get_mid, List.take_left' rfl]
    rw [bind_ok (by rw [exec_expr x _ hp1, h1]; rfl)]
    have hq := Whasm.pops (c := x) (base := base) (l := l) (o := o) (rest := rest) [.i32] s1
    rw [List.reverse_singleton, h3] at hq
    show ∃ y, (popOperands [.i32] >>= fun _ => pushFrame r r >>= fun _ => validateExpr t >>= fun _ => validateElse >>= fun _ => arrive _ _) _ = _
    rw [bind_ok hq]
    show ∃ y, (validateExpr t >>= fun _ => validateElse >>= fun _ => arrive _ _) (mk x (s3.1 ++ base) r r (⟨l, o, base.length, s3.2⟩ :: rest) ([], false)) = _
    have hx := exec_expr x t hp2.1 (s3.1 ++ base) r r (⟨l, o, base.length, s3.2⟩ :: rest) ([], false)
    have h4' : evalExpr (envOf x (labelsOf r (⟨l, o, base.length, s3.2⟩ :: rest))) t ([], false) = some s4 := h4
    rw [h4'] at hx
    rw [bind_ok hx]
    have hf := popFrame_mk x (s3.1 ++ base) r r (⟨l, o, base.length, s3.2⟩ :: rest) s4
    rw [h5] at hf
    have hv : validateElse (mk x (s3.1 ++ base) r r (⟨l, o, base.length, s3.2⟩ :: rest) s4) =
        .ok ((), mk x (s3.1 ++ base) r r (⟨l, o, base.length, s3.2⟩ :: rest) ([], false)) := by
      show (popFrame >>= fun ret => pushFrame ret ret) _ = _
      rw [bind_ok hf]
      rfl
    rw [bind_ok hv]
    exact ih (base := s3.1 ++ base) (l := r) (o := r) (rest := ⟨l, o, base.length, s3.2⟩ :: rest) (s := ([], false)) hp2.2 h6

theorem bind_okU {p : V Unit} {f : Unit → V Unit} {c y : Ctx} (h : (p >>= f) c = .ok ((), y)) : ∃ c', p c = .ok ((), c') ∧ f () c' = .ok ((), y) := by
  cases hp : p c with
  | error e => rw [bind_err hp] at h; cases h
  | ok z => obtain ⟨⟨⟩, c'⟩ := z; rw [bind_ok hp] at h; exact ⟨c', rfl, h⟩

theorem outU_ok {c : Ctx} {base : List Operand} {l o : List Val} {rest : List Frame} {r : Option Loc} {y : Ctx} (h : outU c base l o rest r = .ok ((), y)) :
    ∃ s, r = some s ∧ y = mk c base l o rest s := by
  cases r with
  | none => cases h
  | some s => cases h; exact ⟨s, rfl, rfl⟩

/-- What is accepted up to a place can be completed: with `unreachable` there, and after each block around it. -/
theorem complete_of_arrive {p : Place} {a b : List Instr} (h : SameBefore p a b) : plainL a → ∃ e, SameBefore p a e ∧ plainL e ∧
    ∀ {base : List Operand} {l o : List Val} {rest : List Frame} {s : Loc} {y : Ctx}, arrive p a (mk x base l o rest s) = .ok ((), y) →
      evalExpr (envOf x (labelsOf l rest)) e s = some ([], true) := by
  induction h with
  | here pre a b =>
    intro hp
    have hp1 := (plainL_append.mp hp).1
    refine ⟨pre ++ [.unreachable], .here .., by simp [plainL_append, plainL, plainI, hp1], fun {base l o rest s y} ha => ?_⟩
    rw [arrive, List.take_left' rfl, exec_expr x _ hp1] at ha
    obtain ⟨s1, h1, _⟩ := outU_ok ha
    rw [evalExpr_append, h1]
    rfl
  | block pre a b r h ih =>
    intro hp
    obtain ⟨hp1, hp2, _⟩ := plainL_append.mp hp
    obtain ⟨e, h1, h2, h3⟩ := ih hp2
    refine ⟨pre ++ [.block r e, .unreachable], .block _ _ _ _ h1, by simp [plainL_append, plainL, plainI, hp1, h2], fun {base l o rest s y} ha => ?_⟩
    simp only [arrive, get_mid, List.take_left' rfl] at ha
    obtain ⟨c1, h4, h5⟩ := bind_okU ha
    rw [exec_expr x _ hp1] at h4
    obtain ⟨s1, h6, rfl⟩ := outU_ok h4
    have h7 := h3 (base := s1.1 ++ base) (l := r) (o := r) (rest := ⟨l, o, base.length, s1.2⟩ :: rest) (s := ([], false)) h5
    have h7' : evalExpr { envOf x (labelsOf l rest) with labels := r :: labelsOf l rest } e ([], false) = some ([], true) := h7
    rw [evalExpr_append, h6]
    simp only [Option.bind_some, evalExpr, evalInstr]
    have : (envOf x (labelsOf l rest)).labels = labelsOf l rest := rfl
    rw [this, h7']
    simp only [Option.bind_some, endL_poly]
  | loop pre a b r h ih =>
    intro hp
    obtain ⟨hp1, hp2, _⟩ := plainL_append.mp hp
    obtain ⟨e, h1, h2, h3⟩ := ih hp2
    refine ⟨pre ++ [.loop r e, .unreachable], .loop _ _ _ _ h1, by simp [plainL_append, plainL, plainI, hp1, h2], fun {base l o rest s y} ha => ?_⟩
    simp only [arrive, get_mid, List.take_left' rfl] at ha
    obtain ⟨c1, h4, h5⟩ := bind_okU ha
    rw [exec_expr x _ hp1] at h4
    obtain ⟨s1, h6, rfl⟩ := outU_ok h4
    have h7 := h3 (base := s1.1 ++ base) (l := []) (o := r) (rest := ⟨l, o, base.length, s1.2⟩ :: rest) (s := ([], false)) h5
    have h7' : evalExpr { envOf x (labelsOf l rest) with labels := [] :: labelsOf l rest } e ([], false) = some ([], true) := h7
    rw [evalExpr_append, h6]
    simp only [Option.bind_some, evalExpr, evalInstr]
    have : (envOf x (labelsOf l rest)).labels = labelsOf l rest := rfl
    rw [this, h7']
    simp only [Option.bind_some, endL_poly]
  | ifThen pre a b r e0 e' h ih =>
    intro hp
    obtain ⟨hp1, hp2, _⟩ := plainL_append.mp hp
    obtain ⟨e, h1, h2, h3⟩ := ih hp2.1
    refine ⟨pre ++ [.ifElse r e [.unreachable], .unreachable], .ifThen _ _ _ _ _ _ h1, by simp [plainL_append, plainL, plainI, hp1, h2],
      fun {base l o rest s y} ha => ?_⟩
    simp only [arrive, get_mid, List.take_left' rfl] at ha
    obtain ⟨c1, h4, h5⟩ := bind_okU ha
    rw [exec_expr x _ hp1] at h4
    obtain ⟨s1, h6, rfl⟩ := outU_ok h4
    obtain ⟨c2, h8, h9⟩ := bind_okU (p := popOperands [.i32]) (f := fun _ => pushFrame r r >>= fun _ => arrive _ _) h5
    rw [Whasm.pops, List.reverse_singleton] at h8
    obtain ⟨s2, h10, rfl⟩ := outU_ok h8
    have h7 := h3 (base := s2.1 ++ base) (l := r) (o := r) (rest := ⟨l, o, base.length, s2.2⟩ :: rest) (s := ([], false)) h9
    have h7' : evalExpr { envOf x (labelsOf l rest) with labels := r :: labelsOf l rest } e ([], false) = some ([], true) := h7
    rw [evalExpr_append, h6]
    simp only [Option.bind_some, evalExpr, evalInstr, h10]
    have : (envOf x (labelsOf l rest)).labels = labelsOf l rest := rfl
    rw [this, h7']
    simp only [Option.bind_some, endL_poly]
  | ifElse pre a b r t h ih =>
    intro hp
    obtain ⟨hp1, hp2, _⟩ := plainL_append.mp hp
    obtain ⟨e, h1, h2, h3⟩ := ih hp2.2
    refine ⟨pre ++ [.ifElse r t e, .unreachable], .ifElse _ _ _ _ _ h1, by simp [plainL_append, plainL, plainI, hp1, h2, hp2.1],
      fun {base l o rest s y} ha => ?_⟩
    simp only [arrive, get_mid, List.take_left' rfl] at ha
    obtain ⟨c1, h4, h5⟩ := bind_okU ha
    rw [exec_expr x _ hp1] at h4
    obtain ⟨s1, h6, rfl⟩ := outU_ok h4
    obtain ⟨c2, h8, h9⟩ := bind_okU (p := popOperands [.i32]) (f := fun _ => pushFrame r r >>= fun _ => validateExpr t >>= fun _ => validateElse >>= fun _ => arrive _ _) h5
    rw [Whasm.pops, List.reverse_singleton] at h8
    obtain ⟨s2, h10, rfl⟩ := outU_ok h8
    have h9' : (validateExpr t >>= fun _ => validateElse >>= fun _ => arrive _ _) (mk x (s2.1 ++ base) r r (⟨l, o, base.length, s2.2⟩ :: rest) ([], false)) = .ok ((), y) := h9
    obtain ⟨c3, h11, h12⟩ := bind_okU h9'
    rw [exec_expr x _ hp2.1] at h11
    obtain ⟨s3, h13, rfl⟩ := outU_ok h11
    obtain ⟨c4, h14, h15⟩ := bind_okU h12
    have hf := popFrame_mk x (s2.1 ++ base) r r (⟨l, o, base.length, s2.2⟩ :: rest) s3
    cases h16 : endL r s3 with
    | none =>
      rw [h16] at hf
      have : validateElse (mk x (s2.1 ++ base) r r (⟨l, o, base.length, s2.2⟩ :: rest) s3) = .error .invalid := bind_err hf
      rw [this] at h14
      cases h14
    | some u =>
      rw [h16] at hf
      have hv : validateElse (mk x (s2.1 ++ base) r r (⟨l, o, base.length, s2.2⟩ :: rest) s3) =
          .ok ((), mk x (s2.1 ++ base) r r (⟨l, o, base.length, s2.2⟩ :: rest) ([], false)) := by
        show (popFrame >>= fun ret => pushFrame ret ret) _ = _
        rw [bind_ok hf]
        rfl
      rw [hv] at h14
      cases h14
      have h7 := h3 (base := s2.1 ++ base) (l := r) (o := r) (rest := ⟨l, o, base.length, s2.2⟩ :: rest) (s := ([], false)) h15
      have h7' : evalExpr { envOf x (labelsOf l rest) with labels := r :: labelsOf l rest } e ([], false) = some ([], true) := h7
      have h13' : evalExpr { envOf x (labelsOf l rest) with labels := r :: labelsOf l rest } t ([], false) = some s3 := h13
      rw [evalExpr_append, h6]
      simp only [Option.bind_some, evalExpr, evalInstr, h10]
      have : (envOf x (labelsOf l rest)).labels = labelsOf l rest := rfl
      rw [this, h13', h7']
      simp only [Option.bind_some, h16, endL_poly]

end

end Whasm
