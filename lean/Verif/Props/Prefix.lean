import Verif.Lemmas.Prefix
import Verif.Lemmas.Rewrite
import Verif.Props.Points

/-!
# C85: validation knows as much as there is to know about the code it has seen

The operands in the context describe exactly the types that the code so far can have, neither more nor less. So validation fails as early as possible: if it gets to a place, the code up to there is the beginning
of an accepted body.
-/

namespace Whasm
open Spec Run

/-- **C85.** Inside any frames: if validation goes through code `e`, the operands it has then admit exactly the types that `e` can deliver for operands admitted before. -/
theorem C85_principal {e : List Instr} (hm : ¬ Occurs .endMark e ∧ ¬ Occurs .elseMark e) {c c' : Ctx} {f : Frame} {outer : List Frame} (hf : c.frames = f :: outer)
    (hh : f.height ≤ c.operands.length) (h : validateExpr e c = .ok ((), c')) (ts' : List Val) :
    Admits c' ts' ↔ ∃ ts, Admits c ts ∧ HasTypes (viewOf c) e ts ts' := by
  obtain ⟨top, base, ho, hb⟩ := inside_split hh
  have hc := mk_eta hf ho hb
  rw [hc, exec_expr c e (plain_iff.mpr hm)] at h
  obtain ⟨s', hs, rfl⟩ := outU_ok h
  rw [hc, viewOf_mk, admits_mk]
  constructor
  · intro h1
    obtain ⟨ts, h2, h3⟩ := sound_expr (C := envOf c (labelsOf f.label outer)) rfl hs h1
    refine ⟨ts.reverse, ?_, by rwa [List.reverse_reverse] at h3⟩
    rw [admits_mk, List.reverse_reverse]
    exact h2
  · rintro ⟨ts, h1, h2⟩
    rw [admits_mk] at h1
    obtain ⟨s2, h3, h4⟩ := complete_expr h2 (s := (top, f.unreachable)) (r := []) (by rw [List.append_nil]; exact h1)
    have h5 : some s2 = some s' := h3.symm.trans hs
    cases h5
    rw [List.append_nil] at h4
    exact h4

/-- **C85, errors.** Inside any frames: code is rejected exactly if it has no type for any operands that are admitted. -/
theorem C85_reject {e : List Instr} (hm : ¬ Occurs .endMark e ∧ ¬ Occurs .elseMark e) {c : Ctx} {f : Frame} {outer : List Frame} (hf : c.frames = f :: outer)
    (hh : f.height ≤ c.operands.length) : validateExpr e c = .error .invalid ↔ ∀ ts ts', Admits c ts → ¬ HasTypes (viewOf c) e ts ts' := by
  obtain ⟨top, base, ho, hb⟩ := inside_split hh
  have hc := mk_eta hf ho hb
  constructor
  · intro h ts ts' h1 h2
    rw [hc, exec_expr c e (plain_iff.mpr hm)] at h
    rw [hc, viewOf_mk] at h2
    rw [hc, admits_mk] at h1
    obtain ⟨s2, h3, _⟩ := complete_expr h2 (s := (top, f.unreachable)) (r := []) (by rw [List.append_nil]; exact h1)
    have h4 : evalExpr (envOf c (labelsOf f.label outer)) e (top, f.unreachable) = some s2 := h3
    rw [h4] at h
    cases h
  · intro h
    have hx := exec_expr c e (plain_iff.mpr hm) base f.label f.out outer (top, f.unreachable)
    rw [← hc] at hx
    cases hs : evalExpr (envOf c (labelsOf f.label outer)) e (top, f.unreachable) with
    | none => rw [hx, hs]; rfl
    | some s' =>
      rw [hs] at hx
      obtain ⟨ts', h1⟩ := matches_exists s'
      obtain ⟨ts, h2, h3⟩ := (C85_principal hm hf hh hx ts'.reverse).mp (by rw [admits_mk, List.reverse_reverse]; exact h1)
      exact absurd h3 (h ts _ h2)

/-- **C85, as early as possible.** In a module whose other parts are accepted, validation of a body `b` gets to a place `p` exactly if there is an accepted body that begins in the same way. -/
theorem C85_early {m : Module} {r : ModuleResult} (h : validateModule m = .ok r) {k : Nat} {f : Func} (hf : m.funcs[k]? = some f) {b : List Instr}
    (hb : ¬ Occurs .endMark b ∧ ¬ Occurs .elseMark b) {p : Place} (hp : SameBefore p b b) :
    (∃ x, arriveFunc { f with body := b } p (spaces m) = .ok ((), x)) ↔
      ∃ b', SameBefore p b b' ∧ ¬ Occurs .elseMark b' ∧ validateModule (withBody m k b') = .ok r := by
  obtain ⟨t, ht⟩ : ∃ t, m.types[f.ty.toNat]? = some t := by
    obtain ⟨⟨_, ha⟩, _⟩ := validate_any_iff.mp h
    obtain ⟨t, h1, _⟩ := accepted_type (ha f (List.mem_of_getElem? hf))
    exact ⟨t, h1⟩
  let x : Ctx := { spaces m with ret := some t.results, locals := t.params ++ f.locals }
  have start : ∀ e, arriveFunc { f with body := e } p (spaces m) = arrive p e (mk x [] t.results t.results [] ([], false)) := by
    intro e
    have hl : validateTypeIdx f.ty (spaces m) = .ok (t, spaces m) := by
      show lookup m.types f.ty (spaces m) = _
      unfold lookup
      rw [ht, if_neg (Nat.not_le_of_lt (List.getElem?_eq_some_iff.mp ht).1)]
    unfold arriveFunc
    rw [bind_ok hl]
    rfl
  constructor
  · rintro ⟨y, hy⟩
    rw [start] at hy
    obtain ⟨e, h1, h2, h3⟩ := complete_of_arrive (x := x) hp (plain_iff.mpr hb)
    have he := (plain_iff.mp h2).2
    refine ⟨e, h1, he, (withBody_ok h hf).mpr ((accepted_typed ht he).mpr ?_)⟩
    have h4 := h3 hy
    refine (eval_iff (C := bodyEnv .code m t f.locals) rfl).mp ?_
    have h5 : evalExpr (bodyEnv .code m t f.locals) e ([], false) = some ([], true) := h4
    rw [h5]
    exact endL_poly _
  · rintro ⟨b', h1, h2, h3⟩
    rw [withBody_ok h hf, accepted_typed ht h2] at h3
    obtain ⟨s, hs, _⟩ := complete_expr (C := envOf x []) h3 (s := ([], false)) (r := []) (.inr rfl)
    rw [start, arrive_same h1]
    exact arrive_of_eval (same_symm h1) (base := []) (l := t.results) (o := t.results) (rest := []) (hasTypes_plain h3) hs

/-! Examples -/

/-- (func (result i32)  unreachable) -/
def bareModule : Module := { types := [⟨[], [.i32]⟩], funcs := [⟨0, [], [.unreachable]⟩] }

-- after `i32.const 1  if (result i64)  i64.const 2` validation has an `i64` in the block
example : (match arriveFunc { bareModule.funcs[0] with body := [.constI32 1, .ifElse [.i64] [.constI64 2, .drop, .drop] []] } (.inside 1 (.here 1)) (spaces bareModule) with
    | .ok (_, x) => some (x.operands, x.frames.map (·.height))
    | .error _ => none) = some ([.val .i64], [0, 0]) := by decide +kernel

-- one `drop` can still be repaired, the second one cannot
example : ∃ b', SameBefore (.inside 1 (.here 2)) [.constI32 1, .ifElse [.i64] [.constI64 2, .drop, .drop] []] b' ∧ ¬ Occurs .elseMark b' ∧
    validateModule (withBody bareModule 0 b') = .ok ⟨[], []⟩ :=
  (C85_early (m := bareModule) (by decide +kernel) rfl (plain_iff.mp (by simp [plainL, plainI]))
    (.ifThen [.constI32 1] [] [] [.i64] [] [] (.here [.constI64 2, .drop] [.drop] [.drop]))).mp ⟨{ spaces bareModule with ret := some [.i32], frames := [⟨[.i64], [.i64], 0, false⟩, ⟨[.i32], [.i32], 0, false⟩] }, by decide +kernel⟩

example : ¬ ∃ b', SameBefore (.inside 1 (.here 3)) [.constI32 1, .ifElse [.i64] [.constI64 2, .drop, .drop] []] b' ∧ ¬ Occurs .elseMark b' ∧
    validateModule (withBody bareModule 0 b') = .ok ⟨[], []⟩ := fun h => by
  obtain ⟨x, hx⟩ := (C85_early (m := bareModule) (r := ⟨[], []⟩) (by decide +kernel) (k := 0) rfl (plain_iff.mp (by simp [plainL, plainI]))
    (.ifThen [.constI32 1] [] [] [.i64] [] [] (.here [.constI64 2, .drop, .drop] [] []))).mpr h
  have e : arriveFunc { bareModule.funcs[0] with body := [.constI32 1, .ifElse [.i64] [.constI64 2, .drop, .drop] []] } (.inside 1 (.here 3)) (spaces bareModule) = .error .invalid := by
    decide +kernel
  exact absurd (e.symm.trans hx) (fun h => by cases h)

-- `unreachable  select` leaves an unknown operand: any one type, on any operands below it, and no empty stack
example : (∀ t below, Admits { operands := [.unknown], frames := [⟨[], [], 0, true⟩] } (below ++ [t])) ∧ ¬ Admits { operands := [.unknown], frames := [⟨[], [], 0, true⟩] } [] := by
  refine ⟨fun t below => ⟨_, _, below, [t], rfl, rfl, .inr rfl, rfl, fun n t' h => ?_⟩, ?_⟩
  · cases n with
    | zero => exact .inl rfl
    | succ n => cases h
  · rintro ⟨f, fs, below, known, h1, h2, _, h3, _⟩
    cases h1
    obtain ⟨rfl, rfl⟩ := List.append_eq_nil_iff.mp h2.symm
    cases h3

example : validateExpr [.unreachable, .select] { frames := [⟨[], [], 0, false⟩] } = .ok ((), { operands := [.unknown], frames := [⟨[], [], 0, true⟩] }) := by decide +kernel

-- so `unreachable  select  f32.neg` has a type, and `unreachable  select  f32.neg  i32.eqz` has none
example : validateExpr [.unreachable, .select, .num .f32Neg, .num .i32Eqz] { frames := [⟨[], [], 0, false⟩] } = .error .invalid := by decide +kernel

example (ts' : List Val) : ¬ HasTypes { aligned := false } [.unreachable, .select, .num .f32Neg, .num .i32Eqz] [] ts' :=
  (C85_reject (e := [.unreachable, .select, .num .f32Neg, .num .i32Eqz]) (plain_iff.mp (by simp [plainL, plainI])) (c := { frames := [⟨[], [], 0, false⟩] }) rfl (Nat.le_refl 0)).mp
    (by decide +kernel) [] ts' ⟨_, _, [], [], rfl, rfl, .inl rfl, rfl, fun n t h => by cases h⟩

end Whasm
