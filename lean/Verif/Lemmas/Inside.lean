import Verif.Lemmas.Plain

/-!
# Validation of an expression inside any stack of frames
-/

namespace Whasm
open Spec

theorem labelsOf_eq : ∀ (l : List Val) (f : Frame), f.label = l → ∀ rest : List Frame, labelsOf l rest = (f :: rest).dropLast.map (·.label)
  | l, f, hf, [] => rfl
  | l, f, hf, g :: rest => by
    rw [labelsOf, labelsOf_eq g.label g rfl rest, List.dropLast_cons_cons, List.map_cons, hf]

theorem mk_eta {c : Ctx} {f : Frame} {rest : List Frame} (hf : c.frames = f :: rest) {top base : List Operand}
    (ho : c.operands = top ++ base) (hh : f.height = base.length) : c = mk c base f.label f.out rest (top, f.unreachable) := by
  obtain ⟨ty, fs, tb, ms, gs, ls, rt, ops, frs⟩ := c
  obtain ⟨fl, fo, fh, fu⟩ := f
  simp only at hf ho hh
  subst hf ho hh
  rfl

theorem viewOf_mk (c : Ctx) (base : List Operand) (l o : List Val) (rest : List Frame) (s : Loc) :
    viewOf (mk c base l o rest s) = envOf c (labelsOf l rest) := by
  unfold viewOf envOf
  rw [labelsOf_eq l { label := l, out := o, height := base.length, unreachable := s.2 } rfl rest]
  rfl

/-- The state splits at the height of the innermost frame. -/
theorem inside_split {c : Ctx} {f : Frame} (hh : f.height ≤ c.operands.length) :
    ∃ top base, c.operands = top ++ base ∧ f.height = base.length :=
  ⟨c.operands.take (c.operands.length - f.height), c.operands.drop (c.operands.length - f.height),
    (List.take_append_drop _ _).symm, by rw [List.length_drop]; omega⟩

/-- A block inside any frame is accepted exactly if its body is well typed, whatever is on the stack. -/
theorem block_iff {c : Ctx} {f : Frame} {rest : List Frame} (hf : c.frames = f :: rest) (hh : f.height ≤ c.operands.length) (r : RetVal)
    {body : List Instr} (hp : plainL body) :
    (∃ c', validateInstr (.block r body) c = .ok ((), c')) ↔ HasTypes { viewOf c with labels := r :: (viewOf c).labels } body [] r := by
  obtain ⟨top, base, ho, hb⟩ := inside_split hh
  have hc := mk_eta hf ho hb
  rw [hc, viewOf_mk, exec_instr c _ (by rw [plainI]; exact hp), evalInstr]
  have hi := eval_iff (C := { envOf c (labelsOf f.label rest) with labels := r :: labelsOf f.label rest }) rfl (e := body) (r := r)
  show _ ↔ ExprType { envOf c (labelsOf f.label rest) with labels := r :: labelsOf f.label rest } body r
  rw [← hi]
  cases he : evalExpr { envOf c (labelsOf f.label rest) with labels := r :: labelsOf f.label rest } body ([], false) with
  | none => 
    show (∃ c', outU _ _ _ _ _ ((evalExpr { envOf c (labelsOf f.label rest) with labels := r :: labelsOf f.label rest } body ([], false)).bind _)  = _) ↔ _
    rw [he]
    simp [outU, outcome]
  | some s =>
    show (∃ c', outU _ _ _ _ _ ((evalExpr { envOf c (labelsOf f.label rest) with labels := r :: labelsOf f.label rest } body ([], false)).bind _)  = _) ↔ _
    rw [he]
    simp only [Option.bind_some]
    cases hn : endL r s with
    | none => simp [outU, outcome]
    | some u => simp [outU, outcome]

end Whasm
