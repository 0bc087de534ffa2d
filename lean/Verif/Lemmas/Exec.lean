import Verif.Lemmas.Local

/-!
# The model computes `evalInstr`
-/

namespace Whasm
open Spec

section
variable (c : Ctx) (base : List Operand) (l o : List Val) (rest : List Frame)

/-- As `outcome`, for steps without result. -/
def outU (r : Option Loc) : Except VErr (Unit × Ctx) := outcome c base l o rest (r.map fun s => ((), s))

variable {c base l o rest}

theorem bindU {p : V Unit} {f : Unit → V Unit} {s : Loc} {r : Option Loc} {k : Loc → Option Loc}
    (h : p (mk c base l o rest s) = outU c base l o rest r)
    (hk : ∀ s', f () (mk c base l o rest s') = outU c base l o rest (k s')) :
    (p >>= f) (mk c base l o rest s) = outU c base l o rest (r.bind k) := by
  cases r with
  | none => exact bind_err h
  | some x => rw [bind_ok h, hk]; rfl

theorem bindA {α : Type} {p : V α} {f : α → V Unit} {s : Loc} {r : Option (α × Loc)} {k : α × Loc → Option Loc}
    (h : p (mk c base l o rest s) = outcome c base l o rest r)
    (hk : ∀ x s', f x (mk c base l o rest s') = outU c base l o rest (k (x, s'))) :
    (p >>= f) (mk c base l o rest s) = outU c base l o rest (r.bind k) := by
  cases r with
  | none => exact bind_err h
  | some x => rw [bind_ok h, hk]; rfl

theorem bindR {α : Type} {p : V α} {f : α → V Unit} {s : Loc} {r : Option α} {k : α → Option Loc}
    (h : p (mk c base l o rest s) = outcome c base l o rest (r.map fun x => (x, s)))
    (hk : ∀ x, f x (mk c base l o rest s) = outU c base l o rest (k x)) :
    (p >>= f) (mk c base l o rest s) = outU c base l o rest (r.bind k) := by
  cases r with
  | none => exact bind_err h
  | some x => rw [bind_ok h, hk]; rfl

theorem pops (vs : List Val) (s : Loc) : popOperands vs (mk c base l o rest s) = outU c base l o rest (popsL vs.reverse s) :=
  popOperands_mk c base l o rest vs s

theorem pushes (vs : List Val) (s : Loc) : pushOperands vs (mk c base l o rest s) = outU c base l o rest (some (pushL vs s)) :=
  pushOperands_mk c base l o rest vs s

theorem unr (s : Loc) : setUnreachable (mk c base l o rest s) = outU c base l o rest (some ([], true)) :=
  setUnreachable_mk c base l o rest s

theorem bindLabel {f : Frame → V Unit} {i : Idx} {s : Loc} {k : List Val → Option Loc}
    (hk : ∀ fr : Frame, f fr (mk c base l o rest s) = outU c base l o rest (k fr.label)) :
    (validateLabel i >>= f) (mk c base l o rest s) = outU c base l o rest ((labelsOf l rest)[i.toNat]?.bind k) := by
  cases h : (labelsOf l rest)[i.toNat]? with
  | none => exact bind_err (validateLabel_none c base l o rest h)
  | some r =>
    obtain ⟨fr, rfl, h2⟩ := validateLabel_some c base l o rest (s := s) h
    rw [bind_ok h2, hk]; rfl

theorem labels_mk (r : List Val) (s : Loc) (ls : List Idx) : validateLabels r ls (mk c base l o rest s) =
    if ∀ x ∈ ls, (labelsOf l rest)[x.toNat]? = some r then .ok ((), mk c base l o rest s) else .error .invalid := by
  induction ls with
  | nil => rw [if_pos (by simp)]; rfl
  | cons x ls ih =>
    show (validateLabel x >>= _) _ = _
    cases h : (labelsOf l rest)[x.toNat]? with
    | none =>
      rw [bind_err (validateLabel_none c base l o rest h), if_neg]
      intro hall
      have := hall x (List.mem_cons_self)
      rw [h] at this; cases this
    | some r' =>
      obtain ⟨fr, rfl, h2⟩ := validateLabel_some c base l o rest (s := s) h
      rw [bind_ok h2]
      by_cases hr : r = fr.label
      · rw [if_neg (by simpa using hr), ih]
        simp only [List.forall_mem_cons, h, hr, true_and]
      · rw [if_pos (by simpa using hr), if_neg]
        · rfl
        · intro hall
          have := hall x (List.mem_cons_self)
          rw [h] at this
          exact hr (Option.some.inj this).symm

/-- Entering and leaving a block. -/
theorem frame_mk {body : V Unit} {r : Option Loc} {s : Loc} (lab res : List Val)
    (h : body (mk c (s.1 ++ base) lab res ({ label := l, out := o, height := base.length, unreachable := s.2 } :: rest) ([], false)) =
      outU c (s.1 ++ base) lab res ({ label := l, out := o, height := base.length, unreachable := s.2 } :: rest) r) :
    (do pushFrame lab res; body; popFrame) (mk c base l o rest s) =
      outcome c base l o rest (r.bind fun s' => (endL res s').map fun _ => (res, s)) := by
  rw [bind_ok (x := ()) (c' := mk c (s.1 ++ base) lab res ({ label := l, out := o, height := base.length, unreachable := s.2 } :: rest)
    ([], false)) rfl]
  cases r with
  | none => exact bind_err h
  | some s' =>
    rw [bind_ok h]
    show popFrame (mk c (s.1 ++ base) lab res _ s') = _
    rw [popFrame_mk]
    simp only [Option.bind_some]
    cases endL res s' with
    | none => rfl
    | some _ => rfl

end

theorem V_assoc {α β γ : Type} (p : V α) (f : α → V β) (g : β → V γ) : (p >>= f) >>= g = p >>= fun x => f x >>= g := by
  funext c
  show V.bind (V.bind p f) g c = V.bind p (fun x => V.bind (f x) g) c
  unfold V.bind
  cases p c with
  | error e => rfl
  | ok x => rfl

mutual

theorem exec_instr (c : Ctx) : ∀ (i : Instr), plainI i → ∀ (base : List Operand) (l o : List Val) (rest : List Frame) (s : Loc),
    validateInstr i (mk c base l o rest s) = outU c base l o rest (evalInstr (envOf c (labelsOf l rest)) i s)
  | .unreachable, _, base, l, o, rest, s => unr s
  | .nop, _, base, l, o, rest, s => rfl
  | .block r body, hp, base, l, o, rest, s => by
    have hb := exec_expr c body hp (s.1 ++ base) r r ({ label := l, out := o, height := base.length, unreachable := s.2 } :: rest) ([], false)
    have e : validateInstr (.block r body) = (do pushFrame r r; validateExpr body; popFrame : V (List Val)) >>= pushOperands := by
      simp only [V_assoc]; simp only [validateInstr]; rfl
    rw [e]
    have := bindA (k := fun x => some (pushL x.1 x.2)) (frame_mk r r hb) (fun x s' => pushes x s')
    rw [this]
    simp only [evalInstr]
    show outU c base l o rest ((_ : Option Loc).bind _ |>.bind _) = _
    simp only [Option.bind_assoc, Option.bind_map]
    rfl
  | .loop r body, hp, base, l, o, rest, s => by
    have hb := exec_expr c body hp (s.1 ++ base) [] r ({ label := l, out := o, height := base.length, unreachable := s.2 } :: rest) ([], false)
    have e : validateInstr (.loop r body) = (do pushFrame [] r; validateExpr body; popFrame : V (List Val)) >>= pushOperands := by
      simp only [V_assoc]; simp only [validateInstr]; rfl
    rw [e]
    have := bindA (k := fun x => some (pushL x.1 x.2)) (frame_mk [] r hb) (fun x s' => pushes x s')
    rw [this]
    simp only [evalInstr]
    simp only [Option.bind_assoc, Option.bind_map]
    rfl
  | .ifElse r thn els, hp, base, l, o, rest, s => by
    have e : validateInstr (.ifElse r thn els) = popOperands [.i32] >>= fun _ =>
        (do pushFrame r r; validateExpr thn; popFrame : V (List Val)) >>= fun r' =>
        (do pushFrame r' r'; validateExpr els; popFrame : V (List Val)) >>= pushOperands := by
      simp only [V_assoc]; simp only [validateInstr, validateElse]; simp only [V_assoc]; rfl
    rw [e]
    simp only [evalInstr]
    refine bindU (pops _ s) fun s => ?_
    have hb := exec_expr c thn hp.1 (s.1 ++ base) r r ({ label := l, out := o, height := base.length, unreachable := s.2 } :: rest) ([], false)
    have hb' := exec_expr c els hp.2 (s.1 ++ base) r r ({ label := l, out := o, height := base.length, unreachable := s.2 } :: rest) ([], false)
    have F1 := frame_mk r r hb
    have F2 := frame_mk r r hb'
    have e2 : labelsOf r ({ label := l, out := o, height := base.length, unreachable := s.2 } :: rest) = r :: labelsOf l rest := rfl
    rw [e2] at F1 F2
    show _ = outU c base l o rest ((evalExpr (envOf c (r :: labelsOf l rest)) thn ([], false)).bind fun s1 => (endL r s1).bind fun _ =>
      (evalExpr (envOf c (r :: labelsOf l rest)) els ([], false)).bind fun s2 => (endL r s2).bind fun _ => some (pushL r s))
    cases h1 : evalExpr (envOf c (r :: labelsOf l rest)) thn ([], false) with
    | none => rw [h1] at F1; exact bind_err F1
    | some s1 =>
      rw [h1] at F1
      simp only [Option.bind_some] at F1 ⊢
      cases h2 : endL r s1 with
      | none => rw [h2] at F1; exact bind_err F1
      | some _ =>
        rw [h2] at F1
        simp only [Option.bind_some, Option.map_some] at F1 ⊢
        rw [bind_ok F1]
        cases h3 : evalExpr (envOf c (r :: labelsOf l rest)) els ([], false) with
        | none => rw [h3] at F2; exact bind_err F2
        | some s2 =>
          rw [h3] at F2
          simp only [Option.bind_some] at F2 ⊢
          cases h4 : endL r s2 with
          | none => rw [h4] at F2; exact bind_err F2
          | some _ =>
            rw [h4] at F2
            rw [bind_ok F2]
            exact pushes r s
  | .elseMark, hp, base, l, o, rest, s => hp.elim
  | .endMark, hp, base, l, o, rest, s => hp.elim
  | .br lb, _, base, l, o, rest, s => by
    simp only [evalInstr, validateInstr]
    exact bindLabel fun fr => bindU (pops _ s) fun s => unr s
  | .brIf lb, _, base, l, o, rest, s => by
    simp only [evalInstr, validateInstr]
    exact bindLabel fun fr => bindU (pops _ s) fun s => bindU (pops _ s) fun s => pushes _ s
  | .brTable ls lb, _, base, l, o, rest, s => by
    simp only [evalInstr, validateInstr]
    refine bindLabel fun fr => ?_
    have := labels_mk (c := c) (base := base) (o := o) fr.label s ls (l := l) (rest := rest)
    by_cases h : ∀ x ∈ ls, (labelsOf l rest)[x.toNat]? = some fr.label
    · rw [if_pos h] at this
      rw [bind_ok this]
      split
      · exact bindU (pops _ s) fun s => bindU (pops _ s) fun s => unr s
      · next h' => exact (h' h).elim
    · rw [if_neg h] at this
      rw [bind_err this]
      split
      · next h' => exact (h h').elim
      · rfl
  | .ret, _, base, l, o, rest, s => by
    simp only [evalInstr, validateInstr]
    show (match c.ret with | none => _ | some ret => _ : V Unit) (mk c base l o rest s) = _
    simp only [envOf]
    cases c.ret with
    | none => rfl
    | some r => exact bindU (pops _ s) fun s => unr s
  | .call x, _, base, l, o, rest, s => by
    simp only [evalInstr, validateInstr]
    exact bindR (lookup_mk c base l o rest c.funcs x s) fun t => bindU (pops _ s) fun s => pushes _ s
  | .callIndirect x y, _, base, l, o, rest, s => by
    simp only [evalInstr, validateInstr]
    refine bindR (lookup_mk c base l o rest c.tables y s) fun tb => bindR (lookup_mk c base l o rest c.types x s) fun t => ?_
    rw [if_neg (by cases tb.elem; simp)]
    exact bindU (pops _ s) fun s => bindU (pops _ s) fun s => pushes _ s
  | .drop, _, base, l, o, rest, s => by
    simp only [evalInstr, validateInstr]
    exact bindA (popOperand_mk c base l o rest _ s) fun x s => rfl
  | .select, _, base, l, o, rest, s => by
    simp only [evalInstr, validateInstr]
    exact bindU (pops _ s) fun s => bindA (popOperand_mk c base l o rest _ s) fun x s => bindA (popOperand_mk c base l o rest _ s) fun y s => rfl
  | .localGet x, _, base, l, o, rest, s => by
    simp only [evalInstr, validateInstr]
    exact bindR (lookup_mk c base l o rest c.locals x s) fun t => pushes _ s
  | .localSet x, _, base, l, o, rest, s => by
    simp only [evalInstr, validateInstr]
    exact bindR (lookup_mk c base l o rest c.locals x s) fun t => pops [t] s
  | .localTee x, _, base, l, o, rest, s => by
    simp only [evalInstr, validateInstr]
    exact bindR (lookup_mk c base l o rest c.locals x s) fun t => bindU (pops [t] s) fun s => pushes _ s
  | .globalGet x, _, base, l, o, rest, s => by
    simp only [evalInstr, validateInstr]
    exact bindR (lookup_mk c base l o rest c.globals x s) fun t => pushes _ s
  | .globalSet x, _, base, l, o, rest, s => by
    simp only [evalInstr, validateInstr]
    refine bindR (lookup_mk c base l o rest c.globals x s) fun t => ?_
    by_cases h : t.mt = .var
    · rw [if_neg (by simpa using h), if_pos h]; exact pops [t.val] s
    · rw [if_pos h, if_neg h]; rfl
  | .load op a b, _, base, l, o, rest, s => by
    simp only [evalInstr, validateInstr]
    exact bindR (lookup_mk c base l o rest c.mems 0 s) fun t => bindU (pops _ s) fun s => pushes _ s
  | .store op a b, _, base, l, o, rest, s => by
    simp only [evalInstr, validateInstr]
    exact bindR (lookup_mk c base l o rest c.mems 0 s) fun t => pops _ s
  | .memSize x, _, base, l, o, rest, s => by
    simp only [evalInstr, validateInstr]
    exact bindR (lookup_mk c base l o rest c.mems x s) fun t => pushes _ s
  | .memGrow x, _, base, l, o, rest, s => by
    simp only [evalInstr, validateInstr]
    exact bindR (lookup_mk c base l o rest c.mems x s) fun t => bindU (pops _ s) fun s => pushes _ s
  | .constI32 _, _, base, l, o, rest, s => pushes _ s
  | .constI64 _, _, base, l, o, rest, s => pushes _ s
  | .constF32 _, _, base, l, o, rest, s => pushes _ s
  | .constF64 _, _, base, l, o, rest, s => pushes _ s
  | .num op, _, base, l, o, rest, s => by
    simp only [evalInstr, validateInstr]
    exact bindU (pops _ s) fun s => pushes _ s

theorem exec_expr (c : Ctx) : ∀ (e : List Instr), plainL e → ∀ (base : List Operand) (l o : List Val) (rest : List Frame) (s : Loc),
    validateExpr e (mk c base l o rest s) = outU c base l o rest (evalExpr (envOf c (labelsOf l rest)) e s)
  | [], _, base, l, o, rest, s => rfl
  | i :: is, hp, base, l, o, rest, s => by
    simp only [evalExpr, validateExpr]
    exact bindU (exec_instr c i hp.1 base l o rest s) fun s => exec_expr c is hp.2 base l o rest s

end

end Whasm
