import Verif.Lemmas.Typing
import Verif.Spec.Occurs

/-!
# Validation seen from inside one frame

`evalInstr` is what `validateInstr` does to the part of the operand stack that belongs to the current frame, and to the `unreachable` flag
of that frame. It is an auxiliary notion for the proofs; `exec_instr` shows that it is what the model does, for instructions that do not
contain the pseudo-instructions `End` and `Else`.
-/

namespace Whasm
open Spec

/-- Operands of the current frame, top first, and its `unreachable` flag. -/
abbrev Loc := List Operand × Bool

/-- Pop one operand. -/
def popL (op : Operand) : Loc → Option (Operand × Loc)
  | ([], true) => some (op, ([], true))
  | ([], false) => none
  | (v :: loc, u) =>
    match v, op with
    | .unknown, _ => some (op, (loc, u))
    | _, .unknown => some (v, (loc, u))
    | _, _ => if v = op then some (v, (loc, u)) else none

/-- Pop operands, the first one given being on top. -/
def popsL : List Val → Loc → Option Loc
  | [], s => some s
  | v :: vs, s => (popL (.val v) s).bind fun x => popsL vs x.2

/-- Push operands, the last one ending on top. -/
def pushL (vs : List Val) (s : Loc) : Loc := (vs.reverse.map .val ++ s.1, s.2)

/-- The end of a frame with results `r`. -/
def endL (r : List Val) (s : Loc) : Option Unit :=
  (popsL r.reverse s).bind fun s' => if s'.1 = [] then some () else none

mutual

def evalInstr (C : Env) : Instr → Loc → Option Loc
  | .unreachable, _ => some ([], true)
  | .nop, s => some s
  | .block r body, s =>
    (evalExpr { C with labels := r :: C.labels } body ([], false)).bind fun s' => (endL r s').bind fun _ => some (pushL r s)
  | .loop r body, s =>
    (evalExpr { C with labels := [] :: C.labels } body ([], false)).bind fun s' => (endL r s').bind fun _ => some (pushL r s)
  | .ifElse r thn els, s =>
    (popsL [.i32] s).bind fun s =>
    (evalExpr { C with labels := r :: C.labels } thn ([], false)).bind fun s1 => (endL r s1).bind fun _ =>
    (evalExpr { C with labels := r :: C.labels } els ([], false)).bind fun s2 => (endL r s2).bind fun _ => some (pushL r s)
  | .elseMark, _ => none
  | .endMark, _ => none
  | .br l, s => C.labels[l.toNat]?.bind fun r => (popsL r.reverse s).bind fun _ => some ([], true)
  | .brIf l, s => C.labels[l.toNat]?.bind fun r => (popsL [.i32] s).bind fun s => (popsL r.reverse s).bind fun s => some (pushL r s)
  | .brTable ls l, s => C.labels[l.toNat]?.bind fun r =>
    if ∀ x ∈ ls, C.labels[x.toNat]? = some r then (popsL [.i32] s).bind fun s => (popsL r.reverse s).bind fun _ => some ([], true)
    else none
  | .ret, s => C.ret.bind fun r => (popsL r.reverse s).bind fun _ => some ([], true)
  | .call x, s => C.funcs[x.toNat]?.bind fun t => (popsL t.params.reverse s).bind fun s => some (pushL t.results s)
  | .callIndirect x y, s => C.tables[y.toNat]?.bind fun _ => C.types[x.toNat]?.bind fun t =>
    (popsL [.i32] s).bind fun s => (popsL t.params.reverse s).bind fun s => some (pushL t.results s)
  | .drop, s => (popL .unknown s).bind fun x => some x.2
  | .select, s => (popsL [.i32] s).bind fun s => (popL .unknown s).bind fun x => (popL x.1 x.2).bind fun y => some (y.1 :: y.2.1, y.2.2)
  | .localGet x, s => C.locals[x.toNat]?.bind fun t => some (pushL [t] s)
  | .localSet x, s => C.locals[x.toNat]?.bind fun t => popsL [t] s
  | .localTee x, s => C.locals[x.toNat]?.bind fun t => (popsL [t] s).bind fun s => some (pushL [t] s)
  | .globalGet x, s => C.globals[x.toNat]?.bind fun t => some (pushL [t.val] s)
  | .globalSet x, s => C.globals[x.toNat]?.bind fun t => if t.mt = .var then popsL [t.val] s else none
  | .load op _ _, s => C.mems[0]?.bind fun _ => (popsL [.i32] s).bind fun s => some (pushL [(loadSig op).2] s)
  | .store op _ _, s => C.mems[0]?.bind fun _ => popsL [(storeSig op).2, .i32] s
  | .memSize x, s => C.mems[x.toNat]?.bind fun _ => some (pushL [.i32] s)
  | .memGrow x, s => C.mems[x.toNat]?.bind fun _ => (popsL [.i32] s).bind fun s => some (pushL [.i32] s)
  | .constI32 _, s => some (pushL [.i32] s)
  | .constI64 _, s => some (pushL [.i64] s)
  | .constF32 _, s => some (pushL [.f32] s)
  | .constF64 _, s => some (pushL [.f64] s)
  | .num op, s => (popsL (numSig op).1.reverse s).bind fun s => some (pushL (numSig op).2 s)

def evalExpr (C : Env) : List Instr → Loc → Option Loc
  | [], s => some s
  | i :: is, s => (evalInstr C i s).bind fun s => evalExpr C is s

end

mutual
/-- No pseudo-instruction inside. -/
def plainI : Instr → Prop
  | .block _ b => plainL b
  | .loop _ b => plainL b
  | .ifElse _ a b => plainL a ∧ plainL b
  | .elseMark => False
  | .endMark => False
  | _ => True
def plainL : List Instr → Prop
  | [] => True
  | i :: is => plainI i ∧ plainL is
end

/-! ## The model in terms of `Loc` -/

/-- The context in which the current frame has operands `s.1` on top of `base` and flag `s.2`. -/
def mk (c : Ctx) (base : List Operand) (l o : List Val) (rest : List Frame) (s : Loc) : Ctx :=
  { c with operands := s.1 ++ base, frames := { label := l, out := o, height := base.length, unreachable := s.2 } :: rest }

/-- Result of a step inside a frame. -/
def outcome {α : Type} (c : Ctx) (base : List Operand) (l o : List Val) (rest : List Frame) : Option (α × Loc) → Except VErr (α × Ctx)
  | none => .error .invalid
  | some (x, s) => .ok (x, mk c base l o rest s)

/-- The context for the rules. `labels` are those a branch can name: all but the outermost frame. -/
def envOf (c : Ctx) (labels : List (List Val)) : Env :=
  { types := c.types, funcs := c.funcs, tables := c.tables, mems := c.mems, globals := c.globals, locals := c.locals, labels := labels,
    ret := c.ret, aligned := false }

theorem bind_ok {α β : Type} {p : V α} {f : α → V β} {c c' : Ctx} {x : α} (h : p c = .ok (x, c')) : (p >>= f) c = f x c' := by
  show V.bind p f c = _
  unfold V.bind
  rw [h]

theorem bind_err {α β : Type} {p : V α} {f : α → V β} {c : Ctx} {e : VErr} (h : p c = .error e) : (p >>= f) c = .error e := by
  show V.bind p f c = _
  unfold V.bind
  rw [h]

section
variable (c : Ctx) (base : List Operand) (l o : List Val) (rest : List Frame)

theorem bind_outcome {α β : Type} {p : V α} {f : α → V β} {s : Loc} {r : Option (α × Loc)} {k : α × Loc → Option (β × Loc)}
    (h : p (mk c base l o rest s) = outcome c base l o rest r)
    (hk : ∀ x s', r = some (x, s') → f x (mk c base l o rest s') = outcome c base l o rest (k (x, s'))) :
    (p >>= f) (mk c base l o rest s) = outcome c base l o rest (r.bind k) := by
  cases r with
  | none => exact bind_err h
  | some x => rw [bind_ok h, hk _ _ rfl]; rfl

theorem popOperand_mk (op : Operand) (s : Loc) :
    popOperand op (mk c base l o rest s) = outcome c base l o rest (popL op s) := by
  obtain ⟨loc, u⟩ := s
  unfold popOperand mk
  cases loc with
  | nil => cases u <;> simp [popL, outcome, mk]
  | cons v loc =>
    have : ¬ (v :: loc ++ base).length = base.length := by simp; omega
    simp only [this, false_and, if_false]
    cases v <;> cases op <;> simp only [popL, List.cons_append] <;> try rfl
    split <;> rfl

theorem popReversed_mk (vs : List Val) : ∀ s : Loc,
    popReversed vs (mk c base l o rest s) = outcome c base l o rest ((popsL vs s).map fun s' => ((), s')) := by
  induction vs with
  | nil => intro s; rfl
  | cons v vs ih =>
    intro s
    show (popOperand (.val v) >>= fun _ => popReversed vs) _ = _
    rw [bind_outcome c base l o rest (k := fun x => (popsL vs x.2).map fun s' => ((), s')) (popOperand_mk c base l o rest _ s)
      (fun x s' _ => ih s')]
    simp only [popsL]
    cases popL (.val v) s <;> rfl

theorem popOperands_mk (vs : List Val) (s : Loc) :
    popOperands vs (mk c base l o rest s) = outcome c base l o rest ((popsL vs.reverse s).map fun s' => ((), s')) :=
  popReversed_mk c base l o rest _ s

theorem pushOperands_mk (vs : List Val) : ∀ s : Loc,
    pushOperands vs (mk c base l o rest s) = outcome c base l o rest (some ((), pushL vs s)) := by
  induction vs with
  | nil => intro s; rfl
  | cons v vs ih =>
    intro s
    show (pushOperand (.val v) >>= fun _ => pushOperands vs) _ = _
    rw [bind_ok (x := ()) (c' := mk c base l o rest (.val v :: s.1, s.2)) rfl, ih]
    simp [pushL]

theorem setUnreachable_mk (s : Loc) : setUnreachable (mk c base l o rest s) = outcome c base l o rest (some ((), ([], true))) := by
  unfold setUnreachable mk outcome mk
  simp

theorem lookup_mk {α : Type} (xs : List α) (i : Idx) (s : Loc) :
    lookup xs i (mk c base l o rest s) = outcome c base l o rest (xs[i.toNat]?.map fun x => (x, s)) := by
  unfold lookup
  rcases Nat.lt_or_ge i.toNat xs.length with h | h
  · rw [if_neg (by omega), List.getElem?_eq_getElem h]; rfl
  · rw [if_pos h, List.getElem?_eq_none h]; rfl

theorem getLabel {fs : List Frame} {i : Nat} (h : i + 1 < fs.length) : fs.reverse[fs.length - i - 1]? = fs[i]? := by
  rw [List.getElem?_reverse (by omega)]
  congr 1
  omega

/-- The labels that can be named. -/
def labelsOf : List Val → List Frame → List (List Val)
  | _, [] => []
  | l, f :: fs => l :: labelsOf f.label fs

theorem labelsOf_get (l : List Val) (f0 : Frame) (hf : f0.label = l) (rest : List Frame) (i : Nat) :
    (labelsOf l rest)[i]? = if i + 1 < (f0 :: rest).length then (f0 :: rest)[i]?.map (·.label) else none := by
  induction rest generalizing l f0 i with
  | nil => simp [labelsOf]
  | cons f fs ih =>
    cases i with
    | zero => simp [labelsOf, hf]
    | succ i =>
      simp only [labelsOf, List.getElem?_cons_succ, List.length_cons]
      rw [ih f.label f rfl i]
      simp only [List.length_cons]
      by_cases h : i + 1 < fs.length + 1
      · rw [if_pos h, if_pos (by omega)]
      · rw [if_neg h, if_neg (by omega)]

theorem validateLabel_none {i : Idx} {s : Loc} (h : (labelsOf l rest)[i.toNat]? = none) :
    validateLabel i (mk c base l o rest s) = .error .invalid := by
  rw [labelsOf_get l { label := l, out := o, height := base.length, unreachable := s.2 } rfl] at h
  unfold validateLabel mk
  simp only
  split at h
  · next h' =>
    rw [Option.map_eq_none_iff, List.getElem?_eq_none_iff] at h
    omega
  · next h' => rw [if_pos h']

theorem validateLabel_some {i : Idx} {s : Loc} {r : List Val} (h : (labelsOf l rest)[i.toNat]? = some r) :
    ∃ f, f.label = r ∧ validateLabel i (mk c base l o rest s) = .ok (f, mk c base l o rest s) := by
  rw [labelsOf_get l { label := l, out := o, height := base.length, unreachable := s.2 } rfl] at h
  split at h
  · next h' =>
    rw [Option.map_eq_some_iff] at h
    obtain ⟨f, h1, h2⟩ := h
    refine ⟨f, h2, ?_⟩
    unfold validateLabel mk
    simp only
    rw [if_neg (Decidable.not_not.mpr h'), if_neg (by omega), getLabel h', h1]
  · cases h

theorem popFrame_mk (s : Loc) : popFrame (mk c base l o rest s) =
    match endL o s with
    | none => .error .invalid
    | some _ => .ok (o, { c with operands := base, frames := rest }) := by
  show (popOperands o >>= fun _ => _) (mk c base l o rest s) = _
  unfold endL
  have h := popOperands_mk c base l o rest o s
  cases hp : popsL o.reverse s with
  | none => rw [hp] at h; rw [bind_err h]; rfl
  | some s' =>
    rw [hp] at h
    rw [bind_ok h]
    show (if (s'.1 ++ base).length ≠ base.length then V.fail .invalid else _ : V (List Val)) (mk c base l o rest s') = _
    simp only [Option.bind_some]
    by_cases h0 : s'.1 = []
    · rw [if_neg (by simp [h0]), if_pos h0]
      simp only [mk]
      show Except.ok (o, _) = _
      rw [h0]
      rfl
    · rw [if_pos, if_neg h0]
      · rfl
      · have := List.length_pos_iff.mpr h0
        simp only [List.length_append]
        omega

end

end Whasm
