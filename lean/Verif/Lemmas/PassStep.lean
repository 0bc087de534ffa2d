import Verif.Lemmas.PassTree
import Verif.Lemmas.Inside
import Verif.Model.Arrive

/-!
# The one-pass algorithm and the model, place by place
-/

namespace Whasm.Pass
open Spec Spec.Pass
open Run (Place)

mutual
theorem lineI_spec : ∀ (i : Instr), plainI i → FlatI (lineI i) i
  | .block t b, h => by rw [lineI]; exact .block (lineL_spec b h)
  | .loop t b, h => by rw [lineI]; exact .loop (lineL_spec b h)
  | .ifElse t a b, h => by rw [lineI]; exact .ifElse (lineL_spec a h.1) (lineL_spec b h.2)
  | .endMark, h => h.elim
  | .elseMark, h => h.elim
  | .unreachable, _ | .nop, _ | .br _, _ | .brIf _, _ | .brTable _ _, _ | .ret, _ | .call _, _
  | .callIndirect _ _, _ | .drop, _ | .select, _ | .localGet _, _ | .localSet _, _ | .localTee _, _
  | .globalGet _, _ | .globalSet _, _ | .load _ _ _, _ | .store _ _ _, _ | .memSize _, _ | .memGrow _, _
  | .constI32 _, _ | .constI64 _, _ | .constF32 _, _ | .constF64 _, _ | .num _, _ => by simp only [lineI]; exact .simple trivial
theorem lineL_spec : ∀ (is : List Instr), plainL is → FlatL (lineL is) is
  | [], _ => by rw [lineL]; exact .nil
  | i :: is, h => by rw [lineL]; exact .cons (lineI_spec i h.1) (lineL_spec is h.2)
end

/-- The frame as the model has it. -/
def frame (f : Ctrl) : Frame := ⟨f.label_types, f.end_types, f.height, f.unreachable⟩

/-- The state as the model has it. -/
def ctx (c : Ctx) (s : St) : Ctx := { c with operands := s.opds, frames := s.ctrls.map frame }

theorem ctx_pst (c : Ctx) (base : List Operand) (k : Kind) (l o : List Val) (rest : List Ctrl) (s : Loc) :
    ctx c (pst base k l o rest s) = mk c base l o (rest.map frame) s := rfl

theorem labels_eq (c : Ctx) (l : List Val) (rest : List Ctrl) : envAt (envOf c []) l rest = envOf c (labelsOf l (rest.map frame)) := by
  have h : ∀ (l : List Val) (rest : List Ctrl), (l :: rest.map (·.label_types)).dropLast = labelsOf l (rest.map frame) := by
    intro l rest
    induction rest generalizing l with
    | nil => rfl
    | cons f rest ih =>
      show l :: (f.label_types :: rest.map (·.label_types)).dropLast = l :: labelsOf f.label_types (rest.map frame)
      rw [ih]
  show envOf c ((l :: rest.map (·.label_types)).dropLast ++ []) = _
  rw [List.append_nil, h]

/-- The result of the algorithm as the model has it. -/
def res (c : Ctx) : Option St → Except VErr (Unit × Ctx)
  | none => .error .invalid
  | some s => .ok ((), ctx c s)

/-- A state with a frame. -/
def Framed (s : St) : Prop := ∃ base k l o rest x, s = pst base k l o rest x

theorem step_expr (c : Ctx) {is : List Instr} (hp : plainL is) {s : St} (hs : Framed s) : validateExpr is (ctx c s) = res c (run (envOf c []) s (lineL is)) ∧
    ∀ s', run (envOf c []) s (lineL is) = some s' → Framed s' := by
  obtain ⟨base, k, l, o, rest, x, rfl⟩ := hs
  rw [ctx_pst, exec_expr c is hp, run_seq rfl (lineL_spec is hp), labels_eq]
  cases evalExpr (envOf c (labelsOf l (rest.map frame))) is x with
  | none => exact ⟨rfl, fun _ h => by cases h⟩
  | some y => exact ⟨rfl, fun _ h => by cases h; exact ⟨_, _, _, _, _, _, rfl⟩⟩

theorem framed_push {s : St} (k : Kind) (l o : List Val) : Framed (push_ctrl k l o s) := ⟨s.opds, k, l, o, s.ctrls, ([], false), rfl⟩

theorem bind_res {c : Ctx} {p q : V Unit} {x : Option St} {y : St → Option St} {c0 : Ctx} (h : p c0 = res c x) (h' : ∀ s, x = some s → q (ctx c s) = res c (y s)) :
    (p >>= fun _ => q) c0 = res c (x.bind y) := by
  cases x with
  | none => exact bind_err h
  | some s => rw [bind_ok h]; exact h' s rfl

theorem step_pop (c : Ctx) {s : St} (hs : Framed s) : popOperands [.i32] (ctx c s) = res c ((pop_opd (.val .i32) s).map (·.2)) ∧
    ∀ s', (pop_opd (.val .i32) s).map (·.2) = some s' → Framed s' := by
  obtain ⟨base, k, l, o, rest, x, rfl⟩ := hs
  rw [ctx_pst, pops, pop_opd_pst]
  show outU _ _ _ _ _ (popsL [.i32] x) = _ ∧ _
  rw [popsL_one]
  cases popL (.val .i32) x with
  | none => exact ⟨rfl, fun _ h => by cases h⟩
  | some y => exact ⟨rfl, fun _ h => by cases h; exact ⟨_, _, _, _, _, _, rfl⟩⟩

theorem framed_ctrls {s : St} (h : Framed s) : s.ctrls ≠ [] := by
  obtain ⟨_, _, _, _, _, _, rfl⟩ := h
  exact List.cons_ne_nil _ _

theorem run_block {C : Env} {s : St} (hs : Framed s) (t : RetVal) (ops : List Op) : run C s (.block t :: ops) = run C (push_ctrl .block t t s) ops := by
  rw [run_cons, validate, if_neg (framed_ctrls hs)]; rfl
theorem run_loop {C : Env} {s : St} (hs : Framed s) (t : RetVal) (ops : List Op) : run C s (.loop t :: ops) = run C (push_ctrl .loop [] t s) ops := by
  rw [run_cons, validate, if_neg (framed_ctrls hs)]; rfl
theorem run_if {C : Env} {s : St} (hs : Framed s) (t : RetVal) (ops : List Op) :
    run C s (.ifOp t :: ops) = ((pop_opd (.val .i32) s).map (·.2)).bind fun s => run C (push_ctrl .ifThen t t s) ops := by
  rw [run_cons, validate, if_neg (framed_ctrls hs)]
  dsimp only
  cases pop_opd (.val .i32) s <;> rfl

/-- The first branch of an `if` and the `else`. -/
theorem step_then (c : Ctx) {a : List Instr} (hp : plainL a) {s : St} (hs : Framed s) (t : RetVal) (ops : List Op) {q : V Unit} (y : St → Option St)
    (hy : ∀ s, y s = run (envOf c []) s ops) (hq : ∀ s, Framed s → q (ctx c s) = res c (y s)) :
    (validateExpr a >>= fun _ => validateElse >>= fun _ => q) (ctx c (push_ctrl .ifThen t t s)) =
      res c (run (envOf c []) (push_ctrl .ifThen t t s) (lineL a ++ .elseOp :: ops)) := by
  obtain ⟨base, k, l, o, rest, x, rfl⟩ := hs
  have e : push_ctrl .ifThen t t (pst base k l o rest x) = pst (x.1 ++ base) .ifThen t t (⟨k, l, o, base.length, x.2⟩ :: rest) ([], false) := rfl
  have h1 := step_expr c hp (framed_push (s := pst base k l o rest x) .ifThen t t)
  rw [run_append]
  refine bind_res h1.1 fun s' hs' => ?_
  rw [e, run_seq rfl (lineL_spec a hp)] at hs'
  obtain ⟨z, _, rfl⟩ := Option.map_eq_some_iff.mp hs'
  rw [run_cons, validate, if_neg (by simp [pst])]
  simp only [pop_ctrl_pst]
  rw [ctx_pst]
  unfold validateElse
  rw [V_assoc]
  have h2 := popFrame_mk c (x.1 ++ base) t t ((⟨k, l, o, base.length, x.2⟩ :: rest : List Ctrl).map frame) z
  cases hz : endL t z with
  | none =>
    rw [hz] at h2
    rw [bind_err h2]
    rfl
  | some _ =>
    rw [hz] at h2
    rw [bind_ok h2]
    simp only [Option.map_some, Option.bind_some, if_true]
    rw [← hy]
    exact hq _ (framed_push (s := pst base k l o rest x) .ifElse t t)

theorem plain_take : ∀ {is : List Instr} (n : Nat), plainL is → plainL (is.take n)
  | [], n, _ => by rw [List.take_nil]; trivial
  | _ :: _, 0, _ => trivial
  | _ :: _, n + 1, h => ⟨h.1, plain_take n h.2⟩

theorem step_arrive (c : Ctx) : ∀ (p : Place) {is : List Instr}, plainL is → ∀ {ops : List Op}, upTo p is = some ops → ∀ {s : St}, Framed s →
    arrive p is (ctx c s) = res c (run (envOf c []) s ops)
  | .here n, is, hp, ops, h, s, hs => by
    cases h
    exact (step_expr c (plain_take n hp) hs).1
  | .inside n p, is, hp, ops, h, s, hs => by
    unfold upTo at h
    have ht := step_expr c (plain_take n hp) hs
    unfold arrive
    split at h
    · next t b hb =>
      have hpb := plainL_mem hp (List.mem_of_getElem? hb)
      obtain ⟨ops', ho, rfl⟩ := Option.map_eq_some_iff.mp h
      rw [hb, run_append]
      refine bind_res ht.1 fun s' hs' => ?_
      rw [run_block (ht.2 s' hs')]
      exact step_arrive c p hpb ho (framed_push _ _ _)
    · next t b hb =>
      have hpb := plainL_mem hp (List.mem_of_getElem? hb)
      obtain ⟨ops', ho, rfl⟩ := Option.map_eq_some_iff.mp h
      rw [hb, run_append]
      refine bind_res ht.1 fun s' hs' => ?_
      rw [run_loop (ht.2 s' hs')]
      exact step_arrive c p hpb ho (framed_push _ _ _)
    · next t a b hb =>
      have hpb := plainL_mem hp (List.mem_of_getElem? hb)
      obtain ⟨ops', ho, rfl⟩ := Option.map_eq_some_iff.mp h
      rw [hb, run_append]
      refine bind_res ht.1 fun s' hs' => ?_
      have h1 := step_pop c (ht.2 s' hs')
      rw [run_if (ht.2 s' hs')]
      exact bind_res h1.1 fun s'' hs'' => step_arrive c p hpb.1 ho (framed_push _ _ _)
    · cases h
  | .inElse n p, is, hp, ops, h, s, hs => by
    unfold upTo at h
    have ht := step_expr c (plain_take n hp) hs
    unfold arrive
    split at h
    · next t a b hb =>
      have hpb := plainL_mem hp (List.mem_of_getElem? hb)
      obtain ⟨ops', ho, rfl⟩ := Option.map_eq_some_iff.mp h
      rw [hb, run_append]
      refine bind_res ht.1 fun s' hs' => ?_
      have h1 := step_pop c (ht.2 s' hs')
      rw [run_if (ht.2 s' hs')]
      exact bind_res h1.1 fun s'' hs'' => step_then c hpb.1 (h1.2 s'' hs'') t ops' _ (fun _ => rfl) fun s hs => step_arrive c p hpb.2 ho hs
    · cases h

end Whasm.Pass
