import Verif.Lemmas.PassStep
import Verif.Props.Exact
import Verif.Props.Points

/-!
# C100: one pass over the code, without a tree, comes to the same verdict

`Spec/Pass.lean` has the algorithm of the appendix of the document, which engines use: it reads the code once, opcode by opcode, and keeps two stacks. The crate builds a tree first and then walks over it.
-/

namespace Whasm
open Spec Spec.Pass Pass

/-! ## The algorithm and the type rules -/

theorem start_eq (r : List Val) : start r = pst [] .func r r [] ([], false) := rfl

theorem envAt_nil (C : Env) (l : List Val) : envAt C l [] = C := rfl

/-- Alignment is checked apart from everything else. -/
theorem exprType_aligned {C : Env} {e : List Instr} {r : List Val} :
    ExprType C e r ↔ (C.aligned = true → ∀ j, Occurs j e → AlignOk j) ∧ ExprType { C with aligned := false } e r := by
  constructor
  · intro h
    refine ⟨fun ha j hj => ?_, ?_⟩
    · obtain ⟨d, hd⟩ := occursAt_iff.mp hj
      obtain ⟨L, a, b, _, ht⟩ := occurs_typed hd h
      exact typed_aligned (C := { C with labels := L ++ C.labels }) ha ht
    · exact transfer (C := C) (C' := { C with aligned := false }) (M := C.labels) (M' := C.labels) ⟨id, id, id, id, id, id, id⟩ h (fun _ _ _ _ _ _ _ h => h) fun h => by cases h
  · rintro ⟨ha, h⟩
    refine transfer (C := { C with aligned := false }) (C' := C) (M := C.labels) (M' := C.labels) ⟨id, id, id, id, id, id, id⟩ h (fun _ _ _ _ _ _ _ h => h) fun h' => .inr fun j d hj => ha h' j ?_
    exact occursAt_iff.mpr ⟨d, hj⟩

theorem alignOk_complex {j : Instr} (h : ¬ Simple j) : AlignOk j := by
  cases j <;> first | exact trivial | exact (h trivial).elim

theorem accepts_flat {C : Env} {r : List Val} {ops : List Op} {e : List Instr} (hf : FlatL ops e) : Accepts C r (ops ++ [.endOp]) ↔ ExprType C e r := by
  have hfine : (∀ op ∈ ops ++ [.endOp], Fine C op) ↔ (C.aligned = true → ∀ j, Occurs j e → AlignOk j) := by
    constructor
    · intro h ha j hj
      by_cases hs : Simple j
      · exact h (.instr j) (List.mem_append_left _ ((occurs_flatL hf hs).mpr hj)) ha
      · exact alignOk_complex hs
    · intro h op hop
      cases op with
      | instr j =>
        intro ha
        by_cases hs : Simple j
        · refine h ha j ((occurs_flatL hf hs).mp ?_)
          simpa using hop
        · exact alignOk_complex hs
      | _ => trivial
  rw [exprType_aligned, ← hfine]
  unfold Accepts
  simp only [run_aligned C]
  have hr : run { C with aligned := false } (start r) (ops ++ [.endOp]) =
      ((evalExpr { C with aligned := false } e ([], false)).bind fun s => endL r s).map fun _ => push_opds r ⟨[], []⟩ := by
    rw [run_append, start_eq, run_seq rfl hf, envAt_nil]
    cases evalExpr { C with aligned := false } e ([], false) with
    | none => rfl
    | some s =>
      simp only [Option.map_some, Option.bind_some]
      rw [run_cons, validate, if_neg (by simp [pst])]
      simp only [pop_ctrl_pst]
      cases endL r s with
      | none => rfl
      | some _ => rfl
  rw [hr]
  have hv := eval_iff (C := { C with aligned := false }) rfl (e := e) (r := r)
  rw [← hv]
  constructor
  · rintro ⟨s, ⟨h1, h2⟩, _⟩
    obtain ⟨⟨⟩, h3, _⟩ := Option.map_eq_some_iff.mp h2
    exact ⟨h1, h3⟩
  · rintro ⟨h1, h2⟩
    rw [h2]
    exact ⟨_, ⟨h1, rfl⟩, push_opds_ctrls _ _⟩

theorem accepts_tree {D : Dialect} {C : Env} {r : List Val} {ops : List Op} {b : List Byte} (hb : GSeq (GOp D) b ops) (h : Accepts C r ops) :
    ∃ ops1 e, ops = ops1 ++ [.endOp] ∧ FlatL ops1 e := by
  obtain ⟨s, h1, h2⟩ := h
  have := krun_of h1
  refine body_ops (ops_simple hb) (this.trans ?_)
  show some (s.ctrls.map (·.kind)) = _
  rw [h2]
  rfl

/-- **C100, the algorithm.** On every sequence of bytes: one pass over the opcodes without error is the same as being the binary of an expression that is well typed by the rules of the document, in every context. -/
theorem C100_rules (D : Dialect) (C : Env) (r : List Val) (b : List Byte) :
    (∃ ops, GSeq (GOp D) b ops ∧ Accepts C r ops) ↔ ∃ e, GExpr D b e ∧ ExprType C e r := by
  constructor
  · rintro ⟨ops, hb, h⟩
    obtain ⟨ops1, e, rfl, hf⟩ := accepts_tree hb h
    obtain ⟨b1, b2, rfl, h1, h2⟩ := gseq_split hb
    rw [gop_end h2]
    exact ⟨e, .mk (instrs_of_ops hf h1), (accepts_flat hf).mp h⟩
  · rintro ⟨e, hb, h⟩
    cases hb with
    | mk hb =>
      obtain ⟨ops, h1, hf⟩ := ops_of_instrs hb
      exact ⟨ops ++ [.endOp], gseq_append h1 (gseq_single .endOp), (accepts_flat hf).mpr h⟩

/-- local.get 0  if i32  i32.const 1  else  i32.const 2  end  end -/
def passOps : List Op := [.instr (.localGet 0), .ifOp [.i32], .instr (.constI32 1), .elseOp, .instr (.constI32 2), .endOp, .endOp]

def passEnv : Env := { locals := [.i32], ret := some [.i32], labels := [[.i32]] }

/-- The outcome of the algorithm, for evaluation. -/
def passes (C : Env) (r : List Val) (ops : List Op) : Bool :=
  match run C (start r) ops with
  | some s => s.ctrls.isEmpty
  | none => false

example : passes passEnv [.i32] passOps = true := by decide +kernel
-- a result is missing in the second branch; the `else` is missing; the last `end` is missing; something follows it
example : passes passEnv [.i32] [.instr (.localGet 0), .ifOp [.i32], .instr (.constI32 1), .elseOp, .endOp, .endOp] = false := by decide +kernel
example : passes passEnv [.i32] [.instr (.localGet 0), .ifOp [.i32], .instr (.constI32 1), .endOp, .endOp] = false := by decide +kernel
example : passes passEnv [.i32] passOps.dropLast = false := by decide +kernel
example : passes passEnv [.i32] (passOps ++ [.instr .nop]) = false := by decide +kernel
-- `else` in a block, and a second `else`
example : passes passEnv [] [.block [], .elseOp, .endOp, .endOp] = false := by decide +kernel
example : passes passEnv [] [.instr (.localGet 0), .ifOp [], .elseOp, .elseOp, .endOp, .endOp] = false := by decide +kernel
example : passes passEnv [] [.instr (.localGet 0), .ifOp [], .endOp, .endOp] = true := by decide +kernel
-- code that is not reached: any operand, but no operand too many
example : passes passEnv [.i32] [.instr .unreachable, .instr (.num .i32Add), .endOp] = true := by decide +kernel
example : passes passEnv [.i32] [.instr .unreachable, .instr (.constI64 0), .instr (.num .i32Add), .endOp] = false := by decide +kernel
example : passes passEnv [.i32] [.instr .unreachable, .instr (.constI32 0), .instr (.constI32 0), .endOp] = false := by decide +kernel
-- the label of the function is there or is not
example : passes passEnv [.i32] [.instr (.constI32 0), .instr (.br 0), .endOp] = true := by decide +kernel
example : passes { passEnv with labels := [] } [.i32] [.instr (.constI32 0), .instr (.br 0), .endOp] = false := by decide +kernel

theorem passOps_bytes : GSeq (GOp .w3c) [0x20, 0x00, 0x04, 0x7F, 0x41, 0x01, 0x05, 0x41, 0x02, 0x0B, 0x0B] passOps :=
  .cons (b := [0x20, 0x00]) (.instr (.localGet (b := [0x00]) (.last (n := 0x00) (by decide) (by decide))) trivial)
   (.cons (b := [0x04, 0x7F]) (.ifOp (b := [0x7F]) (.val .i32))
    (.cons (b := [0x41, 0x01]) (.instr (.constI32 (b := [0x01]) (.pos (n := 0x01) (by decide) (by decide))) trivial)
     (.cons (b := [0x05]) .elseOp
      (.cons (b := [0x41, 0x02]) (.instr (.constI32 (b := [0x02]) (.pos (n := 0x02) (by decide) (by decide))) trivial)
       (.cons (b := [0x0B]) .endOp (.cons (b := [0x0B]) .endOp .nil))))))

example : ∃ e, GExpr .w3c [0x20, 0x00, 0x04, 0x7F, 0x41, 0x01, 0x05, 0x41, 0x02, 0x0B, 0x0B] e ∧ ExprType passEnv e [.i32] :=
  (C100_rules .w3c passEnv [.i32] _).mp ⟨passOps, passOps_bytes, _, rfl, rfl⟩

theorem simple_first {D : Dialect} {b : List Byte} {i : Instr} (h : GInstr D b i) (hi : Simple i) :
    ∃ x xs, b = x :: xs ∧ x ≠ 0x02 ∧ x ≠ 0x03 ∧ x ≠ 0x04 ∧ x ≠ 0x05 ∧ x ≠ 0x0B := by
  cases h with
  | block | loop | ifThen | ifElse => exact hi.elim
  | load op _ _ => exact ⟨_, _, rfl, by cases op <;> decide⟩
  | store op _ _ => exact ⟨_, _, rfl, by cases op <;> decide⟩
  | num op => exact ⟨_, _, rfl, by cases op <;> decide⟩
  | _ => exact ⟨_, _, rfl, by decide⟩

theorem ginstr_mono {D E : Dialect} (hD : DialectLe D E) {b : List Byte} {i : Instr} (h : GInstr D b i) : GInstr E b i := by
  have h1 := ginstrs_mono hD (GInstrs.cons h .nil)
  generalize hl : [i] = l at h1
  generalize hc : b ++ [] = c at h1
  cases h1 with
  | nil => cases hl
  | cons h1 h2 =>
    cases hl
    cases h2
    rw [List.append_nil, List.append_nil] at hc
    rw [hc]
    exact h1

theorem gop_mono {D E : Dialect} (hD : DialectLe D E) {op : Op} {b : List Byte} : GOp D b op → GOp E b op
  | .instr h hs => .instr (ginstr_mono hD h) hs
  | .block h => .block h
  | .loop h => .loop h
  | .ifOp h => .ifOp h
  | .elseOp => .elseOp
  | .endOp => .endOp

theorem gops_mono {D E : Dialect} (hD : DialectLe D E) : ∀ {ops : List Op} {b : List Byte}, GSeq (GOp D) b ops → GSeq (GOp E) b ops
  | [], _, .nil => .nil
  | _ :: _, _, .cons h1 h2 => .cons (gop_mono hD h1) (gops_mono hD h2)

theorem gop_unambiguous {D : Dialect} (hD : DialectLe D .code) {b r b' r' : List Byte} {x y : Op} (h : GOp D b x) (h' : GOp D b' y) (hb : b ++ r = b' ++ r') :
    b = b' ∧ x = y := by
  have ret : ∀ {b b' : List Byte} {t t' : RetVal}, GRetVal b t → GRetVal b' t' → b ++ r = b' ++ r' → b = b' ∧ t = t' := by
    intro b b' t t' h h' hb
    have h1 := retVal_complete h r
    rw [hb, retVal_complete h' r'] at h1
    cases h1
    exact ⟨List.append_cancel_right hb, rfl⟩
  cases h with
  | instr h hs =>
    obtain ⟨z, zs, rfl, hz⟩ := simple_first h hs
    cases h' with
    | instr h' hs' =>
      have h1 := (C17_instr _ _ r).mpr ⟨_, rfl, .inl (ginstr_mono hD h)⟩
      have h2 := (C17_instr _ _ r').mpr ⟨_, rfl, .inl (ginstr_mono hD h')⟩
      rw [hb, h2] at h1
      cases h1
      exact ⟨List.append_cancel_right hb, rfl⟩
    | _ => simp only [List.cons_append, List.cons.injEq] at hb; simp [hb.1] at hz
  | block h =>
    cases h' with
    | instr h' hs' => obtain ⟨z, zs, rfl, hz⟩ := simple_first h' hs'; simp only [List.cons_append, List.cons.injEq] at hb; simp [← hb.1] at hz
    | block h' => obtain ⟨rfl, rfl⟩ := ret h h' (List.cons.inj hb).2; exact ⟨rfl, rfl⟩
    | _ => cases (List.cons.inj hb).1
  | loop h =>
    cases h' with
    | instr h' hs' => obtain ⟨z, zs, rfl, hz⟩ := simple_first h' hs'; simp only [List.cons_append, List.cons.injEq] at hb; simp [← hb.1] at hz
    | loop h' => obtain ⟨rfl, rfl⟩ := ret h h' (List.cons.inj hb).2; exact ⟨rfl, rfl⟩
    | _ => cases (List.cons.inj hb).1
  | ifOp h =>
    cases h' with
    | instr h' hs' => obtain ⟨z, zs, rfl, hz⟩ := simple_first h' hs'; simp only [List.cons_append, List.cons.injEq] at hb; simp [← hb.1] at hz
    | ifOp h' => obtain ⟨rfl, rfl⟩ := ret h h' (List.cons.inj hb).2; exact ⟨rfl, rfl⟩
    | _ => cases (List.cons.inj hb).1
  | elseOp =>
    cases h' with
    | instr h' hs' => obtain ⟨z, zs, rfl, hz⟩ := simple_first h' hs'; simp only [List.cons_append, List.cons.injEq] at hb; simp [← hb.1] at hz
    | elseOp => exact ⟨rfl, rfl⟩
    | _ => cases (List.cons.inj hb).1
  | endOp =>
    cases h' with
    | instr h' hs' => obtain ⟨z, zs, rfl, hz⟩ := simple_first h' hs'; simp only [List.cons_append, List.cons.injEq] at hb; simp [← hb.1] at hz
    | endOp => exact ⟨rfl, rfl⟩
    | _ => cases (List.cons.inj hb).1

theorem gop_pos {D : Dialect} {b : List Byte} {x : Op} (h : GOp D b x) : b ≠ [] := by
  cases h with
  | instr h hs => obtain ⟨_, _, rfl, _⟩ := simple_first h hs; exact List.cons_ne_nil _ _
  | _ => exact List.cons_ne_nil _ _

/-- **C100, reading.** There is only one way to read the bytes as a sequence of opcodes, in which each opcode is known as soon as its own bytes have been read. -/
theorem C100_reading {D : Dialect} (hD : DialectLe D .code) : ∀ {ops ops' : List Op} {b b' r r' : List Byte}, GSeq (GOp D) b ops → GSeq (GOp D) b' ops' → b ++ r = b' ++ r' →
    ops <+: ops' ∨ ops' <+: ops
  | [], _, _, _, _, _, _, _, _ => .inl (List.nil_prefix)
  | _, [], _, _, _, _, _, _, _ => .inr (List.nil_prefix)
  | x :: xs, y :: ys, _, _, r, r', .cons (b := b1) (bs := b2) h1 h2, .cons (b := c1) (bs := c2) h3 h4, hb => by
    rw [List.append_assoc, List.append_assoc] at hb
    obtain ⟨rfl, rfl⟩ := gop_unambiguous hD h1 h3 hb
    rcases C100_reading hD h2 h4 (List.append_cancel_left hb) with h | h
    · exact .inl (List.cons_prefix_cons.mpr ⟨rfl, h⟩)
    · exact .inr (List.cons_prefix_cons.mpr ⟨rfl, h⟩)

-- after the bytes of `passOps` anything may follow
example (r : List Byte) (ops : List Op) (h : GSeq (GOp .w3c) ([0x20, 0x00, 0x04, 0x7F, 0x41, 0x01, 0x05, 0x41, 0x02, 0x0B, 0x0B] ++ r) ops) : passOps <+: ops ∨ ops <+: passOps :=
  C100_reading w3c_le_code passOps_bytes h (r := r) (r' := []) (List.append_nil _).symm

theorem gseq_unique {D : Dialect} (hD : DialectLe D .code) : ∀ {ops ops' : List Op} {b : List Byte}, GSeq (GOp D) b ops → GSeq (GOp D) b ops' → ops = ops'
  | [], [], _, _, _ => rfl
  | [], y :: ys, _, .nil, h => by
    obtain ⟨b1, b2, hb, h1, _⟩ := gseq_cons h
    exact (gop_pos h1 (List.append_eq_nil_iff.mp hb.symm).1).elim
  | x :: xs, [], _, h, .nil => by
    obtain ⟨b1, b2, hb, h1, _⟩ := gseq_cons h
    exact (gop_pos h1 (List.append_eq_nil_iff.mp hb.symm).1).elim
  | x :: xs, y :: ys, _, h, h' => by
    obtain ⟨b1, b2, rfl, h1, h2⟩ := gseq_cons h
    obtain ⟨c1, c2, hb, h3, h4⟩ := gseq_cons h'
    obtain ⟨rfl, rfl⟩ := gop_unambiguous hD h1 h3 hb
    obtain rfl := List.append_cancel_left hb
    rw [gseq_unique hD h2 h4]

/-! ## The crate -/

/-- **C100.** A function body is read and accepted by the crate, in the index spaces of any module, exactly if one pass over its bytes finds no error. -/
theorem C100_body (m : Module) (ty : Idx) (ls : List Val) (b : List Byte) :
    (∃ e t, parseExpr b = (.ok e, []) ∧ validateFunc ⟨ty, ls, e⟩ (spaces m) = .ok (t, spaces m)) ↔
      ∃ t ops, m.types[ty.toNat]? = some t ∧ GSeq (GOp .code) b ops ∧ Accepts (bodyEnv .code m t ls) t.results ops := by
  have key : ∀ e, GExpr .code b e → ((∃ t, validateFunc ⟨ty, ls, e⟩ (spaces m) = .ok (t, spaces m)) ↔ FuncOk .code m ⟨ty, ls, e⟩) := by
    intro e he
    refine accepted_iff m (f := ⟨ty, ls, e⟩) (plain_iff.mpr ?_)
    have hp := (C17_expr b e []).mpr ⟨b, (List.append_nil b).symm, he⟩
    exact ⟨fun ho => (C18_expr hp _ ho).1 rfl, fun ho => (C18_expr hp _ ho).2.1 rfl⟩
  constructor
  · rintro ⟨e, t, h1, h2⟩
    obtain ⟨b', hb, he⟩ := (C17_expr _ _ _).mp h1
    rw [List.append_nil] at hb
    subst hb
    obtain ⟨t', ht, h3⟩ := (key e he).mp ⟨t, h2⟩
    obtain ⟨ops, h4, h5⟩ := (C100_rules .code (bodyEnv .code m t' ls) t'.results b).mpr ⟨e, he, h3⟩
    exact ⟨t', ops, ht, h4, h5⟩
  · rintro ⟨t, ops, ht, h1, h2⟩
    obtain ⟨e, he, h3⟩ := (C100_rules .code (bodyEnv .code m t ls) t.results b).mp ⟨ops, h1, h2⟩
    obtain ⟨t', h4⟩ := (key e he).mpr ⟨t, ht, h3⟩
    exact ⟨e, t', (C17_expr b e []).mpr ⟨b, (List.append_nil b).symm, he⟩, h4⟩

/-- (func (param i32) (result i32)  local.get 0  if i32  i32.const 1  else  i32.const 2  end) -/
def passModule : Module := { types := [⟨[.i32], [.i32]⟩], funcs := [⟨0, [], [.localGet 0, .ifElse [.i32] [.constI32 1] [.constI32 2]]⟩] }

-- the code of this function is taken by the algorithm and so by the crate; with one more local, of which it makes no use, too
example (ls : List Val) : ∃ e t, parseExpr [0x20, 0x00, 0x04, 0x7F, 0x41, 0x01, 0x05, 0x41, 0x02, 0x0B, 0x0B] = (.ok e, []) ∧ validateFunc ⟨0, ls, e⟩ (spaces passModule) = .ok (t, spaces passModule) :=
  (C100_body passModule 0 ls _).mpr ⟨⟨[.i32], [.i32]⟩, passOps, rfl, gops_mono w3c_le_code passOps_bytes, _, rfl, rfl⟩

/-- The algorithm takes only code without pseudo-instructions. -/
def Unmarked (i : Instr) : Prop := i ≠ .endMark ∧ i ≠ .elseMark

theorem run_unmarked {C : Env} : ∀ {ops : List Op} {s s' : St}, run C s ops = some s' → ∀ i, .instr i ∈ ops → Unmarked i
  | op :: ops, s, s', h, i, hi => by
    rw [run_cons] at h
    obtain ⟨s1, h1, h2⟩ := Option.bind_eq_some_iff.mp h
    rcases List.mem_cons.mp hi with rfl | hi
    · unfold validate at h1
      split at h1
      · cases h1
      · constructor
        · rintro rfl; cases h1
        · rintro rfl; cases h1
    · exact run_unmarked h2 i hi

mutual
theorem unmarked_instr : ∀ (i : Instr), (∀ j, .instr j ∈ lineI i → Unmarked j) → plainI i
  | .block t b, h => unmarked_expr b fun j hj => h j (by simp [lineI, hj])
  | .loop t b, h => unmarked_expr b fun j hj => h j (by simp [lineI, hj])
  | .ifElse t a b, h => ⟨unmarked_expr a fun j hj => h j (by simp [lineI, hj]), unmarked_expr b fun j hj => h j (by simp [lineI, hj])⟩
  | .endMark, h => ((h .endMark (by simp [lineI])).1 rfl).elim
  | .elseMark, h => ((h .elseMark (by simp [lineI])).2 rfl).elim
  | .unreachable, _ | .nop, _ | .br _, _ | .brIf _, _ | .brTable _ _, _ | .ret, _ | .call _, _
  | .callIndirect _ _, _ | .drop, _ | .select, _ | .localGet _, _ | .localSet _, _ | .localTee _, _
  | .globalGet _, _ | .globalSet _, _ | .load _ _ _, _ | .store _ _ _, _ | .memSize _, _ | .memGrow _, _
  | .constI32 _, _ | .constI64 _, _ | .constF32 _, _ | .constF64 _, _ | .num _, _ => trivial
theorem unmarked_expr : ∀ (e : List Instr), (∀ j, .instr j ∈ lineL e → Unmarked j) → plainL e
  | [], _ => trivial
  | i :: is, h => ⟨unmarked_instr i fun j hj => h j (by simp [lineL, hj]), unmarked_expr is fun j hj => h j (by simp [lineL, hj])⟩
end

theorem accepts_line {C : Env} {r : List Val} {e : List Instr} : Accepts C r (lineL e ++ [.endOp]) ↔ ExprType C e r := by
  constructor
  · intro h
    obtain ⟨s, h1, _⟩ := id h
    have hp := unmarked_expr e fun j hj => run_unmarked h1 j (List.mem_append_left _ hj)
    exact (accepts_flat (lineL_spec e hp)).mp h
  · intro h
    exact (accepts_flat (lineL_spec e (hasTypes_plain h))).mpr h

/-- **C100, validity.** A module is valid, by the rules of the document or by those of the crate, exactly if its declarations are and the algorithm accepts the bodies. -/
theorem C100_valid (R : Rules) (m : Module) : Valid R m ↔
    DeclsOk R m ∧ ∀ f ∈ m.funcs, ∃ t, m.types[f.ty.toNat]? = some t ∧ Accepts (bodyEnv R m t f.locals) t.results (lineL f.body ++ [.endOp]) :=
  ⟨fun h => ⟨h.toDeclsOk, fun f hf => by
    obtain ⟨t, ht, h⟩ := h.funcs f hf
    exact ⟨t, ht, accepts_line.mpr h⟩⟩,
  fun h => ⟨h.1, fun f hf => by
    obtain ⟨t, ht, h⟩ := h.2 f hf
    exact ⟨t, ht, accepts_line.mp h⟩⟩⟩

example : Valid .w3c passModule := (C100_valid .w3c passModule).mpr
  ⟨⟨by simp [passModule], by simp [passModule], by simp [passModule], by simp [passModule], by simp [passModule], by simp [passModule], by simp [passModule], by simp [passModule],
    by simp [passModule, importedTables], by simp [passModule, importedMems], by simp [passModule], by decide +kernel, by decide +kernel, by simp [passModule]⟩, fun f hf => by
    simp only [passModule, List.mem_singleton] at hf
    subst hf
    exact ⟨⟨[.i32], [.i32]⟩, rfl, _, rfl, rfl⟩⟩

/-- **C100, modules.** -/
theorem C100_module {m : Module} (hm : NoElse m) (r : ModuleResult) : validateModule m = .ok r ↔ r = externals m ∧
    DeclsOk .code m ∧ ∀ f ∈ m.funcs, ∃ t, m.types[f.ty.toNat]? = some t ∧ Accepts (bodyEnv .code m t f.locals) t.results (lineL f.body ++ [.endOp]) := by
  rw [← C100_valid]
  constructor
  · intro h
    exact ⟨(validate_any_iff.mp h).2, valid_of_ok h hm⟩
  · rintro ⟨rfl, h⟩
    exact ok_of_valid h

example : validateModule passModule = .ok (externals passModule) :=
  (C100_module (fun f hf => (plain_iff.mp (by simp [passModule] at hf; subst hf; simp [plainL, plainI])).2) _).mpr ⟨rfl,
    ⟨by simp [passModule], by simp [passModule], by simp [passModule], by simp [passModule], by simp [passModule], by simp [passModule], by simp [passModule], by simp [passModule],
      by simp [passModule, importedTables], by simp [passModule, importedMems], by simp [passModule], by decide +kernel, by decide +kernel, by simp [passModule]⟩, fun f hf => by
    simp only [passModule, List.mem_singleton] at hf
    subst hf
    exact ⟨⟨[.i32], [.i32]⟩, rfl, _, rfl, rfl⟩⟩

-- with `i32.const 0  br 0` as its body the function is refused: the crate has no label for the function
example : ¬ ∃ t, passModule.types[0]? = some t ∧ Accepts (bodyEnv .code passModule t []) t.results (lineL [.constI32 0, .br 0] ++ [.endOp]) := by
  rintro ⟨t, ht, s, h, _⟩
  cases ht
  have e : run (bodyEnv .code passModule ⟨[.i32], [.i32]⟩ []) (start [.i32]) (lineL [.constI32 0, .br 0] ++ [.endOp]) = none := by decide +kernel
  cases e.symm.trans h

/-- The two stacks are those of the crate. -/
structure SameStacks (s : St) (x : Ctx) : Prop where
  opds : s.opds = x.operands
  ctrls : s.ctrls.map (fun f => (⟨f.label_types, f.end_types, f.height, f.unreachable⟩ : Frame)) = x.frames

/-- **C100, in step.** At every place of a body the algorithm has the stacks that the crate has when it gets there; if the crate fails before, so does the algorithm, and the other way round. -/
theorem C100_step {m : Module} {f : Func} {t : FuncTy} (ht : m.types[f.ty.toNat]? = some t) (hm : ¬ Occurs .endMark f.body ∧ ¬ Occurs .elseMark f.body)
    {p : Run.Place} {ops : List Op} (hp : upTo p f.body = some ops) :
    (∀ x, arriveFunc f p (spaces m) = .ok ((), x) → ∃ s, run (bodyEnv .code m t f.locals) (start t.results) ops = some s ∧ SameStacks s x) ∧
    (∀ s, run (bodyEnv .code m t f.locals) (start t.results) ops = some s → ∃ x, arriveFunc f p (spaces m) = .ok ((), x) ∧ SameStacks s x) := by
  let c : Ctx := { spaces m with ret := some t.results, locals := t.params ++ f.locals }
  have hl : validateTypeIdx f.ty (spaces m) = .ok (t, spaces m) := by
    show lookup m.types f.ty (spaces m) = _
    unfold lookup
    rw [ht, if_neg (Nat.not_le_of_lt (List.getElem?_eq_some_iff.mp ht).1)]
  have ha : arriveFunc f p (spaces m) = arrive p f.body (ctx c (start t.results)) := by
    unfold arriveFunc
    rw [bind_ok hl]
    rfl
  have hs := step_arrive c p (plain_iff.mpr hm) hp (framed_push (s := ⟨[], []⟩) .func t.results t.results)
  have he : envOf c [] = bodyEnv .code m t f.locals := rfl
  rw [he] at hs
  have hs : arriveFunc f p (spaces m) = res c (run (bodyEnv .code m t f.locals) (start t.results) ops) := ha.trans hs
  rw [hs]
  cases run (bodyEnv .code m t f.locals) (start t.results) ops with
  | none => exact ⟨fun x h => (by cases h), fun s h => (by cases h)⟩
  | some s =>
    refine ⟨fun x h => ?_, fun s' h => ?_⟩
    · cases h
      exact ⟨s, rfl, rfl, rfl⟩
    · cases h
      exact ⟨_, rfl, rfl, rfl⟩

example : upTo (.inElse 1 (.here 1)) passModule.funcs[0].body = some [.instr (.localGet 0), .ifOp [.i32], .instr (.constI32 1), .elseOp, .instr (.constI32 2)] := rfl

example : run (bodyEnv .code passModule ⟨[.i32], [.i32]⟩ []) (start [.i32]) [.instr (.localGet 0), .ifOp [.i32], .instr (.constI32 1), .elseOp, .instr (.constI32 2)]
    = some ⟨[.val .i32], [⟨.ifElse, [.i32], [.i32], 0, false⟩, ⟨.func, [.i32], [.i32], 0, false⟩]⟩ := rfl

example : ∃ x, arriveFunc passModule.funcs[0] (.inElse 1 (.here 1)) (spaces passModule) = .ok ((), x) ∧ x.operands = [.val .i32] ∧ x.frames.length = 2 := by
  obtain ⟨x, hx, h1, h2⟩ := (C100_step (m := passModule) (f := passModule.funcs[0]) (t := ⟨[.i32], [.i32]⟩) rfl (plain_iff.mp (by simp [passModule, plainL, plainI])) (p := .inElse 1 (.here 1)) rfl).2 _ rfl
  exact ⟨x, hx, h1.symm, by rw [← h2]; rfl⟩

end Whasm
