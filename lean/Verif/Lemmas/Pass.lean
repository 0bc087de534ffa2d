import Verif.Spec.Pass
import Verif.Lemmas.Plain

/-!
# The one-pass algorithm computes `evalInstr`
-/

namespace Whasm.Pass
open Spec Spec.Pass

/-! ## Inside one frame -/

/-- The state in which the current frame has operands `s.1` on top of `base` and flag `s.2`. -/
def pst (base : List Operand) (k : Kind) (l o : List Val) (rest : List Ctrl) (s : Loc) : St := ⟨s.1 ++ base, ⟨k, l, o, base.length, s.2⟩ :: rest⟩

/-- The context for the rules. -/
def envAt (C : Env) (l : List Val) (rest : List Ctrl) : Env := { C with labels := (l :: rest.map (·.label_types)).dropLast ++ C.labels }

section
variable {C : Env} {base : List Operand} {k : Kind} {l o : List Val} {rest : List Ctrl}

theorem labels_pst (s : Loc) : labels C (pst base k l o rest s) = (envAt C l rest).labels := by
  unfold labels pst envAt
  simp only
  rw [List.map_dropLast]
  rfl

theorem envAt_cons (l' : List Val) (f : Ctrl) (hf : f.label_types = l) :
    envAt C l' (f :: rest) = { envAt C l rest with labels := l' :: (envAt C l rest).labels } := by
  subst hf
  rfl

theorem pop_any_pst (s : Loc) : pop_any (pst base k l o rest s) = (popL .unknown s).map fun x => (x.1, pst base k l o rest x.2) := by
  obtain ⟨loc, u⟩ := s
  unfold pop_any pst
  cases loc with
  | nil => cases u <;> simp [popL]
  | cons v loc =>
    have : ¬ (v :: loc ++ base).length = base.length := by simp; omega
    simp only [if_neg this]
    cases v <;> rfl

theorem pop_opd_pst (op : Operand) (s : Loc) : pop_opd op (pst base k l o rest s) = (popL op s).map fun x => (x.1, pst base k l o rest x.2) := by
  unfold pop_opd
  rw [pop_any_pst]
  obtain ⟨loc, u⟩ := s
  cases loc with
  | nil => cases u <;> simp [popL]
  | cons v loc =>
    cases v <;> cases op <;> simp [popL]

theorem pop_opds_aux (ts : List Val) : ∀ s : Loc, ts.foldlM (fun s t => (pop_opd (.val t) s).map (·.2)) (pst base k l o rest s) =
    (popsL ts s).map (pst base k l o rest) := by
  induction ts with
  | nil => intro s; rfl
  | cons t ts ih =>
    intro s
    rw [List.foldlM_cons, pop_opd_pst, popsL]
    cases popL (.val t) s with
    | none => rfl
    | some x => exact ih x.2

theorem pop_opds_pst (ts : List Val) (s : Loc) : pop_opds ts (pst base k l o rest s) = (popsL ts.reverse s).map (pst base k l o rest) := pop_opds_aux _ s

theorem push_opds_pst (ts : List Val) : ∀ s : Loc, push_opds ts (pst base k l o rest s) = pst base k l o rest (pushL ts s) := by
  induction ts with
  | nil => intro s; rfl
  | cons t ts ih =>
    intro s
    show push_opds ts (pst base k l o rest (.val t :: s.1, s.2)) = _
    rw [ih]
    simp [pushL]

theorem unreachable_pst (s : Loc) : unreachable (pst base k l o rest s) = some (pst base k l o rest ([], true)) := by
  unfold unreachable pst
  simp

theorem pop_ctrl_pst (s : Loc) : pop_ctrl (pst base k l o rest s) = (endL o s).map fun _ => (⟨k, l, o, base.length, s.2⟩, ⟨base, rest⟩) := by
  show (pop_opds o (pst base k l o rest s)).bind _ = _
  rw [pop_opds_pst, endL]
  cases popsL o.reverse s with
  | none => rfl
  | some s' =>
    simp only [Option.map_some, Option.bind_some, pst, List.length_append]
    by_cases h : s'.1 = []
    · simp [h]
    · rw [if_neg, if_neg h]
      · rfl
      · have := List.length_pos_iff.mpr h
        omega

/-- What the alignment demands. -/
def Fine (C : Env) : Op → Prop
  | .instr i => C.aligned = true → AlignOk i
  | _ => True

theorem pop_i32 (s : Loc) : pop_opd (.val .i32) (pst base k l o rest s) = (popL (.val .i32) s).map fun x => (x.1, pst base k l o rest x.2) := pop_opd_pst _ s

/-- Instructions of one type. -/
theorem sig_pst {i : Instr} {ins outs : List Val} (h : signature C i = some (ins, outs)) (s : Loc) :
    ((signature C i).bind fun (ins, outs) => (pop_opds ins (pst base k l o rest s)).map (push_opds outs)) =
      ((popsL ins.reverse s).bind fun s => some (pushL outs s)).map (pst base k l o rest) := by
  rw [h]
  simp only [Option.bind_some, pop_opds_pst]
  cases popsL ins.reverse s with
  | none => rfl
  | some s => simp only [Option.map_some, push_opds_pst, Option.bind_some]

theorem popsL_one (t : Val) (s : Loc) : popsL [t] s = (popL (.val t) s).map (·.2) := by
  unfold popsL
  cases popL (.val t) s <;> rfl

theorem popsL_cat (a b : List Val) : ∀ s : Loc, popsL (a ++ b) s = (popsL a s).bind (popsL b) := by
  induction a with
  | nil => intro s; rfl
  | cons t a ih =>
    intro s
    simp only [List.cons_append, popsL]
    cases popL (.val t) s with
    | none => rfl
    | some x => exact ih x.2

theorem load_size (op : LoadOp) (a b : U32) : AlignOk (.load op a b) ↔ 2 ^ a.toNat ≤ (loadType op).2 := by cases op <;> rfl
theorem store_size (op : StoreOp) (a b : U32) : AlignOk (.store op a b) ↔ 2 ^ a.toNat ≤ (storeType op).2 := by cases op <;> rfl

theorem sig_none {i : Instr} (h : signature C i = none) (s : St) :
    ((signature C i).bind fun (ins, outs) => (pop_opds ins s).map (push_opds outs)) = none := by rw [h]; rfl

theorem instr_pst {i : Instr} (hi : Simple i) (ha : Fine C (.instr i)) (s : Loc) :
    Spec.Pass.instr C i (pst base k l o rest s) = (evalInstr (envAt C l rest) i s).map (pst base k l o rest) := by
  cases i with
  | block | loop | ifElse | elseMark | endMark => exact hi.elim
  | unreachable => simp only [instr, evalInstr, unreachable_pst, Option.map_some]
  | drop =>
    simp only [instr, evalInstr, pop_any_pst]
    cases popL .unknown s <;> rfl
  | select =>
    simp only [instr, evalInstr, pop_opd_pst, popsL_one]
    cases popL (.val .i32) s with
    | none => rfl
    | some x =>
      simp only [Option.map_some, Option.bind_some, pop_any_pst]
      cases popL .unknown x.2 with
      | none => rfl
      | some y =>
        simp only [Option.map_some, Option.bind_some, pop_opd_pst]
        cases popL y.1 y.2 <;> rfl
  | br n =>
    simp only [instr, evalInstr, labels_pst, pop_opds_pst]
    cases (envAt C l rest).labels[n.toNat]? with
    | none => rfl
    | some r =>
      simp only [Option.bind_some]
      cases popsL r.reverse s with
      | none => rfl
      | some s => simp only [Option.map_some, Option.bind_some, unreachable_pst]
  | brIf n =>
    simp only [instr, evalInstr, labels_pst, pop_opd_pst, popsL_one]
    cases (envAt C l rest).labels[n.toNat]? with
    | none => rfl
    | some r =>
      simp only [Option.bind_some]
      cases popL (.val .i32) s with
      | none => rfl
      | some x =>
        simp only [Option.map_some, Option.bind_some, pop_opds_pst]
        cases popsL r.reverse x.2 with
        | none => rfl
        | some s => simp only [Option.map_some, Option.bind_some, push_opds_pst]
  | brTable ns n =>
    simp only [instr, evalInstr, labels_pst, pop_opd_pst, popsL_one]
    cases (envAt C l rest).labels[n.toNat]? with
    | none => rfl
    | some r =>
      simp only [Option.bind_some]
      by_cases h : ∀ x ∈ ns, (envAt C l rest).labels[x.toNat]? = some r
      · rw [if_pos (by simpa using h), if_pos h]
        cases popL (.val .i32) s with
        | none => rfl
        | some x =>
          simp only [Option.map_some, Option.bind_some, pop_opds_pst]
          cases popsL r.reverse x.2 with
          | none => rfl
          | some s => simp only [Option.map_some, Option.bind_some, unreachable_pst]
      · rw [if_neg (by simpa using h), if_neg h]
        rfl
  | ret =>
    simp only [instr, evalInstr, pop_opds_pst]
    show C.ret.bind _ = Option.map _ (C.ret.bind _)
    cases C.ret with
    | none => rfl
    | some r =>
      simp only [Option.bind_some]
      cases popsL r.reverse s with
      | none => rfl
      | some s => simp only [Option.map_some, Option.bind_some, unreachable_pst]
  | nop => exact sig_pst (C := C) (i := .nop) rfl s
  | constI32 v => exact sig_pst (C := C) (i := .constI32 v) rfl s
  | constI64 v => exact sig_pst (C := C) (i := .constI64 v) rfl s
  | constF32 v => exact sig_pst (C := C) (i := .constF32 v) rfl s
  | constF64 v => exact sig_pst (C := C) (i := .constF64 v) rfl s
  | num op =>
    refine (sig_pst (C := C) (i := .num op) (ins := (numSig op).1) (outs := (numSig op).2) ?_ s).trans rfl
    show some (numType op) = _
    rw [numType_eq]
  | localGet x =>
    cases h : C.locals[x.toNat]? with
    | none => simp only [instr, evalInstr, signature, envAt, h]; rfl
    | some t => simp only [instr]; rw [sig_pst (ins := []) (outs := [t]) (by simp only [signature, h]; rfl)]; simp only [evalInstr, envAt, h]; rfl
  | localSet x =>
    cases h : C.locals[x.toNat]? with
    | none => simp only [instr, evalInstr, signature, envAt, h]; rfl
    | some t =>
      simp only [instr]; rw [sig_pst (ins := [t]) (outs := []) (by simp only [signature, h]; rfl)]; simp only [evalInstr, envAt, h]
      show Option.map _ ((popsL [t] s).bind _) = Option.map _ (popsL [t] s)
      cases popsL [t] s <;> rfl
  | localTee x =>
    cases h : C.locals[x.toNat]? with
    | none => simp only [instr, evalInstr, signature, envAt, h]; rfl
    | some t => simp only [instr]; rw [sig_pst (ins := [t]) (outs := [t]) (by simp only [signature, h]; rfl)]; simp only [evalInstr, envAt, h]; rfl
  | globalGet x =>
    cases h : C.globals[x.toNat]? with
    | none => simp only [instr, evalInstr, signature, envAt, h]; rfl
    | some t => simp only [instr]; rw [sig_pst (ins := []) (outs := [t.val]) (by simp only [signature, h]; rfl)]; simp only [evalInstr, envAt, h]; rfl
  | globalSet x =>
    cases h : C.globals[x.toNat]? with
    | none => simp only [instr, evalInstr, signature, envAt, h]; rfl
    | some t =>
      by_cases hm : t.mt = .var
      · simp only [instr]; rw [sig_pst (ins := [t.val]) (outs := []) (by simp only [signature, h, Option.bind_some, if_pos hm])]; simp only [evalInstr, envAt, h, Option.bind_some, if_pos hm]
        show Option.map _ ((popsL [t.val] s).bind _) = Option.map _ (popsL [t.val] s)
        cases popsL [t.val] s <;> rfl
      · simp only [instr, evalInstr, envAt, signature, h, Option.bind_some, if_neg hm]; rfl
  | load op a b =>
    cases h : C.mems with
    | nil => simp only [instr, evalInstr, envAt, signature, h]; rfl
    | cons m ms =>
      have : signature C (.load op a b) = some ([.i32], [(loadSig op).2]) := by
        rw [signature, if_neg, loadType_eq]
        rintro (h' | ⟨h1, h2⟩)
        · rw [h] at h'; cases h'
        · have := (load_size op a b).mp (ha h1)
          omega
      simp only [instr]; rw [sig_pst this]; simp only [evalInstr, envAt, h]; rfl
  | store op a b =>
    cases h : C.mems with
    | nil => simp only [instr, evalInstr, envAt, signature, h]; rfl
    | cons m ms =>
      have : signature C (.store op a b) = some ([.i32, (storeSig op).2], []) := by
        rw [signature, if_neg, storeType_eq]
        rintro (h' | ⟨h1, h2⟩)
        · rw [h] at h'; cases h'
        · have := (store_size op a b).mp (ha h1)
          omega
      simp only [instr]; rw [sig_pst this]; simp only [evalInstr, envAt, h]
      show Option.map _ ((popsL [(storeSig op).2, .i32] s).bind _) = Option.map _ (popsL [(storeSig op).2, .i32] s)
      cases popsL [(storeSig op).2, .i32] s <;> rfl
  | memSize x =>
    cases h : C.mems[x.toNat]? with
    | none => simp only [instr, evalInstr, signature, envAt, h]; rfl
    | some t => simp only [instr]; rw [sig_pst (ins := []) (outs := [.i32]) (by simp only [signature, h]; rfl)]; simp only [evalInstr, envAt, h]; rfl
  | memGrow x =>
    cases h : C.mems[x.toNat]? with
    | none => simp only [instr, evalInstr, signature, envAt, h]; rfl
    | some t => simp only [instr]; rw [sig_pst (ins := [.i32]) (outs := [.i32]) (by simp only [signature, h]; rfl)]; simp only [evalInstr, envAt, h]; rfl
  | call x =>
    cases h : C.funcs[x.toNat]? with
    | none => simp only [instr, evalInstr, signature, envAt, h]; rfl
    | some t => simp only [instr]; rw [sig_pst (ins := t.params) (outs := t.results) (by simp only [signature, h]; rfl)]; simp only [evalInstr, envAt, h]; rfl
  | callIndirect x y =>
    cases h : C.tables[y.toNat]? with
    | none => simp only [instr, evalInstr, signature, envAt, h]; rfl
    | some tb =>
      cases h' : C.types[x.toNat]? with
      | none => simp only [instr, evalInstr, signature, envAt, h, h', Option.bind_some]; rfl
      | some t =>
        simp only [instr]; rw [sig_pst (ins := t.params ++ [.i32]) (outs := t.results) (by simp only [signature, h, h', Option.bind_some]; rfl)]
        simp only [evalInstr, envAt, h, h', Option.bind_some]
        rw [List.reverse_append, popsL_cat, Option.bind_assoc]
        rfl

end

/-- Alignment is checked apart from everything else. -/
theorem validate_aligned (C : Env) (s : St) (op : Op) (s' : St) :
    validate C s op = some s' ↔ Fine C op ∧ validate { C with aligned := false } s op = some s' := by
  unfold validate
  by_cases hc : s.ctrls = []
  · simp only [if_pos hc]; simp
  simp only [if_neg hc]
  cases op with
  | instr i =>
    by_cases hf : Fine C (.instr i)
    · simp only [hf, true_and]
      suffices e : instr C i s = instr { C with aligned := false } i s by rw [e]
      cases i with
      | load op a b =>
        simp only [instr, signature]
        have : (C.mems = [] ∨ C.aligned = true ∧ (loadType op).2 < 2 ^ a.toNat) ↔ (C.mems = [] ∨ false = true ∧ (loadType op).2 < 2 ^ a.toNat) := by
          constructor
          · rintro (h | ⟨h1, h2⟩)
            · exact .inl h
            · have := (load_size op a b).mp (hf h1); omega
          · rintro (h | ⟨h1, _⟩)
            · exact .inl h
            · cases h1
        simp only [this]
      | store op a b =>
        simp only [instr, signature]
        have : (C.mems = [] ∨ C.aligned = true ∧ (storeType op).2 < 2 ^ a.toNat) ↔ (C.mems = [] ∨ false = true ∧ (storeType op).2 < 2 ^ a.toNat) := by
          constructor
          · rintro (h | ⟨h1, h2⟩)
            · exact .inl h
            · have := (store_size op a b).mp (hf h1); omega
          · rintro (h | ⟨h1, _⟩)
            · exact .inl h
            · cases h1
        simp only [this]
      | _ => rfl
    · refine ⟨fun h => (hf fun ha => ?_).elim, fun h => (hf h.1).elim⟩
      cases i with
      | load op a b =>
        simp only [instr, signature] at h
        split at h
        · cases h
        · next hn => exact (load_size op a b).mpr (Nat.le_of_not_lt fun hlt => hn (.inr ⟨ha, hlt⟩))
      | store op a b =>
        simp only [instr, signature] at h
        split at h
        · cases h
        · next hn => exact (store_size op a b).mpr (Nat.le_of_not_lt fun hlt => hn (.inr ⟨ha, hlt⟩))
      | _ => trivial
  | _ => simp only [Fine, true_and]

theorem run_nil (C : Env) (s : St) : run C s [] = some s := rfl
theorem run_cons (C : Env) (s : St) (op : Op) (ops : List Op) : run C s (op :: ops) = (validate C s op).bind fun s => run C s ops := List.foldlM_cons
theorem run_append (C : Env) (a b : List Op) : ∀ s : St, run C s (a ++ b) = (run C s a).bind fun s => run C s b := by
  intro s
  exact List.foldlM_append

theorem run_aligned (C : Env) : ∀ (ops : List Op) (s s' : St),
    run C s ops = some s' ↔ (∀ op ∈ ops, Fine C op) ∧ run { C with aligned := false } s ops = some s'
  | [], s, s' => by simp [run_nil]
  | op :: ops, s, s' => by
    simp only [run_cons, Option.bind_eq_some_iff, validate_aligned C, run_aligned C ops, List.forall_mem_cons]
    constructor
    · rintro ⟨x, ⟨h1, h2⟩, h3, h4⟩; exact ⟨⟨h1, h3⟩, x, h2, h4⟩
    · rintro ⟨⟨h1, h3⟩, x, h2, h4⟩; exact ⟨x, ⟨h1, h2⟩, h3, h4⟩

/-! ## Trees -/

/-- A frame around `ops`. -/
theorem run_frame {C : Env} {base : List Operand} {k k' : Kind} {l l' o o' : List Val} {rest : List Ctrl} {s : Loc} {ops : List Op} {r : Option Loc}
    (h : run C (pst (s.1 ++ base) k' l' o' (⟨k, l, o, base.length, s.2⟩ :: rest) ([], false)) ops =
      r.map (pst (s.1 ++ base) k' l' o' (⟨k, l, o, base.length, s.2⟩ :: rest))) (hk : k' = .ifThen → o' = []) :
    run C (push_ctrl k' l' o' (pst base k l o rest s)) (ops ++ [.endOp]) =
      (r.bind fun s' => (endL o' s').bind fun _ => some (pushL o' s)).map (pst base k l o rest) := by
  have e : push_ctrl k' l' o' (pst base k l o rest s) = pst (s.1 ++ base) k' l' o' (⟨k, l, o, base.length, s.2⟩ :: rest) ([], false) := rfl
  rw [e, run_append, h]
  cases r with
  | none => rfl
  | some s' =>
    simp only [Option.map_some, Option.bind_some]
    show (run C _ [.endOp]) = _
    rw [run_cons, validate, if_neg (by simp [pst])]
    simp only [pop_ctrl_pst]
    cases endL o' s' with
    | none => rfl
    | some _ =>
      simp only [Option.map_some, Option.bind_some]
      rw [if_neg (fun h => h.2 (hk h.1))]
      exact congrArg some (push_opds_pst o' s)

/-- As far as `else`. -/
theorem run_else {C : Env} {base : List Operand} {k : Kind} {l l' o o' : List Val} {rest : List Ctrl} {s : Loc} {ops : List Op} {r : Option Loc}
    (h : run C (pst (s.1 ++ base) .ifThen l' o' (⟨k, l, o, base.length, s.2⟩ :: rest) ([], false)) ops =
      r.map (pst (s.1 ++ base) .ifThen l' o' (⟨k, l, o, base.length, s.2⟩ :: rest))) :
    run C (push_ctrl .ifThen l' o' (pst base k l o rest s)) (ops ++ [.elseOp]) =
      (r.bind fun s' => (endL o' s').map fun _ => push_ctrl .ifElse o' o' (pst base k l o rest s)) := by
  have e : push_ctrl .ifThen l' o' (pst base k l o rest s) = pst (s.1 ++ base) .ifThen l' o' (⟨k, l, o, base.length, s.2⟩ :: rest) ([], false) := rfl
  rw [e, run_append, h]
  cases r with
  | none => rfl
  | some s' =>
    simp only [Option.map_some, Option.bind_some]
    show (run C _ [.elseOp]) = _
    rw [run_cons, validate, if_neg (by simp [pst])]
    simp only [pop_ctrl_pst]
    cases endL o' s' with
    | none => rfl
    | some _ => rfl

theorem validate_if {C : Env} {base : List Operand} {k : Kind} {l o : List Val} {rest : List Ctrl} (t : RetVal) (s : Loc) (ops : List Op) :
    run C (pst base k l o rest s) (.ifOp t :: ops) = (popsL [.i32] s).bind fun s => run C (push_ctrl .ifThen t t (pst base k l o rest s)) ops := by
  rw [run_cons, validate, if_neg (by simp [pst])]
  simp only [pop_opd_pst, popsL_one]
  cases popL (.val .i32) s <;> rfl

mutual

theorem run_instr {C : Env} (hC : C.aligned = false) : ∀ {ops : List Op} {i : Instr}, FlatI ops i → ∀ (base : List Operand) (k : Kind) (l o : List Val) (rest : List Ctrl) (s : Loc),
    run C (pst base k l o rest s) ops = (evalInstr (envAt C l rest) i s).map (pst base k l o rest)
  | _, _, .simple hi, base, k, l, o, rest, s => by
    rw [run_cons, validate, if_neg (by simp [pst])]
    rw [instr_pst hi fun h => by rw [hC] at h; cases h]
    cases evalInstr (envAt C l rest) _ s <;> rfl
  | _, _, .block (t := t) (b := b) h, base, k, l, o, rest, s => by
    rw [run_cons, validate, if_neg (by simp [pst])]
    simp only [Option.bind_some, evalInstr]
    exact run_frame (run_seq hC h _ _ _ _ _ _) (fun h => by cases h)
  | _, _, .loop (t := t) (b := b) h, base, k, l, o, rest, s => by
    rw [run_cons, validate, if_neg (by simp [pst])]
    simp only [Option.bind_some, evalInstr]
    exact run_frame (run_seq hC h _ _ _ _ _ _) (fun h => by cases h)
  | _, _, .ifThen (t := t) (a := a) h, base, k, l, o, rest, s => by
    rw [validate_if, evalInstr]
    cases popsL [.i32] s with
    | none => rfl
    | some s =>
      simp only [Option.bind_some, evalExpr]
      by_cases ht : t = []
      · subst ht
        rw [run_frame (run_seq hC h _ _ _ _ _ _) (fun _ => rfl)]
        have e : endL [] ([], false) = some () := rfl
        simp only [e, Option.bind_some]
        rfl
      · have e : endL t ([], false) = none := by
          unfold endL
          cases hr : t.reverse with
          | nil => exact (ht (List.reverse_eq_nil_iff.mp hr)).elim
          | cons _ _ => rfl
        rw [run_append]
        have e2 : push_ctrl .ifThen t t (pst base k l o rest s) = pst (s.1 ++ base) .ifThen t t (⟨k, l, o, base.length, s.2⟩ :: rest) ([], false) := rfl
        rw [e2, run_seq hC h]
        simp only [e, Option.bind_none]
        have e3 : ∀ x : Option Loc, (x.bind fun s1 => (endL t s1).bind fun _ => (none : Option Loc)) = none := by
          intro x
          cases x with
          | none => rfl
          | some s1 => show (endL t s1).bind _ = none; cases endL t s1 <;> rfl
        rw [e3]
        cases hx : evalExpr (envAt C t (⟨k, l, o, base.length, s.2⟩ :: rest)) a ([], false) with
        | none => rfl
        | some s1 =>
          simp only [Option.map_some, Option.bind_some, Option.map_none]
          rw [run_cons, validate, if_neg (by simp [pst])]
          simp only [pop_ctrl_pst]
          cases endL t s1 with
          | none => rfl
          | some _ =>
            simp only [Option.map_some, Option.bind_some]
            rw [if_pos ⟨trivial, ht⟩]
            rfl
  | _, _, .ifElse (t := t) (ops := ops) (ops' := ops') (a := a) (b := b) ha hb, base, k, l, o, rest, s => by
    rw [validate_if, evalInstr]
    cases popsL [.i32] s with
    | none => rfl
    | some s =>
      simp only [Option.bind_some]
      have e : ops ++ .elseOp :: (ops' ++ [.endOp]) = (ops ++ [.elseOp]) ++ (ops' ++ [.endOp]) := by simp
      rw [e, run_append, run_else (run_seq hC ha _ _ _ _ _ _)]
      show Option.bind (Option.bind (evalExpr _ a ([], false)) _) _ = Option.map _ (Option.bind (evalExpr _ a ([], false)) _)
      rw [envAt_cons (rest := rest) (l := l) t _ rfl]
      cases evalExpr { envAt C l rest with labels := t :: (envAt C l rest).labels } a ([], false) with
      | none => rfl
      | some s1 =>
        simp only [Option.bind_some]
        cases endL t s1 with
        | none => rfl
        | some _ =>
          simp only [Option.bind_some, Option.map_some]
          exact run_frame (run_seq hC hb _ _ _ _ _ _) (fun h => by cases h)

theorem run_seq {C : Env} (hC : C.aligned = false) : ∀ {ops : List Op} {is : List Instr}, FlatL ops is → ∀ (base : List Operand) (k : Kind) (l o : List Val) (rest : List Ctrl) (s : Loc),
    run C (pst base k l o rest s) ops = (evalExpr (envAt C l rest) is s).map (pst base k l o rest)
  | _, _, .nil, base, k, l, o, rest, s => rfl
  | _, _, .cons h1 h2, base, k, l, o, rest, s => by
    rw [run_append, run_instr hC h1, evalExpr]
    cases evalInstr (envAt C l rest) _ s with
    | none => rfl
    | some s' => exact run_seq hC h2 base k l o rest s'

end

end Whasm.Pass
