import Verif.Lemmas.Siblings
import Verif.Spec.Renumber

/-!
# Validation with other indices
-/

namespace Whasm
open Spec

/-- From the stacks `o` and `f`, `p` in `D` and `p'` in `D'` do the same. -/
def MatchAt {α : Type} (D D' : Ctx) (o : List Operand) (f : List Frame) (p p' : V α) : Prop :=
  (∃ e, p { D with operands := o, frames := f } = .error e ∧ p' { D' with operands := o, frames := f } = .error e) ∨
  ∃ x o' f', p { D with operands := o, frames := f } = .ok (x, { D with operands := o', frames := f' }) ∧
    p' { D' with operands := o, frames := f } = .ok (x, { D' with operands := o', frames := f' })

def Match {α : Type} (D D' : Ctx) (p p' : V α) : Prop := ∀ o f, MatchAt D D' o f p p'

section
variable {D D' : Ctx} {α β : Type}

theorem match_pure (x : α) : Match D D' (pure x) (pure x) := fun o f => .inr ⟨x, o, f, rfl, rfl⟩
theorem match_fail (e : VErr) : Match (α := α) D D' (V.fail e) (V.fail e) := fun _ _ => .inl ⟨e, rfl, rfl⟩

theorem matchAt_bind {o : List Operand} {f : List Frame} {p p' : V α} {k k' : α → V β} (h : MatchAt D D' o f p p')
    (hk : ∀ x, Match D D' (k x) (k' x)) : MatchAt D D' o f (p >>= k) (p' >>= k') := by
  rcases h with ⟨e, h, h'⟩ | ⟨x, o', f', h, h'⟩
  · exact .inl ⟨e, bind_err h, bind_err h'⟩
  · rcases hk x o' f' with ⟨e, g, g'⟩ | ⟨y, o'', f'', g, g'⟩
    · exact .inl ⟨e, (bind_ok h).trans g, (bind_ok h').trans g'⟩
    · exact .inr ⟨y, o'', f'', (bind_ok h).trans g, (bind_ok h').trans g'⟩

theorem match_bind {p p' : V α} {k k' : α → V β} (h : Match D D' p p') (hk : ∀ x, Match D D' (k x) (k' x)) : Match D D' (p >>= k) (p' >>= k') :=
  fun o f => matchAt_bind (h o f) hk

theorem match_ite {c : Prop} [Decidable c] {p p' q q' : V α} (h : Match D D' p p') (hq : Match D D' q q') :
    Match D D' (if c then p else q) (if c then p' else q') := by
  by_cases hc : c
  · rw [if_pos hc, if_pos hc]; exact h
  · rw [if_neg hc, if_neg hc]; exact hq

theorem match_pushOperand (x : Operand) : Match D D' (pushOperand x) (pushOperand x) := fun o f => .inr ⟨(), x :: o, f, rfl, rfl⟩

theorem match_popOperand (x : Operand) : Match D D' (popOperand x) (popOperand x) := by
  intro o f
  unfold MatchAt popOperand
  dsimp only
  cases f with
  | nil => exact .inl ⟨_, rfl, rfl⟩
  | cons fr f =>
    dsimp only
    by_cases h : o.length = fr.height ∧ fr.unreachable = true
    · simp only [if_pos h]; exact .inr ⟨_, _, _, rfl, rfl⟩
    · simp only [if_neg h]
      by_cases h' : o.length = fr.height
      · simp only [if_pos h']; exact .inl ⟨_, rfl, rfl⟩
      · simp only [if_neg h']
        cases o with
        | nil => exact .inl ⟨_, rfl, rfl⟩
        | cons v o =>
          cases v with
          | unknown => exact .inr ⟨_, _, _, rfl, rfl⟩
          | val v =>
            cases x with
            | unknown => exact .inr ⟨_, _, _, rfl, rfl⟩
            | val x =>
              dsimp only
              by_cases hv : Operand.val v = Operand.val x
              · simp only [if_pos hv]; exact .inr ⟨_, _, _, rfl, rfl⟩
              · simp only [if_neg hv]; exact .inl ⟨_, rfl, rfl⟩

theorem match_pushOperands : ∀ vs : List Val, Match D D' (pushOperands vs) (pushOperands vs)
  | [] => match_pure ()
  | v :: vs => match_bind (match_pushOperand (.val v)) fun _ => match_pushOperands vs

theorem match_popReversed : ∀ vs : List Val, Match D D' (popReversed vs) (popReversed vs)
  | [] => match_pure ()
  | v :: vs => match_bind (match_popOperand (.val v)) fun _ => match_popReversed vs

theorem match_popOperands (vs : List Val) : Match D D' (popOperands vs) (popOperands vs) := match_popReversed vs.reverse

theorem match_pushFrame (l out : List Val) : Match D D' (pushFrame l out) (pushFrame l out) := fun _ _ => .inr ⟨(), _, _, rfl, rfl⟩

theorem match_setUnreachable : Match D D' setUnreachable setUnreachable := by
  intro o f
  cases f with
  | nil => exact .inl ⟨_, rfl, rfl⟩
  | cons fr f => exact .inr ⟨_, _, _, rfl, rfl⟩

theorem match_popFrame : Match D D' popFrame popFrame := by
  intro o f
  cases f with
  | nil => exact .inl ⟨_, rfl, rfl⟩
  | cons fr f =>
    refine matchAt_bind (p := popOperands fr.out) (p' := popOperands fr.out) (match_popOperands fr.out o (fr :: f)) fun _ o' f' => ?_
    by_cases h : o'.length ≠ fr.height
    · exact .inl ⟨.invalid, congrFun (if_pos h) _, congrFun (if_pos h) _⟩
    · cases f' with
      | nil => exact .inl ⟨.invalid, congrFun (if_neg h) _, congrFun (if_neg h) _⟩
      | cons g f' => exact .inr ⟨fr.out, o', f', congrFun (if_neg h) _, congrFun (if_neg h) _⟩

theorem match_label (i : Idx) : Match D D' (validateLabel i) (validateLabel i) := by
  intro o f
  unfold MatchAt validateLabel
  dsimp only
  by_cases h : ¬ (i.toNat + 1 < f.length)
  · simp only [if_pos h]; exact .inl ⟨_, rfl, rfl⟩
  · simp only [if_neg h]
    by_cases h' : f.length < i.toNat + 1
    · simp only [if_pos h']; exact .inl ⟨_, rfl, rfl⟩
    · simp only [if_neg h']
      cases f.reverse[f.length - i.toNat - 1]? with
      | none => exact .inl ⟨_, rfl, rfl⟩
      | some x => exact .inr ⟨_, _, _, rfl, rfl⟩

theorem match_labels (l : List Val) : ∀ ls : List Idx, Match D D' (validateLabels l ls) (validateLabels l ls)
  | [] => match_pure ()
  | i :: ls => match_bind (match_label i) fun _ => match_ite (match_fail _) (match_labels l ls)

/-- Lookups that find the same. -/
theorem match_lookup {a b : List α} {i j : Idx} (h : b[j.toNat]? = a[i.toNat]?) : Match D D' (lookup a i) (lookup b j) := by
  intro o f
  unfold MatchAt lookup
  by_cases hi : i.toNat ≥ a.length
  · rw [List.getElem?_eq_none hi] at h
    have hj : j.toNat ≥ b.length := List.getElem?_eq_none_iff.mp h
    simp only [if_pos hi, if_pos hj]
    exact .inl ⟨_, rfl, rfl⟩
  · have hj : ¬ j.toNat ≥ b.length := by
      intro hj
      rw [List.getElem?_eq_none hj] at h
      exact hi (List.getElem?_eq_none_iff.mp h.symm)
    simp only [if_neg hi, if_neg hj, h]
    cases ha : a[i.toNat]? with
    | none => exact absurd (List.getElem?_eq_none_iff.mp ha) hi
    | some x => exact .inr ⟨_, _, _, rfl, rfl⟩

theorem match_checkEmpty : Match D D' checkEmpty checkEmpty := by
  intro o f
  unfold MatchAt checkEmpty
  dsimp only
  by_cases h : (¬ f.isEmpty = true) ∨ ¬ o.isEmpty = true
  · simp only [if_pos h]; exact .inl ⟨_, rfl, rfl⟩
  · simp only [if_neg h]; exact .inr ⟨_, _, _, rfl, rfl⟩

theorem match_end : Match D D' validateEnd validateEnd := match_bind match_popFrame fun _ => match_pushOperands _
theorem match_else : Match D D' validateElse validateElse := match_bind match_popFrame fun _ => match_pushFrame _ _

end

section
variable {D D' : Ctx} {ρ : Renaming} {loc : Idx → Idx}

theorem match_type {i j : Idx} (h : D'.types[j.toNat]? = D.types[i.toNat]?) : Match D D' (validateTypeIdx i) (validateTypeIdx j) :=
  fun o f => match_lookup h o f
theorem match_func {i j : Idx} (h : D'.funcs[j.toNat]? = D.funcs[i.toNat]?) : Match D D' (validateFuncIdx i) (validateFuncIdx j) :=
  fun o f => match_lookup h o f
theorem match_table {i j : Idx} (h : D'.tables[j.toNat]? = D.tables[i.toNat]?) : Match D D' (validateTableIdx i) (validateTableIdx j) :=
  fun o f => match_lookup h o f
theorem match_mem {i j : Idx} (h : D'.mems[j.toNat]? = D.mems[i.toNat]?) : Match D D' (validateMemIdx i) (validateMemIdx j) :=
  fun o f => match_lookup h o f
theorem match_global {i j : Idx} (h : D'.globals[j.toNat]? = D.globals[i.toNat]?) : Match D D' (validateGlobalIdx i) (validateGlobalIdx j) :=
  fun o f => match_lookup h o f
theorem match_local {i j : Idx} (h : D'.locals[j.toNat]? = D.locals[i.toNat]?) : Match D D' (validateLocalIdx i) (validateLocalIdx j) :=
  fun o f => match_lookup h o f

mutual

theorem match_instr (hr : D'.ret = D.ret) : ∀ i : Instr, (∀ j, Occurs j [i] → Meets ρ loc (viewOf D) (viewOf D') j) →
    Match D D' (validateInstr i) (validateInstr (renameI ρ loc i))
  | .block t b, h => match_bind (match_pure t) fun _ => match_bind (match_pushFrame _ _) fun _ =>
      match_bind (match_code hr b fun j hj => h j (.block List.mem_cons_self hj)) fun _ => match_end
  | .loop t b, h => match_bind (match_pure t) fun _ => match_bind (match_pushFrame _ _) fun _ =>
      match_bind (match_code hr b fun j hj => h j (.loop List.mem_cons_self hj)) fun _ => match_end
  | .ifElse t a b, h => match_bind (match_pure t) fun _ => match_bind (match_popOperands _) fun _ => match_bind (match_pushFrame _ _) fun _ =>
      match_bind (match_code hr a fun j hj => h j (.thn List.mem_cons_self hj)) fun _ => match_bind match_else fun _ =>
      match_bind (match_code hr b fun j hj => h j (.els List.mem_cons_self hj)) fun _ => match_end
  | .elseMark, _ => match_else
  | .endMark, _ => match_end
  | .unreachable, _ => match_setUnreachable
  | .nop, _ => match_pure ()
  | .br l, _ => match_bind (match_label l) fun _ => match_bind (match_popOperands _) fun _ => match_setUnreachable
  | .brIf l, _ => match_bind (match_label l) fun _ => match_bind (match_popOperands _) fun _ => match_bind (match_popOperands _) fun _ =>
      match_pushOperands _
  | .brTable ls l, _ => match_bind (match_label l) fun _ => match_bind (match_labels _ ls) fun _ => match_bind (match_popOperands _) fun _ =>
      match_bind (match_popOperands _) fun _ => match_setUnreachable
  | .ret, _ => by
    intro o f
    show MatchAt D D' o f (match D.ret with | none => V.fail .invalid | some ret => do popOperands ret; setUnreachable)
      (match D'.ret with | none => V.fail .invalid | some ret => do popOperands ret; setUnreachable)
    rw [hr]
    cases D.ret with
    | none => exact match_fail _ o f
    | some t => exact match_bind (match_popOperands t) (fun _ => match_setUnreachable) o f
  | .call x, h => match_bind (match_func (h _ (.here List.mem_cons_self))) fun _ => match_bind (match_popOperands _) fun _ => match_pushOperands _
  | .callIndirect x y, h => match_bind (match_table (h _ (.here List.mem_cons_self)).2) fun _ =>
      match_bind (match_type (h _ (.here List.mem_cons_self)).1) fun _ => match_ite (match_fail _)
        (match_bind (match_popOperands _) fun _ => match_bind (match_popOperands _) fun _ => match_pushOperands _)
  | .drop, _ => match_bind (match_popOperand _) fun _ => match_pure ()
  | .select, _ => match_bind (match_popOperands _) fun _ => match_bind (match_popOperand _) fun _ => match_bind (match_popOperand _) fun _ =>
      match_pushOperand _
  | .localGet x, h => match_bind (match_local (h _ (.here List.mem_cons_self))) fun _ => match_pushOperands _
  | .localSet x, h => match_bind (match_local (h _ (.here List.mem_cons_self))) fun _ => match_popOperands _
  | .localTee x, h => match_bind (match_local (h _ (.here List.mem_cons_self))) fun _ => match_bind (match_popOperands _) fun _ => match_pushOperands _
  | .globalGet x, h => match_bind (match_global (h _ (.here List.mem_cons_self))) fun _ => match_pushOperands _
  | .globalSet x, h => match_bind (match_global (h _ (.here List.mem_cons_self))) fun _ => match_ite (match_fail _) (match_popOperands _)
  | .load _ _ _, h => match_bind (match_mem (h _ (.here List.mem_cons_self))) fun _ => match_bind (match_popOperands _) fun _ => match_pushOperands _
  | .store _ _ _, h => match_bind (match_mem (h _ (.here List.mem_cons_self))) fun _ => match_popOperands _
  | .memSize x, h => match_bind (match_mem (h _ (.here List.mem_cons_self))) fun _ => match_pushOperands _
  | .memGrow x, h => match_bind (match_mem (h _ (.here List.mem_cons_self))) fun _ => match_bind (match_popOperands _) fun _ => match_pushOperands _
  | .constI32 _, _ => match_pushOperands _
  | .constI64 _, _ => match_pushOperands _
  | .constF32 _, _ => match_pushOperands _
  | .constF64 _, _ => match_pushOperands _
  | .num _, _ => match_bind (match_popOperands _) fun _ => match_pushOperands _

theorem match_code (hr : D'.ret = D.ret) : ∀ e : List Instr, (∀ j, Occurs j e → Meets ρ loc (viewOf D) (viewOf D') j) →
    Match D D' (validateExpr e) (validateExpr (renameL ρ loc e))
  | [], _ => match_pure ()
  | i :: is, h => match_bind (match_instr hr i fun j hj => h j (occurs_split.mpr (.inl hj))) fun _ =>
      match_code hr is fun j hj => h j (occurs_cons hj)

end

end

/-- The middle of `validateFunc`. -/
def checkBody (e : Expr) (t : FuncTy) : V Unit := do
  pushFrame t.results t.results
  validateExpr e
  let _ ← popFrame
  checkEmpty

theorem validateFunc_eq (f : Func) : validateFunc f = (validateTypeIdx f.ty >>= fun t =>
    (fun c => .ok ((), { c with ret := some t.results, locals := t.params ++ f.locals }) : V Unit) >>= fun _ => checkBody f.body t >>= fun _ =>
    (fun c => .ok ((), { c with locals := [], ret := none }) : V Unit) >>= fun _ => pure t) := by
  simp only [validateFunc, checkBody, V_assoc]

theorem accepted_body {m : Module} {f : Func} : Accepted m f ↔ ∃ t, m.types[f.ty.toNat]? = some t ∧
    ∃ c, checkBody f.body t { ctxOf m with ret := some t.results, locals := t.params ++ f.locals } = .ok ((), c) := by
  have hl := gives_lookup (ctxOf m).types f.ty (ctxOf m)
  unfold Gives at hl
  constructor
  · rintro ⟨t, h⟩
    rw [validateFunc_eq] at h
    cases ht : m.types[f.ty.toNat]? with
    | none =>
      have hl : validateTypeIdx f.ty (ctxOf m) = .error .invalid := by
        show lookup (ctxOf m).types f.ty (ctxOf m) = _
        rw [show (ctxOf m).types[f.ty.toNat]? = none from ht] at hl
        exact hl
      rw [bind_err hl] at h
      cases h
    | some t' =>
      have hl : validateTypeIdx f.ty (ctxOf m) = .ok (t', ctxOf m) := by
        show lookup (ctxOf m).types f.ty (ctxOf m) = _
        rw [show (ctxOf m).types[f.ty.toNat]? = some t' from ht] at hl
        exact hl
      rw [bind_ok hl] at h
      refine ⟨t', rfl, ?_⟩
      cases hb : checkBody f.body t' { ctxOf m with ret := some t'.results, locals := t'.params ++ f.locals } with
      | ok r => exact ⟨r.2, rfl⟩
      | error e => cases (bind_err hb).symm.trans h
  · rintro ⟨t, ht, c, h⟩
    have hl : validateTypeIdx f.ty (ctxOf m) = .ok (t, ctxOf m) := by
      show lookup (ctxOf m).types f.ty (ctxOf m) = _
      rw [show (ctxOf m).types[f.ty.toNat]? = some t from ht] at hl
      exact hl
    have hf : validateFunc f (ctxOf m) = .ok (t, { c with locals := [], ret := none }) := by
      rw [validateFunc_eq, bind_ok hl]
      exact (bind_ok h).trans rfl
    rcases func_total (clean_ctxOf m) f with ⟨t', _, _, h'⟩ | h'
    · exact ⟨t', h'⟩
    · rw [hf] at h'; cases h'

section
variable {ρ : Renaming} {m m' : Module}

theorem accepted_from {f f' : Func} (h : FuncFrom ρ m m' f f') : Accepted m' f' ↔ Accepted m f := by
  obtain ⟨loc, hty, hb, hs, hm⟩ := h
  have hs : m'.types[f'.ty.toNat]? = m.types[f.ty.toNat]? := by rw [hty]; exact hs
  rw [accepted_body, accepted_body, hs, hb]
  refine exists_congr fun t => and_congr_right fun ht => ?_
  have hmatch : Match { ctxOf m with ret := some t.results, locals := t.params ++ f.locals }
      { ctxOf m' with ret := some t.results, locals := t.params ++ f'.locals } (checkBody f.body t) (checkBody (renameL ρ loc f.body) t) := by
    refine match_bind (match_pushFrame _ _) fun _ => match_bind ?_ fun _ => match_bind match_popFrame fun _ => match_checkEmpty
    apply match_code
    · rfl
    intro j hj
    have := hm t ht j hj
    cases j <;> exact this
  rcases hmatch [] [] with ⟨e, h1, h2⟩ | ⟨x, o, g, h1, h2⟩
  · constructor
    · rintro ⟨c, hc⟩; cases h2.symm.trans hc
    · rintro ⟨c, hc⟩; cases h1.symm.trans hc
  · exact ⟨fun _ => ⟨_, h1⟩, fun _ => ⟨_, h2⟩⟩

theorem const_from {C C' : Env} {e e' : Expr} {t : Val} (h : ConstFrom ρ C.globals C'.globals e e') : ConstOk C' e' t ↔ ConstOk C e t := by
  obtain ⟨rfl, h⟩ := h
  rw [constOk_iff, constOk_iff]
  constructor
  · intro hc
    match e, h, hc with
    | [], _, hc => cases hc
    | _ :: _ :: _, _, hc => simp only [renameL] at hc; generalize renameI _ _ _ = i at hc; cases hc
    | [i], h, hc =>
      cases i <;> simp only [renameL, renameI] at hc <;> cases hc
      · next x hg => exact .global ((h x List.mem_cons_self).symm.trans hg)
      all_goals constructor
  · intro hc
    cases hc with
    | global hg => exact .global ((h _ List.mem_cons_self).trans hg)
    | _ => constructor

theorem lt_iff_getElem? {α : Type} {l : List α} {n : Nat} : n < l.length ↔ l[n]?.isSome = true := by
  simp

theorem elem_from {e e' : Elem} (h : ElemFrom ρ m m' e e') : ElemOk .code m' e' ↔ ElemOk .code m e := by
  obtain ⟨h1, h2, h3, h4, h5⟩ := h
  unfold ElemOk
  rw [const_from (C := moduleEnv .code m) (C' := moduleEnv .code m') h3, h1, show (tableSpace m')[(ρ.tables e.table).toNat]? = _ from h2, h4]
  refine and_congr_right fun _ => and_congr_right fun _ => ?_
  have key : ∀ x ∈ e.init, (ρ.funcs x).toNat < (funcSpace m').length ↔ x.toNat < (funcSpace m).length := by
    intro x hx
    have := h5 x hx
    unfold SameAt at this
    rw [lt_iff_getElem?, lt_iff_getElem?, this]
  simp only [List.forall_mem_map]
  exact forall_congr' fun x => forall_congr' fun hx => key x hx

theorem data_from {d d' : Data} (h : DataFrom ρ m m' d d') : DataOk .code m' d' ↔ DataOk .code m d := by
  obtain ⟨h1, h2, h3⟩ := h
  unfold DataOk
  rw [const_from (C := moduleEnv .code m) (C' := moduleEnv .code m') h3, h1, lt_iff_getElem?, lt_iff_getElem?,
    show (memSpace m')[(ρ.mems d.mem).toNat]? = _ from h2]

theorem import_from {i i' : Import} (h : ImportFrom ρ m m' i i') : importType m' i' = importType m i := by
  unfold ImportFrom at h
  unfold importType
  cases hd : i.desc <;> rw [hd] at h
  · rw [h.1]; dsimp only; rw [show m'.types[_]? = _ from h.2]
  all_goals rw [h]

theorem export_from {e e' : Export} (h : ExportFrom ρ m m' e e') : exportType m' e' = exportType m e := by
  unfold ExportFrom at h
  unfold exportType
  cases hd : e.desc <;> rw [hd] at h <;> rw [h.1] <;> dsimp only <;> rw [show _ = _ from h.2]

theorem start_from {s s' : Start} (h : s'.func = ρ.funcs s.func ∧ SameAt ρ.funcs (funcSpace m) (funcSpace m') s.func) :
    (funcSpace m')[s'.func.toNat]? = (funcSpace m)[s.func.toNat]? := by
  rw [h.1]; exact h.2

theorem init_from {g g' : Global} (h : GlobalFrom ρ m m' g g') (hg : g ∈ m.globals) (hn : InitsAgree ρ m m') :
    ConstOk { globals := ownGlobals m', aligned := false } g'.init g'.ty.val ↔ ConstOk { globals := ownGlobals m, aligned := false } g.init g.ty.val := by
  rw [h.1]
  exact const_from (C := { globals := ownGlobals m, aligned := false }) ⟨h.2.1, hn g hg⟩

theorem imported_table {m : Module} {t : TableTy} : t ∈ importedTables m ↔ ∃ i ∈ m.imports, i.desc = .table t := by
  unfold importedTables
  rw [List.mem_filterMap]
  refine exists_congr fun i => and_congr_right fun _ => ?_
  cases i.desc <;> simp

theorem imported_mem {m : Module} {t : MemTy} : t ∈ importedMems m ↔ ∃ i ∈ m.imports, i.desc = .mem t := by
  unfold importedMems
  rw [List.mem_filterMap]
  refine exists_congr fun i => and_congr_right fun _ => ?_
  cases i.desc <;> simp

theorem importFrom_table {i i' : Import} (h : ImportFrom ρ m m' i i') {t : TableTy} : i'.desc = .table t ↔ i.desc = .table t := by
  unfold ImportFrom at h
  cases hd : i.desc <;> rw [hd] at h
  · rw [h.1]; simp
  all_goals rw [h]

theorem importFrom_mem {i i' : Import} (h : ImportFrom ρ m m' i i') {t : MemTy} : i'.desc = .mem t ↔ i.desc = .mem t := by
  unfold ImportFrom at h
  cases hd : i.desc <;> rw [hd] at h
  · rw [h.1]; simp
  all_goals rw [h]

/-- Parts of an accepted module. -/
theorem partOf_accepted (h : PartOf ρ m m') (hn : InitsAgree ρ m m') (hd : DeclsOk .code m) (hf : ∀ f ∈ m.funcs, Accepted m f) :
    DeclsOk .code m' ∧ ∀ f ∈ m'.funcs, Accepted m' f := by
  refine ⟨{
    types := fun t ht => ?_
    tables := fun t ht => ?_
    mems := fun t ht => ?_
    globals := fun g hg => ?_
    elem := fun e he => ?_
    data := fun d hd' => ?_
    start := fun s hs => ?_
    imports := fun i hi => ?_
    importTables := fun t ht => ?_
    importMems := fun t ht => ?_
    exports := fun e he => ?_
    oneTable := Nat.le_trans h.tableCount hd.oneTable
    oneMem := Nat.le_trans h.memCount hd.oneMem
    names := h.names hd.names }, fun f' hf' => ?_⟩
  · obtain ⟨_, h1, rfl⟩ := h.types t ht; exact hd.types _ h1
  · obtain ⟨_, h1, rfl⟩ := h.tables t ht; exact hd.tables _ h1
  · obtain ⟨_, h1, rfl⟩ := h.mems t ht; exact hd.mems _ h1
  · obtain ⟨g0, h1, h2⟩ := h.globals g hg; exact (init_from h2 h1 hn).mpr (hd.globals g0 h1)
  · obtain ⟨e0, h1, h2⟩ := h.elem e he; exact (elem_from h2).mpr (hd.elem e0 h1)
  · obtain ⟨d0, h1, h2⟩ := h.data d hd'; exact (data_from h2).mpr (hd.data d0 h1)
  · obtain ⟨s0, h1, h2⟩ := h.start s hs; exact (start_from h2).trans (hd.start s0 h1)
  · obtain ⟨i0, h1, h2⟩ := h.imports i hi; rw [import_from h2]; exact hd.imports i0 h1
  · obtain ⟨i, hi, hdesc⟩ := imported_table.mp ht
    obtain ⟨i0, h1, h2⟩ := h.imports i hi
    exact hd.importTables t (imported_table.mpr ⟨i0, h1, (importFrom_table h2).mp hdesc⟩)
  · obtain ⟨i, hi, hdesc⟩ := imported_mem.mp ht
    obtain ⟨i0, h1, h2⟩ := h.imports i hi
    exact hd.importMems t (imported_mem.mpr ⟨i0, h1, (importFrom_mem h2).mp hdesc⟩)
  · obtain ⟨e0, h1, h2⟩ := h.exports e he; rw [export_from h2]; exact hd.exports e0 h1
  · obtain ⟨f, h1, h2⟩ := h.funcs f' hf'; exact (accepted_from h2).mpr (hf f h1)

/-- The converse, if nothing is missing. -/
theorem renumbered_accepted (h : Renumbered ρ m m') (hn : InitsAgree ρ m m') (hd : DeclsOk .code m') (hf : ∀ f ∈ m'.funcs, Accepted m' f) :
    DeclsOk .code m ∧ ∀ f ∈ m.funcs, Accepted m f := by
  refine ⟨{
    types := fun t ht => ?_
    tables := fun t ht => ?_
    mems := fun t ht => ?_
    globals := fun g hg => ?_
    elem := fun e he => ?_
    data := fun d hd' => ?_
    start := fun s hs => ?_
    imports := fun i hi => ?_
    importTables := fun t ht => ?_
    importMems := fun t ht => ?_
    exports := fun e he => ?_
    oneTable := Nat.le_trans (Nat.le_of_eq h.sameTableCount.symm) hd.oneTable
    oneMem := Nat.le_trans (Nat.le_of_eq h.sameMemCount.symm) hd.oneMem
    names := h.sameNames hd.names }, fun f hf' => ?_⟩
  · obtain ⟨_, h1, rfl⟩ := h.allTypes t ht; exact hd.types _ h1
  · obtain ⟨_, h1, rfl⟩ := h.allTables t ht; exact hd.tables _ h1
  · obtain ⟨_, h1, rfl⟩ := h.allMems t ht; exact hd.mems _ h1
  · obtain ⟨g0, h1, h2⟩ := h.allGlobals g hg; exact (init_from h2 hg hn).mp (hd.globals g0 h1)
  · obtain ⟨e0, h1, h2⟩ := h.allElem e he; exact (elem_from h2).mp (hd.elem e0 h1)
  · obtain ⟨d0, h1, h2⟩ := h.allData d hd'; exact (data_from h2).mp (hd.data d0 h1)
  · obtain ⟨s0, h1, h2⟩ := h.hasStart s hs; exact (start_from h2).symm.trans (hd.start s0 h1)
  · obtain ⟨i0, h1, h2⟩ := h.allImports i hi; rw [← import_from h2]; exact hd.imports i0 h1
  · obtain ⟨i, hi, hdesc⟩ := imported_table.mp ht
    obtain ⟨i0, h1, h2⟩ := h.allImports i hi
    exact hd.importTables t (imported_table.mpr ⟨i0, h1, (importFrom_table h2).mpr hdesc⟩)
  · obtain ⟨i, hi, hdesc⟩ := imported_mem.mp ht
    obtain ⟨i0, h1, h2⟩ := h.allImports i hi
    exact hd.importMems t (imported_mem.mpr ⟨i0, h1, (importFrom_mem h2).mpr hdesc⟩)
  · obtain ⟨e0, h1, h2⟩ := h.allExports e he; rw [← export_from h2]; exact hd.exports e0 h1
  · obtain ⟨f', h1, h2⟩ := h.allFuncs f hf'; exact (accepted_from h2).mp (hf f' h1)

end

/-! ## Removing one definition -/

theorem closeUp_sameAt {α : Type} {l : List α} {n : Nat} {x : Idx} (h : x.toNat ≠ n) : SameAt (closeUp n) l (l.eraseIdx n) x := by
  unfold SameAt closeUp
  rw [List.getElem?_eraseIdx]
  by_cases hx : n < x.toNat
  · rw [if_pos hx]
    have e : (x - 1 : Idx).toNat = x.toNat - 1 := by
      rw [BitVec.toNat_sub]
      have := x.isLt
      simp
      omega
    rw [e, if_neg (by omega)]
    congr 1
    omega
  · rw [if_neg hx, if_pos (by omega)]

theorem filterMap_eraseIdx {α β : Type} {g : α → Option β} : ∀ {l : List α} {k : Nat}, (∀ x ∈ l, (g x).isSome = true) →
    (l.eraseIdx k).filterMap g = (l.filterMap g).eraseIdx k
  | [], k, _ => by simp
  | x :: l, k, h => by
    obtain ⟨y, hy⟩ := Option.isSome_iff_exists.mp (h x List.mem_cons_self)
    cases k with
    | zero => simp [hy]
    | succ k =>
      have := filterMap_eraseIdx (l := l) (k := k) fun z hz => h z (List.mem_cons_of_mem _ hz)
      simp [hy, this]

theorem importedTables_renameAll (ρ : Renaming) (m : Module) : importedTables (renameAll ρ m) = importedTables m := by
  unfold importedTables renameAll
  dsimp only
  rw [List.filterMap_map]
  refine filterMap_congr' fun i _ => ?_
  dsimp only [Function.comp]
  cases i.desc <;> rfl

theorem importedMems_renameAll (ρ : Renaming) (m : Module) : importedMems (renameAll ρ m) = importedMems m := by
  unfold importedMems renameAll
  dsimp only
  rw [List.filterMap_map]
  refine filterMap_congr' fun i _ => ?_
  dsimp only [Function.comp]
  cases i.desc <;> rfl

theorem importedGlobals_renameAll (ρ : Renaming) (m : Module) : importedGlobals (renameAll ρ m) = importedGlobals m := by
  unfold importedGlobals renameAll
  dsimp only
  rw [List.filterMap_map]
  refine filterMap_congr' fun i _ => ?_
  dsimp only [Function.comp]
  cases i.desc <;> rfl

theorem tableSpace_renameAll (ρ : Renaming) (m : Module) : tableSpace (renameAll ρ m) = tableSpace m := by
  unfold tableSpace; rw [importedTables_renameAll]; rfl

theorem memSpace_renameAll (ρ : Renaming) (m : Module) : memSpace (renameAll ρ m) = memSpace m := by
  unfold memSpace; rw [importedMems_renameAll]; rfl

theorem globalSpace_renameAll (ρ : Renaming) (m : Module) : globalSpace (renameAll ρ m) = globalSpace m := by
  unfold globalSpace ownGlobals
  rw [importedGlobals_renameAll]
  congr 1
  show (m.globals.map _).map _ = _
  rw [List.map_map]
  rfl

/-- Functions of the renamed module: the types of the old ones, if types are found. -/
theorem funcSpace_renameAll {ρ : Renaming} {m m0 : Module} (hi : ∀ i ∈ m.imports, ∀ x, i.desc = .func x → SameAt ρ.types m0.types m.types x)
    (hf : ∀ f ∈ m.funcs, SameAt ρ.types m0.types m.types f.ty) :
    funcSpace (renameAll ρ m) = funcSpace { m with types := m0.types } := by
  unfold funcSpace importedFuncs
  congr 1
  · show (m.imports.map _).filterMap _ = _
    rw [List.filterMap_map]
    refine filterMap_congr' fun i him => ?_
    have := hi i him
    dsimp only [Function.comp]
    cases hd : i.desc with
    | func x => exact this x hd
    | _ => rfl
  · show (m.funcs.map _).filterMap _ = _
    rw [List.filterMap_map]
    exact filterMap_congr' fun f hfm => hf f hfm

/-- The renamed parts `n` of a module `m`. -/
theorem partOf_renameAll {ρ : Renaming} {m n : Module} (ht : ∀ t ∈ n.types, t ∈ m.types) (hf : ∀ f ∈ n.funcs, f ∈ m.funcs)
    (hr : n.tables = m.tables ∧ n.mems = m.mems ∧ n.globals = m.globals ∧ n.elem = m.elem ∧ n.data = m.data ∧ n.start = m.start ∧
      n.imports = m.imports ∧ n.exports = m.exports)
    (tables : ρ.tables = id) (mems : ρ.mems = id) (globals : ρ.globals = id)
    (types : ∀ f ∈ n.funcs, SameAt ρ.types m.types n.types f.ty)
    (indirect : ∀ f ∈ n.funcs, ∀ x y, Occurs (.callIndirect x y) f.body → SameAt ρ.types m.types n.types x)
    (imports : ∀ i ∈ m.imports, ∀ x, i.desc = .func x → SameAt ρ.types m.types n.types x)
    (calls : ∀ f ∈ n.funcs, ∀ x, Occurs (.call x) f.body → SameAt ρ.funcs (funcSpace m) (funcSpace (renameAll ρ n)) x)
    (elem : ∀ e ∈ m.elem, ∀ x ∈ e.init, SameAt ρ.funcs (funcSpace m) (funcSpace (renameAll ρ n)) x)
    (start : ∀ s, m.start = some s → SameAt ρ.funcs (funcSpace m) (funcSpace (renameAll ρ n)) s.func)
    (exports : ∀ e ∈ m.exports, ∀ x, e.desc = .func x → SameAt ρ.funcs (funcSpace m) (funcSpace (renameAll ρ n)) x) :
    PartOf ρ m (renameAll ρ n) := by
  obtain ⟨r1, r2, r3, r4, r5, r6, r7, r8⟩ := hr
  have et : tableSpace (renameAll ρ n) = tableSpace m := by
    rw [tableSpace_renameAll]; unfold tableSpace importedTables; rw [r1, r7]
  have em : memSpace (renameAll ρ n) = memSpace m := by
    rw [memSpace_renameAll]; unfold memSpace importedMems; rw [r2, r7]
  have eg : globalSpace (renameAll ρ n) = globalSpace m := by
    rw [globalSpace_renameAll]; unfold globalSpace importedGlobals ownGlobals; rw [r3, r7]
  have st : ∀ x, SameAt ρ.tables (tableSpace m) (tableSpace (renameAll ρ n)) x := fun x => by rw [et, tables]; rfl
  have sm : ∀ x, SameAt ρ.mems (memSpace m) (memSpace (renameAll ρ n)) x := fun x => by rw [em, mems]; rfl
  have sg : ∀ x, SameAt ρ.globals (globalSpace m) (globalSpace (renameAll ρ n)) x := fun x => by rw [eg, globals]; rfl
  have sm0 : (memSpace (renameAll ρ n))[0]? = (memSpace m)[0]? := by rw [em]
  refine {
    types := fun t h => ⟨t, ht t h, rfl⟩
    funcs := fun f' h => ?_
    tables := fun t h => ⟨t, r1 ▸ h, rfl⟩
    mems := fun t h => ⟨t, r2 ▸ h, rfl⟩
    globals := fun g' h => ?_
    elem := fun e' h => ?_
    data := fun d' h => ?_
    start := fun s' h => ?_
    imports := fun i' h => ?_
    exports := fun e' h => ?_
    tableCount := Nat.le_of_eq (congrArg List.length r1)
    memCount := Nat.le_of_eq (congrArg List.length r2)
    names := fun h => ?_ }
  · obtain ⟨f, hfn, rfl⟩ := List.mem_map.mp h
    refine ⟨f, hf f hfn, id, rfl, rfl, types f hfn, fun t _ j hj => ?_⟩
    cases j with
    | call x => exact calls f hfn x hj
    | callIndirect x y => exact ⟨indirect f hfn x y hj, st y⟩
    | localGet x => exact rfl
    | localSet x => exact rfl
    | localTee x => exact rfl
    | globalGet x => exact sg x
    | globalSet x => exact sg x
    | memSize x => exact sm x
    | memGrow x => exact sm x
    | load _ _ _ => exact sm0
    | store _ _ _ => exact sm0
    | _ => trivial
  · obtain ⟨g, hg, rfl⟩ := List.mem_map.mp h
    exact ⟨g, r3 ▸ hg, rfl, rfl, fun x _ => sg x⟩
  · obtain ⟨e, he, rfl⟩ := List.mem_map.mp h
    exact ⟨e, r4 ▸ he, rfl, st _, ⟨rfl, fun x _ => sg x⟩, rfl, elem e (r4 ▸ he)⟩
  · obtain ⟨d, hd, rfl⟩ := List.mem_map.mp h
    exact ⟨d, r5 ▸ hd, rfl, sm _, rfl, fun x _ => sg x⟩
  · obtain ⟨s, hs, rfl⟩ := Option.map_eq_some_iff.mp h
    exact ⟨s, r6 ▸ hs, rfl, start s (r6 ▸ hs)⟩
  · obtain ⟨i, hi, rfl⟩ := List.mem_map.mp h
    refine ⟨i, r7 ▸ hi, ?_⟩
    have := imports i (r7 ▸ hi)
    unfold ImportFrom
    cases hd : i.desc with
    | func x => exact ⟨rfl, this x hd⟩
    | _ => rfl
  · obtain ⟨e, he, rfl⟩ := List.mem_map.mp h
    refine ⟨e, r8 ▸ he, ?_⟩
    have := exports e (r8 ▸ he)
    unfold ExportFrom
    cases hd : e.desc with
    | func x => exact ⟨rfl, this x hd⟩
    | table x => exact ⟨rfl, st x⟩
    | mem x => exact ⟨rfl, sm x⟩
    | «global» x => exact ⟨rfl, sg x⟩
  · rw [← r8] at h
    show ((n.exports.map _).map _).Nodup
    rw [List.map_map]
    exact h

theorem importedFuncs_length {m : Module} (h : ∀ i ∈ m.imports, (importType m i).isSome = true) :
    (importedFuncs m).length = m.imports.countP isFuncImport := by
  unfold importedFuncs
  generalize hx : m.imports = is at h
  clear hx
  induction is with
  | nil => rfl
  | cons i is ih =>
    have ih := ih fun j hj => h j (List.mem_cons_of_mem _ hj)
    have h := h i List.mem_cons_self
    unfold importType at h
    rw [List.filterMap_cons, List.countP_cons, ← ih]
    unfold isFuncImport
    cases hd : i.desc with
    | func x =>
      rw [hd] at h
      dsimp only at h ⊢
      cases hx : m.types[x.toNat]? with
      | none => rw [hx] at h; cases h
      | some t => simp
    | _ => simp

theorem eraseIdx_mem {α : Type} {l : List α} {k : Nat} {x : α} (h : x ∈ l.eraseIdx k) : x ∈ l := List.mem_of_mem_eraseIdx h

theorem partOf_dropFunc {m : Module} (hd : DeclsOk .code m) (hf : ∀ f ∈ m.funcs, Accepted m f) {k : Nat}
    (hu : FuncUnused { m with funcs := m.funcs.eraseIdx k } (funcNumber m k)) : PartOf { funcs := closeUp (funcNumber m k) } m (dropFunc m k) := by
  have hsp : funcSpace (dropFunc m k) = (funcSpace m).eraseIdx (funcNumber m k) := by
    have e := funcSpace_renameAll (ρ := { funcs := closeUp (funcNumber m k) }) (m := { m with funcs := m.funcs.eraseIdx k }) (m0 := m)
      (fun _ _ _ _ => rfl) (fun _ _ => rfl)
    refine e.trans ?_
    unfold funcSpace funcNumber
    rw [← importedFuncs_length hd.imports, List.eraseIdx_append_of_length_le (Nat.le_add_right _ _), Nat.add_sub_cancel_left]
    congr 1
    refine filterMap_eraseIdx fun f hfm => ?_
    obtain ⟨t, h, _⟩ := accepted_body.mp (hf f hfm)
    rw [h]; rfl
  have key : ∀ x : Idx, x.toNat ≠ funcNumber m k → SameAt (closeUp (funcNumber m k)) (funcSpace m) (funcSpace (dropFunc m k)) x := by
    intro x hx; rw [hsp]; exact closeUp_sameAt hx
  exact partOf_renameAll (n := { m with funcs := m.funcs.eraseIdx k }) (fun t h => h) (fun f h => eraseIdx_mem h)
    ⟨rfl, rfl, rfl, rfl, rfl, rfl, rfl, rfl⟩ rfl rfl rfl (fun _ _ => rfl) (fun _ _ _ _ _ => rfl) (fun _ _ _ _ => rfl)
    (fun f hf x hx => key x (hu.calls f hf x hx)) (fun e he x hx => key x (hu.elem e he x hx)) (fun s hs => key _ (hu.start s hs))
    (fun e he x hx => key x (hu.exports e he x hx))

theorem partOf_dropType {m : Module} {n : Nat} (hu : TypeUnused m n) : PartOf { types := closeUp n } m (dropType m n) := by
  have hsp : funcSpace (dropType m n) = funcSpace m :=
    funcSpace_renameAll (ρ := { types := closeUp n }) (m := { m with types := m.types.eraseIdx n }) (m0 := m)
      (fun i hi x hx => closeUp_sameAt (hu.imports i hi x hx)) (fun f hf => closeUp_sameAt (hu.funcs f hf))
  have key : ∀ x : Idx, SameAt id (funcSpace m) (funcSpace (dropType m n)) x := by
    intro x; rw [hsp]; rfl
  exact partOf_renameAll (n := { m with types := m.types.eraseIdx n }) (fun t h => eraseIdx_mem h) (fun f h => h)
    ⟨rfl, rfl, rfl, rfl, rfl, rfl, rfl, rfl⟩ rfl rfl rfl (fun f hf => closeUp_sameAt (hu.funcs f hf))
    (fun f hf x y hx => closeUp_sameAt (hu.calls f hf x y hx)) (fun i hi x hx => closeUp_sameAt (hu.imports i hi x hx))
    (fun _ _ x _ => key x) (fun _ _ x _ => key x) (fun _ _ => key _) (fun _ _ x _ => key x)

theorem initsAgree_same {ρ : Renaming} {m m' : Module} (h : ρ.globals = id) (hg : ownGlobals m' = ownGlobals m) : InitsAgree ρ m m' := by
  intro g _ x _
  unfold SameAt
  rw [h, hg]
  rfl

theorem ownGlobals_renameAll (ρ : Renaming) (m : Module) : ownGlobals (renameAll ρ m) = ownGlobals m := by
  show (m.globals.map _).map _ = _
  rw [List.map_map]
  rfl

end Whasm
