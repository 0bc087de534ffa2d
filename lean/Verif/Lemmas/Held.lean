import Verif.Model.Held
import Verif.Lemmas.Local

/-!
# Lemmas on validation with a context held by the caller
-/

namespace Whasm.Held
open Spec

/-! ## The main model -/

section
variable {α β : Type}

/-- Forget the context after an error. -/
def erase (p : H α) : V α := fun c =>
  match p c with
  | (.ok x, c') => .ok (x, c')
  | (.error e, _) => .error e

theorem erase_pure (x : α) : erase (pure x) = pure x := rfl

theorem erase_fail (e : VErr) : erase (H.fail e : H α) = V.fail e := rfl

theorem erase_modify (f : Ctx → Ctx) : erase (H.modify f) = fun c => .ok ((), f c) := rfl

theorem erase_bind (p : H α) (f : α → H β) : erase (p >>= f) = erase p >>= fun x => erase (f x) := by
  funext c
  show erase (H.bind p f) c = V.bind (erase p) (fun x => erase (f x)) c
  unfold erase H.bind V.bind
  dsimp only
  rcases p c with ⟨e | x, c'⟩ <;> rfl

theorem erase_lookup (l : List α) (i : Idx) (c : Ctx) : erase (lookup l i) c = Whasm.lookup l i c := by
  unfold erase lookup Whasm.lookup
  by_cases h : i.toNat ≥ l.length
  · simp only [if_pos h]
  · simp only [if_neg h]
    cases l[i.toNat]? <;> rfl

theorem erase_forEach {q : α → H Unit} {p : α → V Unit} (h : ∀ x, erase (q x) = p x) : ∀ l, erase (forEach q l) = Whasm.forEach p l
  | [] => rfl
  | x :: l => by
    unfold forEach Whasm.forEach
    rw [erase_bind, h x, erase_forEach h l]

theorem erase_collect {q : α → H β} {p : α → V β} (h : ∀ x, erase (q x) = p x) : ∀ l, erase (collect q l) = Whasm.collect p l
  | [] => rfl
  | x :: l => by
    unfold collect Whasm.collect
    rw [erase_bind, h x]
    congr
    funext y
    rw [erase_bind, erase_collect h l]
    rfl

theorem erase_withCtx {q : H α} {p : V α} (h : erase q = p) (c' : Ctx) : erase (withCtx c' q) = Whasm.withCtx c' p := by
  subst h
  funext c
  unfold erase withCtx Whasm.withCtx
  rcases hq : q c' with ⟨e | x, c''⟩ <;> simp [hq]

end

theorem erase_typeIdx (i : Idx) : erase (validateTypeIdx i) = Whasm.validateTypeIdx i := funext fun c => erase_lookup c.types i c
theorem erase_funcIdx (i : Idx) : erase (validateFuncIdx i) = Whasm.validateFuncIdx i := funext fun c => erase_lookup c.funcs i c
theorem erase_tableIdx (i : Idx) : erase (validateTableIdx i) = Whasm.validateTableIdx i := funext fun c => erase_lookup c.tables i c
theorem erase_memIdx (i : Idx) : erase (validateMemIdx i) = Whasm.validateMemIdx i := funext fun c => erase_lookup c.mems i c
theorem erase_globalIdx (i : Idx) : erase (validateGlobalIdx i) = Whasm.validateGlobalIdx i := funext fun c => erase_lookup c.globals i c
theorem erase_localIdx (i : Idx) : erase (validateLocalIdx i) = Whasm.validateLocalIdx i := funext fun c => erase_lookup c.locals i c

theorem erase_label (i : Idx) : erase (validateLabel i) = Whasm.validateLabel i := by
  funext c
  unfold erase validateLabel Whasm.validateLabel
  dsimp only
  by_cases h : ¬ i.toNat + 1 < c.frames.length
  · simp only [if_pos h]
  · simp only [if_neg h]
    by_cases h' : c.frames.length < i.toNat + 1
    · simp only [if_pos h']
    · simp only [if_neg h']
      cases c.frames.reverse[c.frames.length - i.toNat - 1]? <;> rfl

theorem erase_popOperand (op : Operand) : erase (popOperand op) = Whasm.popOperand op := by
  funext c
  unfold erase popOperand Whasm.popOperand
  cases c.frames with
  | nil => rfl
  | cons f fs =>
    dsimp only
    by_cases h : c.operands.length = f.height ∧ f.unreachable = true
    · simp only [if_pos h]
    · simp only [if_neg h]
      by_cases h' : c.operands.length = f.height
      · simp only [if_pos h']
      · simp only [if_neg h']
        cases c.operands with
        | nil => rfl
        | cons v vs =>
          cases v with
          | unknown => rfl
          | val v =>
            cases op with
            | unknown => rfl
            | val w => by_cases h : Operand.val v = Operand.val w <;> simp [h]

theorem erase_pushOperands : ∀ l, erase (pushOperands l) = Whasm.pushOperands l
  | [] => rfl
  | v :: l => by
    unfold pushOperands Whasm.pushOperands
    rw [erase_bind, erase_pushOperands l]
    rfl

theorem erase_popReversed : ∀ l, erase (popReversed l) = Whasm.popReversed l
  | [] => rfl
  | v :: l => by
    unfold popReversed Whasm.popReversed
    rw [erase_bind, erase_popOperand, erase_popReversed l]

theorem erase_popOperands (l : List Val) : erase (popOperands l) = Whasm.popOperands l := erase_popReversed l.reverse

theorem erase_popFrame : erase popFrame = Whasm.popFrame := by
  unfold popFrame Whasm.popFrame
  rw [erase_bind]
  refine congrArg _ (funext fun c => ?_)
  cases c.frames with
  | nil => rfl
  | cons f fs =>
    dsimp only
    rw [erase_bind, erase_popOperands]
    refine congrArg _ (funext fun _ => ?_)
    rw [erase_bind]
    refine congrArg _ (funext fun c => ?_)
    split
    · rfl
    · cases c.frames with
      | nil => rfl
      | cons f fs => rfl

theorem erase_unreachable : erase setUnreachable = Whasm.setUnreachable := by
  funext c
  unfold erase setUnreachable Whasm.setUnreachable
  cases c.frames <;> rfl

theorem erase_limits (l : Limits) : erase (validateLimits l) = Whasm.validateLimits l := by
  unfold validateLimits Whasm.validateLimits
  dsimp only
  split <;> rfl

theorem erase_funcTy (t : FuncTy) : erase (validateFuncTy t) = Whasm.validateFuncTy t := by
  unfold validateFuncTy Whasm.validateFuncTy
  split <;> rfl

theorem erase_tableTy (t : TableTy) : erase (validateTableTy t) = Whasm.validateTableTy t := by
  unfold validateTableTy Whasm.validateTableTy
  rw [erase_bind, erase_limits]
  refine congrArg _ (funext fun _ => ?_)
  split <;> rfl

theorem erase_memTy (t : MemTy) : erase (validateMemTy t) = Whasm.validateMemTy t := by
  unfold validateMemTy Whasm.validateMemTy
  rw [erase_bind, erase_limits]
  refine congrArg _ (funext fun _ => ?_)
  split <;> rfl

theorem erase_load (a : U32) (n : Nat) (v : Val) : erase (validateLoad a n v) = Whasm.validateLoad a n v := by
  unfold validateLoad Whasm.validateLoad
  simp only [erase_bind, erase_memIdx, erase_popOperands, erase_pushOperands]

theorem erase_store (a : U32) (n : Nat) (v : Val) : erase (validateStore a n v) = Whasm.validateStore a n v := by
  unfold validateStore Whasm.validateStore
  simp only [erase_bind, erase_memIdx, erase_popOperands]

theorem erase_pushFrame (l o : List Val) : erase (pushFrame l o) = Whasm.pushFrame l o := rfl

theorem erase_else : erase validateElse = Whasm.validateElse := by
  unfold validateElse Whasm.validateElse
  simp only [erase_bind, erase_popFrame, erase_pushFrame]

theorem erase_end : erase validateEnd = Whasm.validateEnd := by
  unfold validateEnd Whasm.validateEnd
  simp only [erase_bind, erase_popFrame, erase_pushOperands]

theorem erase_labels (l : List Val) : ∀ ls, erase (validateLabels l ls) = Whasm.validateLabels l ls
  | [] => rfl
  | x :: ls => by
    unfold validateLabels Whasm.validateLabels
    rw [erase_bind, erase_label]
    refine congrArg _ (funext fun f => ?_)
    split
    · rfl
    · exact erase_labels l ls

theorem erase_ite {α : Type} {p : Prop} [Decidable p] (a b : H α) : erase (if p then a else b) = if p then erase a else erase b := by
  split <;> rfl

theorem erase_pushOperand (op : Operand) : erase (pushOperand op) = Whasm.pushOperand op := rfl

mutual

theorem erase_instr : ∀ i, erase (validateInstr i) = Whasm.validateInstr i
  | .block ret body => by
    unfold validateInstr Whasm.validateInstr
    simp only [erase_bind, erase_pushFrame, erase_expr body, erase_end]
    rfl
  | .loop ret body => by
    unfold validateInstr Whasm.validateInstr
    simp only [erase_bind, erase_pushFrame, erase_expr body, erase_end]
    rfl
  | .ifElse ret thn els => by
    unfold validateInstr Whasm.validateInstr
    simp only [erase_bind, erase_pushFrame, erase_popOperands, erase_expr thn, erase_expr els, erase_end, erase_else]
    rfl
  | .ret => by
    unfold validateInstr Whasm.validateInstr
    rw [erase_bind]
    refine congrArg _ (funext fun c => ?_)
    cases c.ret with
    | none => rfl
    | some r => simp only [erase_bind, erase_popOperands, erase_unreachable]
  | .unreachable => by unfold validateInstr Whasm.validateInstr; exact erase_unreachable
  | .nop => rfl
  | .elseMark => by unfold validateInstr Whasm.validateInstr; exact erase_else
  | .endMark => by unfold validateInstr Whasm.validateInstr; exact erase_end
  | .br l => by
    unfold validateInstr Whasm.validateInstr
    simp only [erase_bind, erase_label, erase_popOperands, erase_unreachable]
  | .brIf l => by
    unfold validateInstr Whasm.validateInstr
    simp only [erase_bind, erase_label, erase_popOperands, erase_pushOperands]
  | .brTable ls l => by
    unfold validateInstr Whasm.validateInstr
    simp only [erase_bind, erase_label, erase_labels, erase_popOperands, erase_unreachable]
  | .call f => by
    unfold validateInstr Whasm.validateInstr
    simp only [erase_bind, erase_funcIdx, erase_popOperands, erase_pushOperands]
  | .callIndirect t x => by
    unfold validateInstr Whasm.validateInstr
    simp only [erase_bind, erase_tableIdx, erase_typeIdx, erase_popOperands, erase_pushOperands, erase_ite, erase_fail]
  | .drop => by
    unfold validateInstr Whasm.validateInstr
    simp only [erase_bind, erase_popOperand, erase_pure]
  | .select => by
    unfold validateInstr Whasm.validateInstr
    simp only [erase_bind, erase_popOperands, erase_popOperand, erase_pushOperand]
  | .localGet i => by
    unfold validateInstr Whasm.validateInstr
    simp only [erase_bind, erase_localIdx, erase_pushOperands]
  | .localSet i => by
    unfold validateInstr Whasm.validateInstr
    simp only [erase_bind, erase_localIdx, erase_popOperands]
  | .localTee i => by
    unfold validateInstr Whasm.validateInstr
    simp only [erase_bind, erase_localIdx, erase_popOperands, erase_pushOperands]
  | .globalGet i => by
    unfold validateInstr Whasm.validateInstr
    simp only [erase_bind, erase_globalIdx, erase_pushOperands]
  | .globalSet i => by
    unfold validateInstr Whasm.validateInstr
    simp only [erase_bind, erase_globalIdx, erase_popOperands, erase_ite, erase_fail]
  | .load op x y => by unfold validateInstr Whasm.validateInstr; exact erase_load _ _ _
  | .store op x y => by unfold validateInstr Whasm.validateInstr; exact erase_store _ _ _
  | .memSize m => by
    unfold validateInstr Whasm.validateInstr
    simp only [erase_bind, erase_memIdx, erase_pushOperands]
  | .memGrow m => by
    unfold validateInstr Whasm.validateInstr
    simp only [erase_bind, erase_memIdx, erase_popOperands, erase_pushOperands]
  | .constI32 v => by unfold validateInstr Whasm.validateInstr; exact erase_pushOperands _
  | .constI64 v => by unfold validateInstr Whasm.validateInstr; exact erase_pushOperands _
  | .constF32 v => by unfold validateInstr Whasm.validateInstr; exact erase_pushOperands _
  | .constF64 v => by unfold validateInstr Whasm.validateInstr; exact erase_pushOperands _
  | .num op => by
    unfold validateInstr Whasm.validateInstr
    simp only [erase_bind, erase_popOperands, erase_pushOperands]

theorem erase_expr : ∀ e, erase (validateExpr e) = Whasm.validateExpr e
  | [] => rfl
  | i :: is => by
    unfold validateExpr Whasm.validateExpr
    simp only [erase_bind, erase_instr i, erase_expr is]

end

theorem erase_constCheck (i : Instr) : erase (validateConstCheck i) = Whasm.validateConstCheck i := by
  unfold validateConstCheck Whasm.validateConstCheck
  cases i with
  | globalGet i => simp only [erase_bind, erase_globalIdx, erase_ite, erase_fail, erase_pure]
  | _ => rfl

theorem erase_constExpr : ∀ e, erase (validateConstExpr e) = Whasm.validateConstExpr e
  | [] => rfl
  | i :: is => by
    unfold validateConstExpr Whasm.validateConstExpr
    simp only [erase_bind, erase_constCheck, erase_instr i, erase_constExpr is]

theorem erase_checkEmpty : erase checkEmpty = Whasm.checkEmpty := by
  funext c
  unfold erase checkEmpty Whasm.checkEmpty
  by_cases h : ¬ c.frames.isEmpty ∨ ¬ c.operands.isEmpty <;> simp only [h, if_true, if_false]

theorem erase_func (f : Func) : erase (validateFunc f) = Whasm.validateFunc f := by
  unfold validateFunc Whasm.validateFunc
  simp only [erase_bind, erase_typeIdx, erase_pushFrame, erase_expr, erase_popFrame, erase_checkEmpty, erase_modify, erase_pure]

theorem erase_table (t : Table) : erase (validateTable t) = Whasm.validateTable t := by
  unfold validateTable Whasm.validateTable
  simp only [erase_bind, erase_tableTy, erase_pure]

theorem erase_mem (t : Mem) : erase (validateMem t) = Whasm.validateMem t := by
  unfold validateMem Whasm.validateMem
  simp only [erase_bind, erase_memTy, erase_pure]

theorem erase_init (ret : List Val) (e : ConstExpr) : erase (validateInit ret e) = Whasm.validateInit ret e := by
  unfold validateInit Whasm.validateInit
  simp only [erase_bind, erase_pushFrame, erase_constExpr, erase_popFrame, erase_checkEmpty]

theorem erase_globalTy (t : GlobalTy) : erase (validateGlobalTy t) = Whasm.validateGlobalTy t := rfl

theorem erase_global (g : Global) : erase (validateGlobal g) = Whasm.validateGlobal g := by
  unfold validateGlobal Whasm.validateGlobal
  simp only [erase_bind, erase_globalTy, erase_init, erase_pure]

theorem erase_drop {α : Type} (p : H α) : erase (drop p) = (do let _ ← erase p; pure ()) := by
  unfold drop
  simp only [erase_bind, erase_pure]

theorem erase_elem (e : Elem) : erase (validateElem e) = Whasm.validateElem e := by
  unfold validateElem Whasm.validateElem
  have h : erase (forEach (fun i => do let _ ← validateFuncIdx i; pure ()) e.init) =
      Whasm.forEach (fun i => do let _ ← Whasm.validateFuncIdx i; pure ()) e.init := erase_forEach (fun i => by rw [erase_bind, erase_funcIdx]; rfl) _
  simp only [erase_bind, erase_tableIdx, erase_ite, erase_fail, erase_init, h]

theorem erase_data (d : Data) : erase (validateData d) = Whasm.validateData d := by
  unfold validateData Whasm.validateData
  simp only [erase_bind, erase_memIdx, erase_init]

theorem erase_start (s : Start) : erase (validateStart s) = Whasm.validateStart s := by
  unfold validateStart Whasm.validateStart
  simp only [erase_bind, erase_funcIdx, erase_ite, erase_fail, erase_pure]

theorem erase_import (i : Import) : erase (validateImport i) = Whasm.validateImport i := by
  unfold validateImport Whasm.validateImport
  cases i.desc <;> simp only [erase_bind, erase_typeIdx, erase_tableTy, erase_memTy, erase_globalTy, erase_pure]

theorem erase_export (i : Export) : erase (validateExport i) = Whasm.validateExport i := by
  unfold validateExport Whasm.validateExport
  cases i.desc <;> simp only [erase_bind, erase_funcIdx, erase_tableIdx, erase_memIdx, erase_globalIdx, erase_pure]

theorem erase_contextFrom (m : Module) : erase (contextFrom m) = Whasm.contextFrom m := by
  have h1 : erase (useImportedFuncs m.imports) = Whasm.useImportedFuncs m.imports := erase_forEach (fun i => by
    cases i.desc <;> simp only [erase_bind, erase_typeIdx] <;> rfl) _
  have h2 : erase (useImportedTables m.imports) = Whasm.useImportedTables m.imports := erase_forEach (fun i => by cases i.desc <;> rfl) _
  have h3 : erase (useImportedMems m.imports) = Whasm.useImportedMems m.imports := erase_forEach (fun i => by cases i.desc <;> rfl) _
  have h4 : erase (useImportedGlobals m.imports) = Whasm.useImportedGlobals m.imports := erase_forEach (fun i => by cases i.desc <;> rfl) _
  have h5 : erase (useFuncs m.funcs) = Whasm.useFuncs m.funcs := erase_forEach (fun i => by rw [erase_bind, erase_typeIdx]; rfl) _
  have h6 : erase (useTables m.tables) = Whasm.useTables m.tables := erase_forEach (fun i => rfl) _
  have h7 : erase (useMems m.mems) = Whasm.useMems m.mems := erase_forEach (fun i => rfl) _
  have h8 : erase (useGlobals m.globals) = Whasm.useGlobals m.globals := erase_forEach (fun i => rfl) _
  unfold contextFrom Whasm.contextFrom
  simp only [erase_bind, h1, h2, h3, h4, h5, h6, h7, h8]
  rfl

theorem erase_moduleBody (m : Module) : erase (validateModuleBody m) = Whasm.validateModuleBody m := by
  have h1 : erase (forEach validateFuncTy m.types) = Whasm.forEach Whasm.validateFuncTy m.types := erase_forEach erase_funcTy _
  have h2 : erase (forEach (fun f => do let _ ← validateFunc f; pure ()) m.funcs) =
      Whasm.forEach (fun f => do let _ ← Whasm.validateFunc f; pure ()) m.funcs := erase_forEach (fun f => by rw [erase_bind, erase_func]; rfl) _
  have h3 : erase (forEach (fun f => do let _ ← validateTable f; pure ()) m.tables) =
      Whasm.forEach (fun f => do let _ ← Whasm.validateTable f; pure ()) m.tables := erase_forEach (fun f => by rw [erase_bind, erase_table]; rfl) _
  have h4 : erase (forEach (fun f => do let _ ← validateMem f; pure ()) m.mems) =
      Whasm.forEach (fun f => do let _ ← Whasm.validateMem f; pure ()) m.mems := erase_forEach (fun f => by rw [erase_bind, erase_mem]; rfl) _
  have h5 : erase (forEach (fun f => do let _ ← validateGlobal f; pure ()) m.globals) =
      Whasm.forEach (fun f => do let _ ← Whasm.validateGlobal f; pure ()) m.globals := erase_forEach (fun f => by rw [erase_bind, erase_global]; rfl) _
  have h6 : erase (useGlobals m.globals) = Whasm.useGlobals m.globals := erase_forEach (fun i => rfl) _
  have h7 : erase (withCtx {} (do useGlobals m.globals; forEach (fun g => do let _ ← validateGlobal g; pure ()) m.globals)) =
      Whasm.withCtx {} (do Whasm.useGlobals m.globals; Whasm.forEach (fun g => do let _ ← Whasm.validateGlobal g; pure ()) m.globals) :=
    erase_withCtx (by rw [erase_bind, h5, h6]) _
  have h8 : erase (forEach validateElem m.elem) = Whasm.forEach Whasm.validateElem m.elem := erase_forEach erase_elem _
  have h9 : erase (forEach validateData m.data) = Whasm.forEach Whasm.validateData m.data := erase_forEach erase_data _
  have h10 := erase_collect erase_import m.imports
  have h11 := erase_collect erase_export m.exports
  unfold validateModuleBody Whasm.validateModuleBody
  cases m.start with
  | none => simp only [erase_bind, h1, h2, h3, h4, h7, h8, h9, h10, h11, erase_ite, erase_fail, erase_pure]
  | some s => simp only [erase_bind, erase_start, h1, h2, h3, h4, h7, h8, h9, h10, h11, erase_ite, erase_fail, erase_pure]

theorem module_in (m : Module) (c : Ctx) : validateModuleIn m c = (Whasm.validateModule m, c) := by
  have h : erase (do contextFrom m; validateModuleBody m) = (do Whasm.contextFrom m; Whasm.validateModuleBody m) := by
    rw [erase_bind, erase_contextFrom, erase_moduleBody]
  have h := congrFun h {}
  unfold validateModuleIn withCtx Whasm.validateModule
  rw [← h]
  unfold erase
  rcases (do contextFrom m; validateModuleBody m : H ModuleResult) {} with ⟨e | x, c'⟩ <;> rfl

theorem module_same (m : Module) : validateModule m = Whasm.validateModule m := by
  unfold validateModule
  rw [module_in]

/-! ## What a step does to the context -/

section
variable {α β : Type}

/-- From a context with `P`, a success leads to `Q` and an error to `E`. -/
def Leads (P : Ctx → Prop) (p : H α) (Q : Ctx → Prop) (E : VErr → Ctx → Prop) : Prop := ∀ c, P c →
  match p c with
  | (.ok _, c') => Q c'
  | (.error e, c') => E e c'

theorem Leads.bind {P Q R : Ctx → Prop} {E : VErr → Ctx → Prop} {p : H α} {f : α → H β} (h : Leads P p Q E) (hf : ∀ x, Leads Q (f x) R E) :
    Leads P (p >>= f) R E := by
  intro c hc
  have h := h c hc
  show match H.bind p f c with
    | (.ok _, c') => R c'
    | (.error e, c') => E e c'
  unfold H.bind
  rcases hp : p c with ⟨e | x, c'⟩ <;> rw [hp] at h
  · exact h
  · exact hf x c' h

theorem Leads.pure {P : Ctx → Prop} {E : VErr → Ctx → Prop} (x : α) : Leads P (Pure.pure x) P E := fun _ h => h

theorem Leads.fail {P Q : Ctx → Prop} {E : VErr → Ctx → Prop} {e : VErr} (h : ∀ c, P c → E e c) : Leads P (H.fail e : H α) Q E := h

theorem Leads.ite {P Q : Ctx → Prop} {E : VErr → Ctx → Prop} {b : Prop} [Decidable b] {p q : H α} (hp : Leads P p Q E) (hq : Leads P q Q E) :
    Leads P (if b then p else q) Q E := by
  split
  · exact hp
  · exact hq

theorem Leads.weaken {P Q Q' : Ctx → Prop} {E E' : VErr → Ctx → Prop} {p : H α} (h : Leads P p Q E) (hq : ∀ c, Q c → Q' c) (he : ∀ e c, E e c → E' e c) :
    Leads P p Q' E' := by
  intro c hc
  have h := h c hc
  rcases hp : p c with ⟨e | x, c'⟩ <;> rw [hp] at h
  · exact he _ _ h
  · exact hq _ h

theorem popOperand_cases (op : Operand) (c : Ctx) :
    popOperand op c = (.error .invalid, c) ∨ popOperand op c = (.ok op, c) ∨
    (∃ f fs, c.frames = f :: fs ∧ c.operands = [] ∧ f.height ≠ 0 ∧ popOperand op c = (.error .panic, c)) ∨
    ∃ f fs v vs r, c.frames = f :: fs ∧ c.operands = v :: vs ∧ f.height ≠ vs.length + 1 ∧ r ≠ .error .panic ∧
      popOperand op c = (r, { c with operands := vs }) := by
  unfold popOperand
  cases hf : c.frames with
  | nil => exact .inl rfl
  | cons f fs =>
    dsimp only
    by_cases h : c.operands.length = f.height ∧ f.unreachable = true
    · rw [if_pos h]; exact .inr (.inl rfl)
    · rw [if_neg h]
      by_cases h' : c.operands.length = f.height
      · rw [if_pos h']; exact .inl rfl
      · rw [if_neg h']
        refine .inr (.inr ?_)
        cases ho : c.operands with
        | nil =>
          rw [ho] at h'
          exact .inl ⟨f, fs, rfl, rfl, fun h => h' h.symm, rfl⟩
        | cons v vs =>
          rw [ho] at h'
          refine .inr ⟨f, fs, v, vs, ?_⟩
          cases v with
          | unknown => exact ⟨_, rfl, rfl, fun h => h' h.symm, (by intro h; cases h), rfl⟩
          | val v =>
            cases op with
            | unknown => exact ⟨_, rfl, rfl, fun h => h' h.symm, (by intro h; cases h), rfl⟩
            | val w =>
              dsimp only
              by_cases hv : Operand.val v = Operand.val w
              · rw [if_pos hv]; exact ⟨_, rfl, rfl, fun h => h' h.symm, (by intro h; cases h), rfl⟩
              · rw [if_neg hv]; exact ⟨_, rfl, rfl, fun h => h' h.symm, (by intro h; cases h), rfl⟩

theorem Leads.get {P Q : Ctx → Prop} {E : VErr → Ctx → Prop} {f : Ctx → H α} (h : ∀ c, Leads (fun c' => P c ∧ c' = c) (f c) Q E) :
    Leads P (H.get >>= f) Q E := fun c hc => h c c ⟨hc, rfl⟩

/-- A step that only looks, and does not panic. -/
def Looks (p : H α) : Prop := ∀ c, (p c).2 = c ∧ (p c).1 ≠ .error .panic

theorem Looks.leads {p : H α} (h : Looks p) {P : Ctx → Prop} {E : VErr → Ctx → Prop} (he : ∀ c, P c → E .invalid c) : Leads P p P E := by
  intro c hc
  obtain ⟨h1, h2⟩ := h c
  rcases hp : p c with ⟨e | x, c'⟩ <;> rw [hp] at h1 h2 <;> cases h1
  · cases e with
    | invalid => exact he _ hc
    | panic => exact absurd rfl h2
  · exact hc

theorem Looks.pure (x : α) : Looks (Pure.pure x) := fun _ => ⟨rfl, by intro h; cases h⟩

theorem Looks.fail : Looks (H.fail .invalid : H α) := fun _ => ⟨rfl, by intro h; cases h⟩

theorem Looks.bind {p : H α} {f : α → H β} (h : Looks p) (hf : ∀ x, Looks (f x)) : Looks (p >>= f) := by
  intro c
  obtain ⟨h1, h2⟩ := h c
  show (H.bind p f c).2 = c ∧ (H.bind p f c).1 ≠ _
  unfold H.bind
  rcases hp : p c with ⟨e | x, c'⟩ <;> rw [hp] at h1 h2 <;> cases h1
  · exact ⟨rfl, fun h => h2 (by cases h; rfl)⟩
  · exact hf x _

theorem Looks.ite {b : Prop} [Decidable b] {p q : H α} (hp : Looks p) (hq : Looks q) : Looks (if b then p else q) := by
  split
  · exact hp
  · exact hq

theorem Looks.forEach {f : α → H Unit} (h : ∀ x, Looks (f x)) : ∀ l, Looks (Held.forEach f l)
  | [] => Looks.pure ()
  | x :: l => by
    unfold Held.forEach
    exact (h x).bind fun _ => Looks.forEach h l

theorem looks_lookup (l : List α) (i : Idx) (c : Ctx) : (lookup l i c).2 = c ∧ (lookup l i c).1 ≠ .error .panic := by
  unfold lookup
  by_cases h : i.toNat ≥ l.length
  · rw [if_pos h]; exact ⟨rfl, by intro h; cases h⟩
  · rw [if_neg h, List.getElem?_eq_getElem (by omega)]
    exact ⟨rfl, by intro h; cases h⟩

end

theorem looks_typeIdx (i : Idx) : Looks (validateTypeIdx i) := fun c => looks_lookup c.types i c
theorem looks_funcIdx (i : Idx) : Looks (validateFuncIdx i) := fun c => looks_lookup c.funcs i c
theorem looks_tableIdx (i : Idx) : Looks (validateTableIdx i) := fun c => looks_lookup c.tables i c
theorem looks_memIdx (i : Idx) : Looks (validateMemIdx i) := fun c => looks_lookup c.mems i c
theorem looks_globalIdx (i : Idx) : Looks (validateGlobalIdx i) := fun c => looks_lookup c.globals i c
theorem looks_localIdx (i : Idx) : Looks (validateLocalIdx i) := fun c => looks_lookup c.locals i c

theorem looks_label (i : Idx) : Looks (validateLabel i) := by
  intro c
  unfold validateLabel
  dsimp only
  by_cases h : ¬ i.toNat + 1 < c.frames.length
  · rw [if_pos h]; exact ⟨rfl, by intro h; cases h⟩
  · rw [if_neg h, if_neg (by omega), List.getElem?_eq_getElem (by rw [List.length_reverse]; omega)]
    exact ⟨rfl, by intro h; cases h⟩

theorem looks_labels (l : List Val) : ∀ ls, Looks (validateLabels l ls)
  | [] => Looks.pure ()
  | x :: ls => by
    unfold validateLabels
    exact (looks_label x).bind fun f => Looks.fail.ite (looks_labels l ls)

theorem looks_limits (l : Limits) : Looks (validateLimits l) := Looks.fail.ite (Looks.pure _)
theorem looks_funcTy (t : FuncTy) : Looks (validateFuncTy t) := Looks.fail.ite (Looks.pure _)
theorem looks_tableTy (t : TableTy) : Looks (validateTableTy t) := (looks_limits _).bind fun _ => Looks.fail.ite (Looks.pure _)
theorem looks_memTy (t : MemTy) : Looks (validateMemTy t) := (looks_limits _).bind fun _ => Looks.fail.ite (Looks.pure _)
theorem looks_table (t : Table) : Looks (validateTable t) := (looks_tableTy _).bind fun _ => Looks.pure _
theorem looks_mem (t : Mem) : Looks (validateMem t) := (looks_memTy _).bind fun _ => Looks.pure _
theorem looks_start (s : Start) : Looks (validateStart s) := (looks_funcIdx _).bind fun _ => Looks.fail.ite (Looks.pure _)

theorem looks_import (i : Import) : Looks (validateImport i) := by
  unfold validateImport
  cases i.desc with
  | func t => exact (looks_typeIdx _).bind fun _ => Looks.pure _
  | table t => exact (looks_tableTy _).bind fun _ => Looks.pure _
  | mem t => exact (looks_memTy _).bind fun _ => Looks.pure _
  | global t => exact (Looks.pure ()).bind fun _ => Looks.pure _

theorem looks_export (i : Export) : Looks (validateExport i) := by
  unfold validateExport
  cases i.desc with
  | func t => exact (looks_funcIdx _).bind fun _ => Looks.pure _
  | table t => exact (looks_tableIdx _).bind fun _ => Looks.pure _
  | mem t => exact (looks_memIdx _).bind fun _ => Looks.pure _
  | global t => exact (looks_globalIdx _).bind fun _ => Looks.pure _

theorem looks_checkEmpty : Looks checkEmpty := by
  intro c
  unfold checkEmpty
  split <;> exact ⟨rfl, by intro h; cases h⟩

theorem looks_moduleIn (m : Module) (h : Whasm.validateModule m ≠ .error .panic) : Looks (validateModuleIn m) := by
  intro c
  rw [module_in]
  exact ⟨rfl, h⟩

theorem looks_constCheck (i : Instr) : Looks (validateConstCheck i) := by
  unfold validateConstCheck
  cases i with
  | globalGet i => exact (looks_globalIdx _).bind fun _ => Looks.fail.ite (Looks.pure _)
  | _ => first | exact Looks.fail | exact Looks.pure _

/-! ## Properties of the context that every call keeps -/

/-- The step keeps `I`, also when it fails, and its errors are in `E`. -/
def Keep {α : Type} (I : Ctx → Prop) (E : VErr → Prop) (p : H α) : Prop := Leads I p I fun e c => I c ∧ E e

/-- `I` survives the basic operations on the stacks. -/
structure Closed (I : Ctx → Prop) (E : VErr → Prop) : Prop where
  invalid : E .invalid
  pop (op : Operand) : Keep I E (popOperand op)
  push (op : Operand) {c : Ctx} : I c → I { c with operands := op :: c.operands }
  pushFrame (l o : List Val) {c : Ctx} : I c → I { c with frames := { label := l, out := o, height := c.operands.length, unreachable := false } :: c.frames }
  popFrame {c : Ctx} {f : Frame} {fs : List Frame} : I c → c.frames = f :: fs → I { c with frames := fs }
  unreachable : Keep I E setUnreachable
  locals (r : Option (List Val)) (l : List Val) {c : Ctx} : I c → I { c with ret := r, locals := l }

section
variable {I : Ctx → Prop} {E : VErr → Prop} {α β : Type}

theorem Keep.bind {p : H α} {f : α → H β} (h : Keep I E p) (hf : ∀ x, Keep I E (f x)) : Keep I E (p >>= f) := Leads.bind h hf

theorem Keep.pure (x : α) : Keep I E (Pure.pure x) := Leads.pure x

theorem Keep.ite {b : Prop} [Decidable b] {p q : H α} (hp : Keep I E p) (hq : Keep I E q) : Keep I E (if b then p else q) := Leads.ite hp hq

theorem Keep.modify {f : Ctx → Ctx} (h : ∀ c, I c → I (f c)) : Keep I E (H.modify f) := h

theorem Keep.forEach {f : α → H Unit} (h : ∀ x, Keep I E (f x)) : ∀ l, Keep I E (Held.forEach f l)
  | [] => Keep.pure ()
  | x :: l => by
    unfold Held.forEach
    exact (h x).bind fun _ => Keep.forEach h l

theorem Keep.collect {f : α → H β} (h : ∀ x, Keep I E (f x)) : ∀ l, Keep I E (Held.collect f l)
  | [] => Keep.pure []
  | x :: l => by
    unfold Held.collect
    exact (h x).bind fun _ => (Keep.collect h l).bind fun _ => Keep.pure _

theorem Keep.drop {p : H α} (h : Keep I E p) : Keep I E (Held.drop p) := h.bind fun _ => Keep.pure ()

variable (C : Closed I E)
include C

theorem Closed.fail : Keep I E (H.fail .invalid : H α) := fun _ h => ⟨h, C.invalid⟩

theorem Closed.looks {p : H α} (h : Looks p) : Keep I E p := h.leads fun _ hc => ⟨hc, C.invalid⟩

theorem Closed.pushOperand (op : Operand) : Keep I E (pushOperand op) := Keep.modify fun _ => C.push op

theorem Closed.pushOperands : ∀ l, Keep I E (pushOperands l)
  | [] => Keep.pure ()
  | v :: l => by
    unfold Held.pushOperands
    exact (C.pushOperand _).bind fun _ => Closed.pushOperands l

theorem Closed.popReversed : ∀ l, Keep I E (popReversed l)
  | [] => Keep.pure ()
  | v :: l => by
    unfold Held.popReversed
    exact (C.pop _).bind fun _ => Closed.popReversed l

theorem Closed.popOperands (l : List Val) : Keep I E (popOperands l) := C.popReversed _

theorem Closed.framePush (l o : List Val) : Keep I E (Held.pushFrame l o) := Keep.modify fun _ => C.pushFrame l o

theorem Closed.framePop : Keep I E Held.popFrame := by
  unfold Held.popFrame
  refine Leads.bind (Q := I) (fun _ h => h) fun c => ?_
  cases c.frames with
  | nil => exact C.fail
  | cons f fs =>
    refine Keep.bind (C.popOperands _) fun _ => ?_
    refine Leads.get fun c => Leads.ite (fun c' h => ⟨by rw [h.2]; exact h.1, C.invalid⟩) ?_
    cases hf : c.frames with
    | nil => exact fun c' h => ⟨by rw [h.2]; exact h.1, C.invalid⟩
    | cons g gs => exact Leads.bind (Q := I) (fun _ h => C.popFrame h.1 hf) fun _ => Keep.pure _

theorem Closed.else : Keep I E validateElse := C.framePop.bind fun _ => C.framePush _ _

theorem Closed.end : Keep I E validateEnd := C.framePop.bind fun _ => C.pushOperands _

set_option linter.unusedSectionVars false in
mutual

theorem Closed.instr : ∀ i, Keep I E (validateInstr i)
  | .block ret body => by
    unfold validateInstr
    exact (Keep.pure _).bind fun _ => (C.framePush _ _).bind fun _ => (Closed.expr body).bind fun _ => C.end
  | .loop ret body => by
    unfold validateInstr
    exact (Keep.pure _).bind fun _ => (C.framePush _ _).bind fun _ => (Closed.expr body).bind fun _ => C.end
  | .ifElse ret thn els => by
    unfold validateInstr
    exact (Keep.pure _).bind fun _ => (C.popOperands _).bind fun _ => (C.framePush _ _).bind fun _ => (Closed.expr thn).bind fun _ =>
      C.else.bind fun _ => (Closed.expr els).bind fun _ => C.end
  | .ret => by
    unfold validateInstr
    refine Leads.bind (Q := I) (fun _ h => h) fun c => ?_
    cases c.ret with
    | none => exact C.fail
    | some r => exact (C.popOperands _).bind fun _ => C.unreachable
  | .unreachable => by unfold validateInstr; exact C.unreachable
  | .nop => by unfold validateInstr; exact Keep.pure _
  | .elseMark => by unfold validateInstr; exact C.else
  | .endMark => by unfold validateInstr; exact C.end
  | .br l => by
    unfold validateInstr
    exact (C.looks (looks_label l)).bind fun _ => (C.popOperands _).bind fun _ => C.unreachable
  | .brIf l => by
    unfold validateInstr
    exact (C.looks (looks_label l)).bind fun _ => (C.popOperands _).bind fun _ => (C.popOperands _).bind fun _ => C.pushOperands _
  | .brTable ls l => by
    unfold validateInstr
    exact (C.looks (looks_label l)).bind fun _ => (C.looks (looks_labels _ ls)).bind fun _ => (C.popOperands _).bind fun _ =>
      (C.popOperands _).bind fun _ => C.unreachable
  | .call f => by
    unfold validateInstr
    exact (C.looks (looks_funcIdx f)).bind fun _ => (C.popOperands _).bind fun _ => C.pushOperands _
  | .callIndirect t x => by
    unfold validateInstr
    exact (C.looks (looks_tableIdx x)).bind fun _ => (C.looks (looks_typeIdx t)).bind fun _ => C.fail.ite
      ((C.popOperands _).bind fun _ => (C.popOperands _).bind fun _ => C.pushOperands _)
  | .drop => by unfold validateInstr; exact (C.pop _).bind fun _ => Keep.pure _
  | .select => by
    unfold validateInstr
    exact (C.popOperands _).bind fun _ => (C.pop _).bind fun _ => (C.pop _).bind fun _ => C.pushOperand _
  | .localGet i => by unfold validateInstr; exact (C.looks (looks_localIdx i)).bind fun _ => C.pushOperands _
  | .localSet i => by unfold validateInstr; exact (C.looks (looks_localIdx i)).bind fun _ => C.popOperands _
  | .localTee i => by
    unfold validateInstr
    exact (C.looks (looks_localIdx i)).bind fun _ => (C.popOperands _).bind fun _ => C.pushOperands _
  | .globalGet i => by unfold validateInstr; exact (C.looks (looks_globalIdx i)).bind fun _ => C.pushOperands _
  | .globalSet i => by unfold validateInstr; exact (C.looks (looks_globalIdx i)).bind fun _ => C.fail.ite (C.popOperands _)
  | .load op x y => by
    unfold validateInstr
    exact (C.looks (looks_memIdx 0)).bind fun _ => (C.popOperands _).bind fun _ => C.pushOperands _
  | .store op x y => by unfold validateInstr; exact (C.looks (looks_memIdx 0)).bind fun _ => C.popOperands _
  | .memSize m => by unfold validateInstr; exact (C.looks (looks_memIdx m)).bind fun _ => C.pushOperands _
  | .memGrow m => by
    unfold validateInstr
    exact (C.looks (looks_memIdx m)).bind fun _ => (C.popOperands _).bind fun _ => C.pushOperands _
  | .constI32 v => by unfold validateInstr; exact C.pushOperands _
  | .constI64 v => by unfold validateInstr; exact C.pushOperands _
  | .constF32 v => by unfold validateInstr; exact C.pushOperands _
  | .constF64 v => by unfold validateInstr; exact C.pushOperands _
  | .num op => by unfold validateInstr; exact (C.popOperands _).bind fun _ => C.pushOperands _

theorem Closed.expr : ∀ e, Keep I E (validateExpr e)
  | [] => by unfold validateExpr; exact Keep.pure ()
  | i :: is => by
    unfold validateExpr
    exact (Closed.instr i).bind fun _ => Closed.expr is

end

theorem Closed.constExpr : ∀ e, Keep I E (validateConstExpr e)
  | [] => Keep.pure ()
  | i :: is => by
    unfold validateConstExpr
    exact (C.looks (looks_constCheck i)).bind fun _ => (C.instr i).bind fun _ => Closed.constExpr is

theorem Closed.init (r : List Val) (e : ConstExpr) : Keep I E (validateInit r e) :=
  (C.framePush _ _).bind fun _ => (C.constExpr e).bind fun _ => C.framePop.bind fun _ => C.looks looks_checkEmpty

theorem Closed.func (f : Func) : Keep I E (validateFunc f) :=
  (C.looks (looks_typeIdx _)).bind fun _ => (Keep.modify fun _ h => C.locals _ _ h).bind fun _ => (C.framePush _ _).bind fun _ =>
    (C.expr f.body).bind fun _ => C.framePop.bind fun _ => (C.looks looks_checkEmpty).bind fun _ =>
      (Keep.modify fun _ h => C.locals _ _ h).bind fun _ => Keep.pure _

theorem Closed.elem (e : Elem) : Keep I E (validateElem e) :=
  (C.looks (looks_tableIdx _)).bind fun _ => C.fail.ite ((C.init _ _).bind fun _ =>
    Keep.forEach (fun i => (C.looks (looks_funcIdx i)).bind fun _ => Keep.pure _) _)

theorem Closed.item (hm : ∀ m, Whasm.validateModule m ≠ .error .panic) : ∀ x : Item, Keep I E x.validate
  | .typeIdx i => (C.looks (looks_typeIdx i)).drop
  | .funcIdx i => (C.looks (looks_funcIdx i)).drop
  | .tableIdx i => (C.looks (looks_tableIdx i)).drop
  | .memIdx i => (C.looks (looks_memIdx i)).drop
  | .globalIdx i => (C.looks (looks_globalIdx i)).drop
  | .localIdx i => (C.looks (looks_localIdx i)).drop
  | .label i => (C.looks (looks_label i)).drop
  | .limits t => (C.looks (looks_limits t)).drop
  | .funcTy t => C.looks (looks_funcTy t)
  | .tableTy t => C.looks (looks_tableTy t)
  | .memTy t => C.looks (looks_memTy t)
  | .globalTy _ => Keep.pure ()
  | .retVal t => (Keep.pure t).drop
  | .instr i => C.instr i
  | .expr e => C.expr e
  | .constExpr e => C.constExpr e
  | .func f => (C.func f).drop
  | .table t => (C.looks (looks_table t)).drop
  | .mem m => (C.looks (looks_mem m)).drop
  | .global _ => Keep.drop ((Keep.pure ()).bind fun _ => (C.init _ _).bind fun _ => Keep.pure _)
  | .elem e => C.elem e
  | .data _ => (C.looks (looks_memIdx _)).bind fun _ => C.init _ _
  | .start s => C.looks (looks_start s)
  | .import i => (C.looks (looks_import i)).drop
  | .export e => (C.looks (looks_export e)).drop
  | .module m => (C.looks (looks_moduleIn m (hm m))).drop

theorem Closed.call (hm : ∀ m, Whasm.validateModule m ≠ .error .panic)
    (ht : ∀ c l, I c → I { c with types := l }) (hf : ∀ c l, I c → I { c with funcs := l }) (hb : ∀ c l, I c → I { c with tables := l })
    (he : ∀ c l, I c → I { c with mems := l }) (hg : ∀ c l, I c → I { c with globals := l }) : ∀ k : Call, Keep I E k.run
  | .validate x => C.item hm x
  | .pushOperand op => C.pushOperand op
  | .popOperand op => (C.pop op).drop
  | .pushOperands l => C.pushOperands l
  | .popOperands l => C.popOperands l
  | .pushFrame l o => C.framePush l o
  | .popFrame => C.framePop.drop
  | .unreachable => C.unreachable
  | .useTypes _ => Keep.modify fun _ h => ht _ _ h
  | .useImportedFuncs l => Keep.forEach (fun i => by
      cases i.desc with
      | func x => exact (C.looks (looks_typeIdx x)).bind fun _ => Keep.modify fun _ h => hf _ _ h
      | _ => exact Keep.pure ()) l
  | .useImportedTables l => Keep.forEach (fun i => by
      cases i.desc with
      | table x => exact Keep.modify fun _ h => hb _ _ h
      | _ => exact Keep.pure ()) l
  | .useImportedMems l => Keep.forEach (fun i => by
      cases i.desc with
      | mem x => exact Keep.modify fun _ h => he _ _ h
      | _ => exact Keep.pure ()) l
  | .useImportedGlobals l => Keep.forEach (fun i => by
      cases i.desc with
      | global x => exact Keep.modify fun _ h => hg _ _ h
      | _ => exact Keep.pure ()) l
  | .useFuncs l => Keep.forEach (fun f => (C.looks (looks_typeIdx _)).bind fun _ => Keep.modify fun _ h => hf _ _ h) l
  | .useTables l => Keep.forEach (fun _ => Keep.modify fun _ h => hb _ _ h) l
  | .useMems l => Keep.forEach (fun _ => Keep.modify fun _ h => he _ _ h) l
  | .useGlobals l => Keep.forEach (fun _ => Keep.modify fun _ h => hg _ _ h) l

end

/-- What `runAll` keeps if every call does. -/
theorem runAll_keep {I : Ctx → Prop} {E : VErr → Prop} : ∀ {ks : List Call}, (∀ k ∈ ks, Keep I E k.run) → ∀ {c : Ctx}, I c →
    (∀ e, .error e ∈ (runAll ks c).1 → E e) ∧ I (runAll ks c).2
  | [], _, _, hc => ⟨fun _ h => (by cases h), hc⟩
  | k :: ks, hk, c, hc => by
    have h := hk k List.mem_cons_self c hc
    unfold runAll
    rcases hr : k.run c with ⟨r, c'⟩
    rw [hr] at h
    have hc' : I c' := by cases r with
      | error e => exact h.1
      | ok x => exact h
    have ih := runAll_keep (fun k h => hk k (List.mem_cons_of_mem _ h)) hc'
    refine ⟨fun e he => ?_, ih.2⟩
    rcases List.mem_cons.mp he with rfl | he
    · exact h.2
    · exact ih.1 e he

/-! ## The height invariant -/

/-- Every frame begins at or below the next one, and the innermost at or below `n`. -/
def Nests : List Frame → Nat → Prop
  | [], _ => True
  | f :: fs, n => f.height ≤ n ∧ Nests fs f.height

theorem Nests.mono : ∀ {fs : List Frame} {n k : Nat}, Nests fs n → n ≤ k → Nests fs k
  | [], _, _, _, _ => trivial
  | _ :: _, _, _, h, hk => ⟨Nat.le_trans h.1 hk, h.2⟩

/-- The state of the stacks in a context on which only functions were called. -/
def Nested (c : Ctx) : Prop := Nests c.frames c.operands.length

theorem closed_nested : Closed Nested (· ≠ .panic) where
  invalid := by intro h; cases h
  pop op := by
    intro c hc
    unfold Nested at hc
    rcases popOperand_cases op c with h | h | ⟨f, fs, hf, ho, hh, h⟩ | ⟨f, fs, v, vs, r, hf, ho, hh, hr, h⟩
    · rw [h]; exact ⟨hc, by intro h; cases h⟩
    · rw [h]; exact hc
    · rw [hf, ho] at hc
      exact absurd (Nat.le_zero.mp hc.1) hh
    · have h2 : Nested { c with operands := vs } := by
        rw [hf, ho] at hc
        show Nests c.frames _
        rw [hf]
        have : f.height ≤ vs.length + 1 := hc.1
        exact ⟨show f.height ≤ vs.length by omega, hc.2⟩
      rw [h]
      cases r with
      | error e => exact ⟨h2, fun he => hr (by rw [he])⟩
      | ok x => exact h2
  push op c h := h.mono (Nat.le_succ _)
  pushFrame l o c h := ⟨Nat.le_refl _, h⟩
  popFrame h hf := by
    unfold Nested at h
    rw [hf] at h
    exact h.2.mono h.1
  unreachable := by
    intro c hc
    unfold setUnreachable
    unfold Nested at hc
    cases hf : c.frames with
    | nil => exact ⟨by unfold Nested; rw [hf]; trivial, by intro h; cases h⟩
    | cons f fs =>
      rw [hf] at hc
      have := hc.1
      refine ⟨?_, hc.2⟩
      show f.height ≤ (c.operands.drop (c.operands.length - f.height)).length
      rw [List.length_drop]
      omega
  locals _ _ _ h := h

theorem nested_call (hm : ∀ m, Whasm.validateModule m ≠ .error .panic) (k : Call) : Keep Nested (· ≠ .panic) k.run :=
  closed_nested.call hm (fun _ _ h => h) (fun _ _ h => h) (fun _ _ h => h) (fun _ _ h => h) (fun _ _ h => h) k

/-- The declarations of `c` are those of `d`. -/
def SameDecls (d c : Ctx) : Prop :=
  c.types = d.types ∧ c.funcs = d.funcs ∧ c.tables = d.tables ∧ c.mems = d.mems ∧ c.globals = d.globals

theorem closed_decls (d : Ctx) : Closed (SameDecls d) (fun _ => True) where
  invalid := trivial
  pop op := by
    intro c hc
    rcases popOperand_cases op c with h | h | ⟨f, fs, hf, ho, hh, h⟩ | ⟨f, fs, v, vs, r, hf, ho, hh, hr, h⟩
    · rw [h]; exact ⟨hc, trivial⟩
    · rw [h]; exact hc
    · rw [h]; exact ⟨hc, trivial⟩
    · rw [h]
      cases r with
      | error e => exact ⟨hc, trivial⟩
      | ok x => exact hc
  push op c h := h
  pushFrame l o c h := h
  popFrame h _ := h
  unreachable := by
    intro c hc
    unfold setUnreachable
    cases c.frames with
    | nil => exact ⟨hc, trivial⟩
    | cons f fs => exact hc
  locals _ _ _ h := h

/-! ## Code without marks, above what was there before -/

/-- `k` frames were opened on top of `o`, and none of them reaches below the `n` lowest operands. -/
def On (o : List Frame) (n k : Nat) (c : Ctx) : Prop :=
  n ≤ c.operands.length ∧ ∃ fs, c.frames = fs ++ o ∧ fs.length = k ∧ Nests fs c.operands.length ∧ ∀ f ∈ fs, n ≤ f.height

/-- At least `k` frames. -/
def Over (o : List Frame) (n k : Nat) (c : Ctx) : Prop := ∃ j, k ≤ j ∧ On o n j c

/-- The step keeps all frames, and leaves none behind if it succeeds. -/
def Steps {α : Type} (o : List Frame) (n : Nat) (p : H α) : Prop := ∀ k, Leads (On o n (k + 1)) p (On o n (k + 1)) fun _ => Over o n (k + 1)

section
variable {o : List Frame} {n : Nat} {α β : Type}

theorem On.over {k : Nat} {c : Ctx} (h : On o n k c) : Over o n k c := ⟨k, Nat.le_refl _, h⟩

theorem Over.less {k : Nat} {c : Ctx} (h : Over o n (k + 1) c) : Over o n k c := by
  obtain ⟨j, hj, h⟩ := h
  exact ⟨j, by omega, h⟩

theorem Steps.bind {p : H α} {f : α → H β} (h : Steps o n p) (hf : ∀ x, Steps o n (f x)) : Steps o n (p >>= f) :=
  fun k => Leads.bind (h k) fun x => hf x k

theorem Steps.pure (x : α) : Steps o n (Pure.pure x) := fun _ => Leads.pure x

theorem Steps.ite {b : Prop} [Decidable b] {p q : H α} (hp : Steps o n p) (hq : Steps o n q) : Steps o n (if b then p else q) :=
  fun k => Leads.ite (hp k) (hq k)

theorem steps_looks {p : H α} (h : Looks p) : Steps o n p := fun _ => h.leads fun _ hc => hc.over

theorem steps_fail : Steps o n (H.fail .invalid : H α) := fun _ _ hc => hc.over

theorem on_locals {k : Nat} {c : Ctx} (r : Option (List Val)) (l : List Val) (h : On o n k c) : On o n k { c with ret := r, locals := l } := h

theorem steps_pop (op : Operand) : Steps o n (popOperand op) := by
  intro k c hc
  rcases popOperand_cases op c with h | h | ⟨f, fs, hf, ho, hh, h⟩ | ⟨f, fs, v, vs, r, hf, ho, hh, hr, h⟩
  · rw [h]; exact hc.over
  · rw [h]; exact hc
  · rw [h]; exact hc.over
  · have h2 : On o n (k + 1) { c with operands := vs } := by
      obtain ⟨h1, gs, hg, hl, hs, ha⟩ := hc
      cases gs with
      | nil => cases hl
      | cons g gs =>
        rw [hf] at hg
        cases hg
        have := ha f List.mem_cons_self
        rw [ho] at hs
        have h3 : f.height ≤ vs.length + 1 := hs.1
        refine ⟨show n ≤ vs.length by omega, f :: gs, hf, hl, ⟨show f.height ≤ vs.length by omega, hs.2⟩, ha⟩
    rw [h]
    cases r with
    | error e => exact h2.over
    | ok x => exact h2

theorem steps_pushOperand (op : Operand) : Steps o n (pushOperand op) := by
  intro k c ⟨h1, gs, hg, hl, hs, ha⟩
  exact ⟨Nat.le_succ_of_le h1, gs, hg, hl, hs.mono (Nat.le_succ _), ha⟩

theorem steps_pushOperands : ∀ l, Steps o n (pushOperands l)
  | [] => Steps.pure ()
  | v :: l => by
    unfold pushOperands
    exact (steps_pushOperand _).bind fun _ => steps_pushOperands l

theorem steps_popReversed : ∀ l, Steps o n (popReversed l)
  | [] => Steps.pure ()
  | v :: l => by
    unfold popReversed
    exact (steps_pop _).bind fun _ => steps_popReversed l

theorem steps_popOperands (l : List Val) : Steps o n (popOperands l) := steps_popReversed _

theorem steps_unreachable : Steps o n setUnreachable := by
  intro k c hc
  obtain ⟨h1, gs, hg, hl, hs, ha⟩ := hc
  cases gs with
  | nil => cases hl
  | cons g gs =>
    unfold setUnreachable
    rw [hg]
    have h2 := ha g List.mem_cons_self
    have h3 : g.height ≤ c.operands.length := hs.1
    have h4 : (c.operands.drop (c.operands.length - g.height)).length = g.height := by
      rw [List.length_drop]
      omega
    refine ⟨?_, { g with unreachable := true } :: gs, rfl, hl, ⟨?_, hs.2⟩, ?_⟩
    · show n ≤ (c.operands.drop _).length
      omega
    · show g.height ≤ (c.operands.drop _).length
      omega
    · intro f hf
      rcases List.mem_cons.mp hf with rfl | hf
      · exact h2
      · exact ha f (List.mem_cons_of_mem _ hf)

theorem on_pushFrame {k : Nat} (l r : List Val) {c : Ctx} (h : On o n k c) :
    On o n (k + 1) { c with frames := { label := l, out := r, height := c.operands.length, unreachable := false } :: c.frames } := by
  obtain ⟨h1, gs, hg, hl, hs, ha⟩ := h
  refine ⟨h1, _ :: gs, congrArg _ hg, congrArg _ hl, ⟨Nat.le_refl _, hs⟩, ?_⟩
  intro f hf
  rcases List.mem_cons.mp hf with rfl | hf
  · exact h1
  · exact ha f hf

theorem leads_pushFrame {k : Nat} {E : VErr → Ctx → Prop} (l r : List Val) : Leads (On o n k) (pushFrame l r) (On o n (k + 1)) E :=
  fun _ h => on_pushFrame l r h

theorem leads_popFrame {k : Nat} : Leads (On o n (k + 1)) popFrame (On o n k) fun _ => Over o n (k + 1) := by
  unfold popFrame
  refine Leads.bind (Q := On o n (k + 1)) (fun _ h => h) fun c => ?_
  cases c.frames with
  | nil => exact fun _ h => h.over
  | cons f fs =>
    refine Leads.bind (steps_popOperands _ k) fun _ => ?_
    refine Leads.get fun c => Leads.ite (fun c' h => by rw [h.2]; exact h.1.over) ?_
    cases hf : c.frames with
    | nil => exact fun c' h => by rw [h.2]; exact h.1.over
    | cons g gs =>
      refine Leads.bind (Q := On o n k) (fun c' h => ?_) fun _ => Leads.pure _
      obtain ⟨h1, hs, hg, hl, hh, ha⟩ := h.1
      cases hs with
      | nil => cases hl
      | cons h' hs =>
        rw [hf] at hg
        cases hg
        exact ⟨h1, hs, rfl, Nat.succ.inj hl, hh.2.mono hh.1, fun f hf => ha f (List.mem_cons_of_mem _ hf)⟩

theorem steps_inside {l r : List Val} {p : H Unit} (h : Steps o n p) : Steps o n (do pushFrame l r; p; validateEnd) := fun k =>
  (leads_pushFrame l r).bind fun _ => ((h (k + 1)).weaken (fun _ h => h) fun _ _ h => h.less).bind fun _ =>
    (leads_popFrame.weaken (fun _ h => h) fun _ _ h => h.less).bind fun _ => steps_pushOperands _ k

theorem steps_branches {l r : List Val} {p q : H Unit} (hp : Steps o n p) (hq : Steps o n q) :
    Steps o n (do pushFrame l r; p; validateElse; q; validateEnd) := fun k =>
  (leads_pushFrame l r).bind fun _ => ((hp (k + 1)).weaken (fun _ h => h) fun _ _ h => h.less).bind fun _ =>
    (Leads.bind (leads_popFrame.weaken (fun _ h => h) fun _ _ h => h.less) fun _ => leads_pushFrame _ _).bind fun _ =>
      ((hq (k + 1)).weaken (fun _ h => h) fun _ _ h => h.less).bind fun _ =>
        (leads_popFrame.weaken (fun _ h => h) fun _ _ h => h.less).bind fun _ => steps_pushOperands _ k

mutual

theorem steps_instr : ∀ i, plainI i → Steps o n (validateInstr i)
  | .block ret body, hp => by
    unfold validateInstr
    exact (Steps.pure _).bind fun _ => steps_inside (steps_expr body hp)
  | .loop ret body, hp => by
    unfold validateInstr
    exact (Steps.pure _).bind fun _ => steps_inside (steps_expr body hp)
  | .ifElse ret thn els, hp => by
    unfold validateInstr
    exact (Steps.pure _).bind fun _ => (steps_popOperands _).bind fun _ => steps_branches (steps_expr thn hp.1) (steps_expr els hp.2)
  | .ret, _ => by
    unfold validateInstr
    refine fun k => Leads.bind (Q := On o n (k + 1)) (fun _ h => h) fun c => ?_
    cases c.ret with
    | none => exact steps_fail k
    | some r => exact ((steps_popOperands _).bind fun _ => steps_unreachable) k
  | .unreachable, _ => by unfold validateInstr; exact steps_unreachable
  | .nop, _ => by unfold validateInstr; exact Steps.pure _
  | .elseMark, hp => hp.elim
  | .endMark, hp => hp.elim
  | .br l, _ => by
    unfold validateInstr
    exact (steps_looks (looks_label l)).bind fun _ => (steps_popOperands _).bind fun _ => steps_unreachable
  | .brIf l, _ => by
    unfold validateInstr
    exact (steps_looks (looks_label l)).bind fun _ => (steps_popOperands _).bind fun _ => (steps_popOperands _).bind fun _ => steps_pushOperands _
  | .brTable ls l, _ => by
    unfold validateInstr
    exact (steps_looks (looks_label l)).bind fun _ => (steps_looks (looks_labels _ ls)).bind fun _ => (steps_popOperands _).bind fun _ =>
      (steps_popOperands _).bind fun _ => steps_unreachable
  | .call f, _ => by
    unfold validateInstr
    exact (steps_looks (looks_funcIdx f)).bind fun _ => (steps_popOperands _).bind fun _ => steps_pushOperands _
  | .callIndirect t x, _ => by
    unfold validateInstr
    exact (steps_looks (looks_tableIdx x)).bind fun _ => (steps_looks (looks_typeIdx t)).bind fun _ => steps_fail.ite
      ((steps_popOperands _).bind fun _ => (steps_popOperands _).bind fun _ => steps_pushOperands _)
  | .drop, _ => by unfold validateInstr; exact (steps_pop _).bind fun _ => Steps.pure _
  | .select, _ => by
    unfold validateInstr
    exact (steps_popOperands _).bind fun _ => (steps_pop _).bind fun _ => (steps_pop _).bind fun _ => steps_pushOperand _
  | .localGet i, _ => by unfold validateInstr; exact (steps_looks (looks_localIdx i)).bind fun _ => steps_pushOperands _
  | .localSet i, _ => by unfold validateInstr; exact (steps_looks (looks_localIdx i)).bind fun _ => steps_popOperands _
  | .localTee i, _ => by
    unfold validateInstr
    exact (steps_looks (looks_localIdx i)).bind fun _ => (steps_popOperands _).bind fun _ => steps_pushOperands _
  | .globalGet i, _ => by unfold validateInstr; exact (steps_looks (looks_globalIdx i)).bind fun _ => steps_pushOperands _
  | .globalSet i, _ => by unfold validateInstr; exact (steps_looks (looks_globalIdx i)).bind fun _ => steps_fail.ite (steps_popOperands _)
  | .load op x y, _ => by
    unfold validateInstr
    exact (steps_looks (looks_memIdx 0)).bind fun _ => (steps_popOperands _).bind fun _ => steps_pushOperands _
  | .store op x y, _ => by unfold validateInstr; exact (steps_looks (looks_memIdx 0)).bind fun _ => steps_popOperands _
  | .memSize m, _ => by unfold validateInstr; exact (steps_looks (looks_memIdx m)).bind fun _ => steps_pushOperands _
  | .memGrow m, _ => by
    unfold validateInstr
    exact (steps_looks (looks_memIdx m)).bind fun _ => (steps_popOperands _).bind fun _ => steps_pushOperands _
  | .constI32 v, _ => by unfold validateInstr; exact steps_pushOperands _
  | .constI64 v, _ => by unfold validateInstr; exact steps_pushOperands _
  | .constF32 v, _ => by unfold validateInstr; exact steps_pushOperands _
  | .constF64 v, _ => by unfold validateInstr; exact steps_pushOperands _
  | .num op, _ => by unfold validateInstr; exact (steps_popOperands _).bind fun _ => steps_pushOperands _

theorem steps_expr : ∀ e, plainL e → Steps o n (validateExpr e)
  | [], _ => by unfold validateExpr; exact Steps.pure ()
  | i :: is, hp => by
    unfold validateExpr
    exact (steps_instr i hp.1).bind fun _ => steps_expr is hp.2

end


theorem const_plain (i : Instr) : validateConstCheck i = H.fail .invalid ∨ plainI i := by
  cases i <;> first | exact .inr trivial | exact .inl rfl

theorem steps_constExpr : ∀ e, Steps o n (validateConstExpr e)
  | [] => Steps.pure ()
  | i :: is => by
    unfold validateConstExpr
    rcases const_plain i with h | h
    · rw [h]
      exact steps_fail
    · exact (steps_looks (looks_constCheck i)).bind fun _ => (steps_instr i h).bind fun _ => steps_constExpr is

end

/-! ## Clean and dirty stacks -/

/-- Something is left on the stacks. -/
def Dirty (c : Ctx) : Prop := c.frames ≠ [] ∨ c.operands ≠ []

theorem Over.dirty {c d : Ctx} {k : Nat} (h : Over d.frames d.operands.length (k + 1) c) : Dirty c := by
  obtain ⟨j, hj, _, fs, hf, hl, _⟩ := h
  refine .inl fun h => ?_
  rw [h] at hf
  cases fs with
  | nil => simp only [List.length_nil] at hl; omega
  | cons f fs => cases hf

theorem On.dirty {c d : Ctx} (hd : Dirty d) (h : On d.frames d.operands.length 0 c) : Dirty c := by
  obtain ⟨h1, fs, hf, hl, _⟩ := h
  rcases hd with hd | hd
  · refine .inl fun h => hd ?_
    rw [h] at hf
    exact (List.append_eq_nil_iff.mp hf.symm).2
  · refine .inr fun h => hd ?_
    rw [h] at h1
    exact List.length_eq_zero_iff.mp (Nat.le_zero.mp h1)

theorem on_self (c : Ctx) : On c.frames c.operands.length 0 c := ⟨Nat.le_refl _, [], rfl, rfl, trivial, fun _ h => by cases h⟩

/-- An error left something on the stacks. -/
theorem leads_checkEmpty {P : Ctx → Prop} : Leads P checkEmpty (fun c => P c ∧ ¬ Dirty c) fun _ => Dirty := by
  intro c hc
  unfold checkEmpty
  have h0 : (¬ c.frames.isEmpty ∨ ¬ c.operands.isEmpty) ↔ Dirty c := by
    unfold Dirty
    simp only [Bool.not_eq_true, List.isEmpty_eq_false_iff]
  by_cases h : ¬ c.frames.isEmpty ∨ ¬ c.operands.isEmpty
  · rw [if_pos h]; exact h0.mp h
  · rw [if_neg h]; exact ⟨hc, fun hd => h (h0.mpr hd)⟩

/-- A body between `push_frame` and the check for empty stacks, run in `d`. -/
theorem leads_frame {d : Ctx} {r : List Val} {p : H Unit} (h : Steps d.frames d.operands.length p) :
    Leads (On d.frames d.operands.length 0) (do pushFrame r r; p; let _ ← popFrame; checkEmpty) (fun c => On d.frames d.operands.length 0 c ∧ ¬ Dirty c)
      fun _ => Dirty :=
  (leads_pushFrame r r).bind fun _ => ((h 0).weaken (fun _ h => h) fun _ _ h => h.dirty).bind fun _ =>
    (leads_popFrame.weaken (fun _ h => h) fun _ _ h => h.dirty).bind fun _ => leads_checkEmpty

end Whasm.Held
