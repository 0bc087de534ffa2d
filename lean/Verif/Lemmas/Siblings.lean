import Verif.Lemmas.Plain
import Verif.Spec.Items

/-!
# Items of modules, and modules that differ in their functions or constants only
-/

namespace Whasm
open Spec

/-! ## Constant expressions -/

theorem constI_type {C : Env} {i : Instr} (hi : ConstI C i) {a b : List Val} (h : HasType C i a b) :
    a = [] ∧ ∃ t, b = [t] ∧ SingleConst C.globals [i] t := by
  rcases hi with ⟨v, rfl⟩ | ⟨v, rfl⟩ | ⟨v, rfl⟩ | ⟨v, rfl⟩ | ⟨y, g, rfl, h1, h2⟩
  · cases h; exact ⟨rfl, _, rfl, .i32 v⟩
  · cases h; exact ⟨rfl, _, rfl, .i64 v⟩
  · cases h; exact ⟨rfl, _, rfl, .f32 v⟩
  · cases h; exact ⟨rfl, _, rfl, .f64 v⟩
  · cases h with
    | globalGet h =>
      rw [h1] at h
      cases h
      refine ⟨rfl, _, rfl, .global ?_⟩
      rw [h1, ← h2]

theorem const_length {C : Env} : ∀ {e : List Instr} {a b : List Val}, (∀ i ∈ e, ConstI C i) → HasTypes C e a b → b.length = a.length + e.length
  | [], a, b, _, h => by obtain rfl := hasTypes_nil h; simp
  | i :: is, a, b, hc, h => by
    obtain ⟨t0, x, y, rfl, h1, h2⟩ := hasTypes_cons.mp h
    obtain ⟨rfl, t, rfl, _⟩ := constI_type (hc i List.mem_cons_self) h1
    have := const_length (fun j hj => hc j (List.mem_cons_of_mem _ hj)) h2
    simp at this ⊢
    omega

theorem constOk_iff {C : Env} {e : Expr} {t : Val} : ConstOk C e t ↔ SingleConst C.globals e t := by
  constructor
  · rintro ⟨h, hc⟩
    have hl := const_length hc h
    obtain ⟨i, rfl⟩ : ∃ i, e = [i] := by
      match e, hl with
      | [i], _ => exact ⟨i, rfl⟩
    obtain ⟨t0, x, y, he, h1, h2⟩ := hasTypes_cons.mp h
    obtain ⟨rfl, t', rfl, hs⟩ := constI_type (hc i List.mem_cons_self) h1
    have h3 := hasTypes_nil h2
    cases t0 with
    | cons _ _ => cases he
    | nil =>
      cases h3
      exact hs
  · intro h
    cases h with
    | i32 v => exact ⟨hasTypes_single [] .constI32, by simp⟩
    | i64 v => exact ⟨hasTypes_single [] .constI64, by simp⟩
    | f32 v => exact ⟨hasTypes_single [] .constF32, by simp⟩
    | f64 v => exact ⟨hasTypes_single [] .constF64, by simp⟩
    | global h => exact ⟨hasTypes_single [] (.globalGet h), by simp [h]⟩

/-! ## Limits -/

theorem limitsOk_mono {k k' : Nat} (h : k ≤ k') {l : Limits} (hl : LimitsOk k l) : LimitsOk k' l :=
  ⟨Nat.le_trans hl.1 h, fun n hn => ⟨Nat.le_trans (hl.2 n hn).1 h, (hl.2 n hn).2⟩⟩

/-! ## Other functions of the same types -/

section
variable {m : Module} {fs : List Func} (hf : fs.map (·.ty) = m.funcs.map (·.ty))
include hf

theorem funcSpace_congr : funcSpace { m with funcs := fs } = funcSpace m := by
  unfold funcSpace
  congr 1
  have e : ∀ gs : List Func, gs.filterMap (fun f => m.types[f.ty.toNat]?) = (gs.map (·.ty)).filterMap fun x => m.types[x.toNat]? := by
    intro gs; rw [List.filterMap_map]; rfl
  show fs.filterMap (fun f => m.types[f.ty.toNat]?) = _
  rw [e, e, hf]

theorem ctxOf_congr : ctxOf { m with funcs := fs } = ctxOf m := by
  have := funcSpace_congr hf
  unfold ctxOf
  rw [this]
  rfl

theorem exportType_congr : exportType { m with funcs := fs } = exportType m := by
  funext e
  unfold exportType
  rw [funcSpace_congr hf]
  rfl

theorem externals_congr : externals { m with funcs := fs } = externals m := by
  unfold externals
  rw [exportType_congr hf]
  rfl

theorem declsOk_congr {R : Rules} (hR : R = .code ∨ R = .w3c) : DeclsOk R { m with funcs := fs } ↔ DeclsOk R m := by
  have h1 := funcSpace_congr hf
  have he := exportType_congr hf
  have hm : moduleEnv R { m with funcs := fs } = moduleEnv R m := by
    unfold moduleEnv
    rw [h1]
    rfl
  have hg : R.initGlobals { m with funcs := fs } = R.initGlobals m := by rcases hR with rfl | rfl <;> rfl
  have ht : R.tableCount { m with funcs := fs } = R.tableCount m := by rcases hR with rfl | rfl <;> rfl
  have hc : R.memCount { m with funcs := fs } = R.memCount m := by rcases hR with rfl | rfl <;> rfl
  have hel : ∀ e, ElemOk R { m with funcs := fs } e ↔ ElemOk R m e := by
    intro e; unfold ElemOk; rw [hm, h1]; rfl
  have hda : ∀ e, DataOk R { m with funcs := fs } e ↔ DataOk R m e := by
    intro e; unfold DataOk; rw [hm]; rfl
  constructor
  · rintro ⟨a1, a3, a4, a5, a6, a7, a8, a9, b1, b2, a10, a11, a12, a13⟩
    rw [hg] at a5; rw [h1] at a8; rw [he] at a10; rw [ht] at a11; rw [hc] at a12
    exact ⟨a1, a3, a4, a5, fun e h => (hel e).mp (a6 e h), fun d h => (hda d).mp (a7 d h), a8, a9, b1, b2, a10, a11, a12, a13⟩
  · rintro ⟨a1, a3, a4, a5, a6, a7, a8, a9, b1, b2, a10, a11, a12, a13⟩
    rw [← hg] at a5; rw [← h1] at a8; rw [← he] at a10; rw [← ht] at a11; rw [← hc] at a12
    exact ⟨a1, a3, a4, a5, fun e h => (hel e).mpr (a6 e h), fun d h => (hda d).mpr (a7 d h), a8, a9, b1, b2, a10, a11, a12, a13⟩

theorem accepted_congr {f : Func} : Accepted { m with funcs := fs } f ↔ Accepted m f := by
  unfold Accepted
  rw [ctxOf_congr hf]

/-- Validation of the module with other functions. -/
theorem validate_funcs {r : ModuleResult} : validateModule { m with funcs := fs } = .ok r ↔
    (DeclsOk .code m ∧ ∀ f ∈ fs, Accepted m f) ∧ r = externals m := by
  rw [validate_any_iff, declsOk_congr hf (.inl rfl), externals_congr hf]
  simp only [accepted_congr hf]

end

theorem accepted_stub (m : Module) (f : Func) : Accepted m (stub f) ↔ ∃ t, m.types[f.ty.toNat]? = some t := by
  rw [accepted_iff m (by simp [stub, plainL, plainI])]
  exact ⟨fun ⟨t, h, _⟩ => ⟨t, h⟩, fun ⟨t, h⟩ => ⟨t, h, hasTypes_single [] (.unreachable _ _)⟩⟩

/-! ## Constants -/

mutual

theorem validate_forget : ∀ i : Instr, validateInstr (forget i) = validateInstr i
  | .block t b => by simp only [forget, validateInstr, validate_forgetL b]
  | .loop t b => by simp only [forget, validateInstr, validate_forgetL b]
  | .ifElse t a b => by simp only [forget, validateInstr, validate_forgetL a, validate_forgetL b]
  | .load _ _ _ => by simp only [forget, validateInstr]; rfl
  | .store _ _ _ => by simp only [forget, validateInstr]; rfl
  | .constI32 _ => by simp only [forget, validateInstr]
  | .constI64 _ => by simp only [forget, validateInstr]
  | .constF32 _ => by simp only [forget, validateInstr]
  | .constF64 _ => by simp only [forget, validateInstr]
  | .unreachable | .nop | .br _ | .brIf _ | .brTable _ _ | .ret | .call _ | .callIndirect _ _ | .drop | .select | .localGet _
  | .localSet _ | .localTee _ | .globalGet _ | .globalSet _ | .memSize _ | .memGrow _ | .num _ | .elseMark | .endMark => by
    simp only [forget]

theorem validate_forgetL : ∀ e : List Instr, validateExpr (forgetL e) = validateExpr e
  | [] => by simp only [forgetL]
  | i :: is => by simp only [forgetL, validateExpr, validate_forget i, validate_forgetL is]

end

theorem constCheck_forget (i : Instr) : validateConstCheck (forget i) = validateConstCheck i := by
  cases i <;> simp only [forget, validateConstCheck]

theorem constExpr_forget : ∀ e : List Instr, validateConstExpr (forgetL e) = validateConstExpr e
  | [] => by simp only [forgetL]
  | i :: is => by simp only [forgetL, validateConstExpr, constCheck_forget, validate_forget, constExpr_forget is]

theorem init_forget (t : List Val) (e : List Instr) : validateInit t (forgetL e) = validateInit t e := by
  unfold validateInit
  rw [constExpr_forget]

theorem forEach_map {α : Type} {f f' : α → V Unit} {g : α → α} (h : ∀ x, f (g x) = f' x) : ∀ xs : List α, forEach f (xs.map g) = forEach f' xs
  | [] => rfl
  | x :: xs => by
    show (f (g x) >>= fun _ => forEach f (xs.map g)) = (f' x >>= fun _ => forEach f' xs)
    rw [h, forEach_map h xs]

theorem contextFrom_forget (m : Module) : contextFrom (forgetModule m) = contextFrom m := by
  unfold contextFrom
  have h1 : useFuncs (forgetModule m).funcs = useFuncs m.funcs := forEach_map (fun _ => rfl) m.funcs
  have h2 : useGlobals (forgetModule m).globals = useGlobals m.globals := forEach_map (fun _ => rfl) m.globals
  rw [h1, h2]
  rfl

theorem body_forget (m : Module) : validateModuleBody (forgetModule m) = validateModuleBody m := by
  unfold validateModuleBody
  have h1 : forEach (fun f => do let _ ← validateFunc f; pure ()) (forgetModule m).funcs =
      forEach (fun f => do let _ ← validateFunc f; pure ()) m.funcs := by
    refine forEach_map (fun f => ?_) m.funcs
    unfold validateFunc
    simp only [validate_forgetL]
  have h2 : useGlobals (forgetModule m).globals = useGlobals m.globals := forEach_map (fun _ => rfl) m.globals
  have h3 : forEach (fun g => do let _ ← validateGlobal g; pure ()) (forgetModule m).globals =
      forEach (fun g => do let _ ← validateGlobal g; pure ()) m.globals := by
    refine forEach_map (fun f => ?_) m.globals
    unfold validateGlobal
    simp only [init_forget]
  have h4 : forEach validateElem (forgetModule m).elem = forEach validateElem m.elem := by
    refine forEach_map (fun f => ?_) m.elem
    unfold validateElem
    simp only [init_forget]
  have h5 : forEach validateData (forgetModule m).data = forEach validateData m.data := by
    refine forEach_map (fun f => ?_) m.data
    unfold validateData
    simp only [init_forget]
  rw [h1, h2, h3, h4, h5]
  rfl

theorem module_forget (m : Module) : validateModule (forgetModule m) = validateModule m := by
  unfold validateModule
  rw [contextFrom_forget, body_forget]

end Whasm
