import Verif.Lemmas.Metered
import Verif.Lemmas.Encode

/-!
# Size of a module and length of its encodings; lower bounds of the cost
-/

namespace Whasm
open Spec

theorem flatMap_total {α : Type} (enc : α → List Byte) : ∀ xs : List α, (xs.flatMap enc).length = total (fun x => (enc x).length) xs
  | [] => rfl
  | x :: xs => by
    show (enc x ++ xs.flatMap enc).length = (enc x).length + total _ xs
    rw [List.length_append, flatMap_total enc xs]

theorem encVec_total {α : Type} (enc : α → List Byte) (xs : List α) : total (fun x => (enc x).length) xs + 1 ≤ (encVec enc xs).length := by
  have := encU_pos xs.length
  unfold encVec
  rw [List.length_append, flatMap_total]
  omega

theorem encVec_length {α : Type} {enc : α → List Byte} {k : Nat} (h : ∀ x, k ≤ (enc x).length) (xs : List α) : k * xs.length + 1 ≤ (encVec enc xs).length := by
  have h1 := encVec_total enc xs
  have h2 : total (fun _ => k) xs ≤ total (fun x => (enc x).length) xs := Meter.total_le xs fun x _ => h x
  rw [Meter.total_const (fun _ => rfl)] at h2
  omega

theorem retVal_length {t : RetVal} (h : t.length ≤ 1) : t.length ≤ (encRetVal t).length := by
  match t, h with
  | [], _ => exact Nat.zero_le _
  | [v], _ => rw [show (encRetVal [v]).length = (encVal v).length from rfl, encVal_length]; exact Nat.le_refl _

mutual

theorem bulk_instr : ∀ (i : Instr) {e : List Instr}, i ∈ e → Meter.Flat 1 e → bulkI i ≤ (encInstr i).length
  | .block t b, e, he, h => by
    obtain ⟨ht, hb⟩ := Meter.flat_block h he
    have := bulk_instrs b hb
    have := retVal_length ht
    simp only [bulkI, encInstr, List.length_append, List.length_cons, List.length_nil]
    omega
  | .loop t b, e, he, h => by
    obtain ⟨ht, hb⟩ := Meter.flat_loop h he
    have := bulk_instrs b hb
    have := retVal_length ht
    simp only [bulkI, encInstr, List.length_append, List.length_cons, List.length_nil]
    omega
  | .ifElse t a [], e, he, h => by
    obtain ⟨ht, ha, _⟩ := Meter.flat_if h he
    have := bulk_instrs a ha
    have := retVal_length ht
    simp only [bulkI, bulkL, encInstr, List.length_append, List.length_cons, List.length_nil]
    omega
  | .ifElse t a (b :: bs), e, he, h => by
    obtain ⟨ht, ha, hb⟩ := Meter.flat_if h he
    have := bulk_instrs a ha
    have := bulk_instrs (b :: bs) hb
    have := retVal_length ht
    simp only [bulkI, encInstr, encInstrs, List.length_append, List.length_cons, List.length_nil] at *
    omega
  | .brTable ls _, _, _, _ => by
    have := encVec_length (enc := encIdx) (k := 1) (fun x => encU_pos _) ls
    simp only [bulkI, encInstr, List.length_append, List.length_cons]
    omega
  | .elseMark, _, _, _ | .endMark, _, _, _ | .unreachable, _, _, _ | .nop, _, _, _ | .br _, _, _, _ | .brIf _, _, _, _ | .ret, _, _, _
  | .call _, _, _, _ | .callIndirect _ _, _, _, _ | .drop, _, _, _ | .select, _, _, _ | .localGet _, _, _, _ | .localSet _, _, _, _
  | .localTee _, _, _, _ | .globalGet _, _, _, _ | .globalSet _, _, _, _ | .load _ _ _, _, _, _ | .store _ _ _, _, _, _ | .memSize _, _, _, _
  | .memGrow _, _, _, _ | .constI32 _, _, _, _ | .constI64 _, _, _, _ | .constF32 _, _, _, _ | .constF64 _, _, _, _ | .num _, _, _, _ => by
    simp only [bulkI, encInstr, List.length_append, List.length_cons, List.length_nil]
    omega

theorem bulk_instrs : ∀ (e : List Instr), Meter.Flat 1 e → bulkL e ≤ (encInstrs e).length
  | [], _ => Nat.le_refl _
  | i :: is, h => by
    have := bulk_instr i (.head is) h
    have := bulk_instrs is fun j hj => h j (occurs_cons hj)
    simp only [bulkL, encInstrs, List.length_append]
    omega

end

theorem section_length {α : Type} {id : Byte} {xs : List α} {c : List Byte} {n : Nat} (h : n ≤ c.length) (h0 : xs = [] → n = 0) :
    n ≤ (encSection id xs c).length := by
  unfold encSection
  cases xs with
  | nil => rw [h0 rfl]; exact Nat.zero_le _
  | cons x xs => simp only [encSized, List.isEmpty_cons, Bool.false_eq_true, if_false, List.length_cons, List.length_append]; omega

theorem encExpr_length (e : Expr) : (encExpr e).length = (encInstrs e).length + 1 := by unfold encExpr; rw [List.length_append, List.length_singleton]

theorem types_length (m : Module) : total (fun t : FuncTy => 1 + t.params.length + t.results.length) m.types ≤ (encSection 0x01 m.types (contents m).types).length := by
  refine section_length (Nat.le_trans (Meter.total_le m.types fun t _ => ?_) (Nat.le_trans (Nat.le_succ _) (encVec_total encFuncTy m.types))) (by rintro h; rw [h]; rfl)
  have a := encVec_length (enc := encVal) (k := 1) (fun x => Nat.le_of_eq (encVal_length x).symm) t.params
  have b := encVec_length (enc := encVal) (k := 1) (fun x => Nat.le_of_eq (encVal_length x).symm) t.results
  unfold encFuncTy
  rw [List.length_append, List.length_cons]
  omega

theorem params_length {m : Module} {t : FuncTy} (h : t ∈ m.types) : t.params.length ≤ (encModule m).length := by
  have h1 := types_length m
  have h2 := Meter.total_mem (f := fun t : FuncTy => 1 + t.params.length + t.results.length) h
  unfold encModule
  dsimp only
  simp only [List.length_append]
  omega

/-- Each part of a module takes at least one byte, except local variables. -/
theorem bulk_le_length {m : Module} (h : BlockResults 1 m) : bulk m ≤ (encModule m).length + localsOf m := by
  have hf : ∀ e, e ∈ exprsOf m → bulkL e < (encExpr e).length := fun e he => by
    rw [encExpr_length]; exact Nat.lt_succ_of_le (bulk_instrs e (h e he))
  have h1 := types_length m
  have h2 : m.imports.length ≤ (encSection 0x02 m.imports (contents m).imports).length := by
    refine section_length (Nat.le_trans ?_ (encVec_length (enc := encImport) (k := 1) (fun i => ?_) m.imports)) (by rintro h; rw [h]; rfl)
    · omega
    · have := encVec_total encByte i.module
      unfold encImport encName
      rw [List.length_append, List.length_append]
      omega
  have h4 : m.tables.length ≤ (encSection 0x04 m.tables (contents m).tables).length := by
    refine section_length (Nat.le_trans ?_ (encVec_length (enc := encTable) (k := 1) (fun i => ?_) m.tables)) (by rintro h; rw [h]; rfl)
    · omega
    · unfold encTable encTableTy
      cases i.ty.elem
      simp [encElemTy]
  have h5 : m.mems.length ≤ (encSection 0x05 m.mems (contents m).mems).length := by
    refine section_length (Nat.le_trans ?_ (encVec_length (enc := encMem) (k := 1) (fun i => ?_) m.mems)) (by rintro h; rw [h]; rfl)
    · omega
    · unfold encMem encLimits
      split <;> simp
  have h6 : total (fun g : Global => 1 + bulkL g.init) m.globals ≤ (encSection 0x06 m.globals (contents m).globals).length := by
    refine section_length (Nat.le_trans (Meter.total_le m.globals fun g hg => ?_) (Nat.le_trans (Nat.le_succ _) (encVec_total encGlobal m.globals))) (by rintro h; rw [h]; rfl)
    have := hf g.init (by unfold exprsOf; simp only [List.mem_append, List.mem_map]; exact .inl (.inl (.inr ⟨g, hg, rfl⟩)))
    unfold encGlobal
    rw [List.length_append]
    omega
  have h7 : m.exports.length ≤ (encSection 0x07 m.exports (contents m).exports).length := by
    refine section_length (Nat.le_trans ?_ (encVec_length (enc := encExport) (k := 1) (fun i => ?_) m.exports)) (by rintro h; rw [h]; rfl)
    · omega
    · have := encVec_total encByte i.name
      unfold encExport encName
      rw [List.length_append]
      omega
  have h8 : m.start.toList.length ≤ (encStart m.start).length := by
    cases m.start with
    | none => exact Nat.le_refl _
    | some s => simp [encStart]
  have h9 : total (fun e : Elem => 1 + bulkL e.offset + e.init.length) m.elem ≤ (encSection 0x09 m.elem (contents m).elem).length := by
    refine section_length (Nat.le_trans (Meter.total_le m.elem fun g hg => ?_) (Nat.le_trans (Nat.le_succ _) (encVec_total encElem m.elem))) (by rintro h; rw [h]; rfl)
    have := hf g.offset (by unfold exprsOf; simp only [List.mem_append, List.mem_map]; exact .inl (.inr ⟨g, hg, rfl⟩))
    have := encVec_length (enc := encIdx) (k := 1) (fun x => encU_pos _) g.init
    unfold encElem
    rw [List.length_append, List.length_append]
    omega
  have h11 : total (fun e : Data => 1 + bulkL e.offset) m.data ≤ (encSection 0x0B m.data (contents m).data).length := by
    refine section_length (Nat.le_trans (Meter.total_le m.data fun g hg => ?_) (Nat.le_trans (Nat.le_succ _) (encVec_total encData m.data))) (by rintro h; rw [h]; rfl)
    have := hf g.offset (by unfold exprsOf; simp only [List.mem_append, List.mem_map]; exact .inr ⟨g, hg, rfl⟩)
    unfold encData
    rw [List.length_append, List.length_append]
    omega
  have h10 : total (fun f : Func => 1 + bulkL f.body) m.funcs ≤ (encSection 0x0A m.funcs (contents m).code).length := by
    have e : total (fun p : List Val × Expr => (encSized (encFunc p)).length) (m.funcs.map fun f => (f.locals, f.body)) =
        total (fun f : Func => (encSized (encFunc (f.locals, f.body))).length) m.funcs := by
      induction m.funcs with
      | nil => rfl
      | cons f fs ih => show _ + total _ _ = _ + total _ _; rw [ih]
    have hv := encVec_total (fun f => encSized (encFunc f)) (m.funcs.map fun f => (f.locals, f.body))
    rw [e] at hv
    refine section_length (Nat.le_trans (Meter.total_le m.funcs fun g hg => ?_) (Nat.le_trans (Nat.le_succ _) hv)) (by rintro h; rw [h]; rfl)
    have := hf g.body (by unfold exprsOf; simp only [List.mem_append, List.mem_map]; exact .inl (.inl (.inl ⟨g, hg, rfl⟩)))
    unfold encSized encFunc
    rw [List.length_append, List.length_append]
    dsimp only
    omega
  have hsplit : total (fun f : Func => 1 + f.locals.length + bulkL f.body) m.funcs = total (fun f : Func => 1 + bulkL f.body) m.funcs + localsOf m := by
    unfold localsOf
    induction m.funcs with
    | nil => rfl
    | cons f fs ih =>
      show 1 + f.locals.length + bulkL f.body + total _ fs = 1 + bulkL f.body + total _ fs + (f.locals.length + total _ fs)
      rw [ih]; omega
  unfold bulk
  rw [hsplit]
  unfold encModule
  dsimp only
  simp only [List.length_append]
  omega

/-- The result of parsing has block types of one result at most. -/
theorem flats_of_encodable {D : Dialect} {m : Module} (h : Encodable D m) : BlockResults 1 m := by
  intro e he j hj t ht
  have hw := h.exprs e he j hj
  cases j <;> simp only [blockTypes, List.mem_singleton, List.not_mem_nil] at ht <;> subst ht <;> exact hw

/-! ## Lower bounds -/

/-- What follows does not take steps back. -/
theorem steps_bind {α β : Type} {p : Meter.T α} {f : α → Meter.T β} {c : Ctx} : (p c).steps ≤ ((p >>= f) c).steps := by
  cases h : (p c).out with
  | error e => rw [Meter.bind_err' h]; exact Nat.le_refl _
  | ok r => rw [Meter.bind_ok' (x := r.1) (c' := r.2) h]; exact Nat.le_add_right _ _

theorem steps_bind_ok {α β : Type} {p : Meter.T α} {f : α → Meter.T β} {c c' : Ctx} {x : α} (h : (p c).out = .ok (x, c')) :
    (f x c').steps ≤ ((p >>= f) c).steps := by
  rw [Meter.bind_ok' h]; exact Nat.le_add_left _ _

theorem out_bind_ok {α β : Type} {p : Meter.T α} {f : α → Meter.T β} {c c'' : Ctx} {y : β} (h : ((p >>= f) c).out = .ok (y, c'')) :
    ∃ x c', (p c).out = .ok (x, c') ∧ (f x c').out = .ok (y, c'') := by
  cases hp : (p c).out with
  | error e => rw [Meter.bind_err' hp] at h; cases h
  | ok r => rw [Meter.bind_ok' (x := r.1) (c' := r.2) hp] at h; exact ⟨r.1, r.2, rfl, h⟩

theorem func_slots {f : Func} {c c' : Ctx} {t : FuncTy} (h : (Meter.validateFunc f c).out = .ok (t, c')) : slots c.types f ≤ (Meter.validateFunc f c).steps := by
  obtain ⟨ty, c1, h1, _⟩ := out_bind_ok h
  refine Nat.le_trans ?_ (steps_bind_ok h1)
  refine Nat.le_trans ?_ steps_bind
  have h1 : lookup c.types f.ty c = .ok (ty, c1) := h1
  unfold lookup at h1
  split at h1
  · cases h1
  · split at h1
    · rename_i hx
      cases h1
      show slots c.types f ≤ ty.params.length + f.locals.length
      unfold slots
      rw [hx]
      exact Nat.le_refl _
    · cases h1

theorem funcs_slots : ∀ (fs : List Func) {c c' : Ctx}, Clean c → (Meter.forEach (fun f => do let _ ← Meter.validateFunc f; pure ()) fs c).out = .ok ((), c') →
    total (slots c.types) fs ≤ (Meter.forEach (fun f => do let _ ← Meter.validateFunc f; pure ()) fs c).steps
  | [], _, _, _, _ => Nat.le_refl _
  | f :: fs, c, c', hc, h => by
    obtain ⟨u, c1, h1, h2⟩ := out_bind_ok h
    obtain ⟨t, c2, h3, h4⟩ := out_bind_ok h1
    cases h4
    cases Meter.func_same hc h3
    have ih := funcs_slots fs hc h2
    have h5 := func_slots h3
    have h6 : (Meter.validateFunc f c).steps ≤ ((Meter.validateFunc f >>= fun _ => pure ()) c).steps := steps_bind
    show slots c.types f + total (slots c.types) fs ≤
      (((Meter.validateFunc f >>= fun _ => pure ()) >>= fun _ => Meter.forEach (fun f => do let _ ← Meter.validateFunc f; pure ()) fs) c).steps
    rw [Meter.bind_ok' h1]
    show _ ≤ _ + _
    omega

/-- Validation of an accepted module collects the parameters and locals of every function. -/
theorem module_slots {m : Module} {r : ModuleResult} (h : validateModule m = .ok r) : total (slots m.types) m.funcs ≤ (Meter.validateModule m).steps := by
  rw [Meter.erases_module] at h
  cases ho : (Meter.validateModule m).out with
  | error e => rw [ho] at h; cases h
  | ok q =>
    obtain ⟨u, c1, h1, h2⟩ := out_bind_ok (p := Meter.contextFrom m) (f := fun _ => Meter.validateModuleBody m) (c := {}) (y := q.1) (c'' := q.2) ho
    have hc1 : c1 = ctxOf m := by
      have hx := (Meter.erases_contextFrom m {}).symm.trans h1
      by_cases hin : TypesIn m
      · cases ((contextFrom_eq m).1 hin).symm.trans hx; rfl
      · cases ((contextFrom_eq m).2 hin).symm.trans hx
    subst hc1
    refine Nat.le_trans ?_ (steps_bind_ok (p := Meter.contextFrom m) (f := fun _ => Meter.validateModuleBody m) (c := {}) h1)
    obtain ⟨_, c2, h3, h4⟩ := out_bind_ok h2
    cases h3
    refine Nat.le_trans ?_ (steps_bind_ok (p := Meter.tick m.globals.length) (x := ()) (c' := ctxOf m) rfl)
    obtain ⟨_, c3, h5, h6⟩ := out_bind_ok h4
    have hc3 : c3 = ctxOf m := by
      obtain ⟨⟨_, h⟩, _⟩ := (Meter.keeps_types (I := fun c => c = ctxOf m) m.types (ctxOf m) rfl).2.2 _ _ h5
      exact h
    subst hc3
    refine Nat.le_trans ?_ (steps_bind_ok h5)
    obtain ⟨_, c4, h7, _⟩ := out_bind_ok h6
    exact Nat.le_trans (funcs_slots m.funcs (clean_ctxOf m) h7) steps_bind

end Whasm
