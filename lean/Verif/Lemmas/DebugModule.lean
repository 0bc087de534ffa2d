import Verif.Lemmas.DebugInstr

/-!
# Reading back modules
-/

namespace Whasm
open Spec

variable {std : StdText}

theorem sep_expr (hs : StdOk std) : Sep (dbgExpr std) blindL := fun x y r r' h =>
  have := sep_exprText (dbgInstrs std x) (dbgInstrs std y) r r' h
  ⟨instrs_inj hs x y this.1, this.2⟩

theorem sep_constExpr (hs : StdOk std) : Sep (dbgConstExpr std) blindL := fun x y r r' h =>
  have := sep_constText (dbgInstrs std x) (dbgInstrs std y) r r' h
  ⟨instrs_inj hs x y this.1, this.2⟩

theorem sep_func (hs : StdOk std) : Sep (dbgFunc std) (fun f => { f with body := blindL f.body }) := by
  intro x y r r' h
  have h := struct_sep h
  have h1 := raw_field (sep_idx (by decide +kernel)) h.1
  have h2 := raw_field sep_vals h1.2
  have h3 := raw_field (sep_expr hs) h2.2
  obtain ⟨a, b, c⟩ := x
  obtain ⟨a', b', c'⟩ := y
  have e1 : a = a' := h1.1
  have e2 : b = b' := h2.1
  have e3 : blindL c = blindL c' := h3.1
  exact ⟨by simp only [e1, e2, e3], h.2⟩

theorem sep_table : Sep dbgTable id := by
  intro x y r r' h
  have h := struct_sep h
  have h1 := raw_field sep_tableTy h.1
  obtain ⟨a⟩ := x
  obtain ⟨a'⟩ := y
  have e1 : a = a' := h1.1
  exact ⟨by simp only [e1], h.2⟩

theorem sep_mem : Sep dbgMem id := by
  intro x y r r' h
  have h := struct_sep h
  have h1 := raw_field sep_memTy h.1
  obtain ⟨a⟩ := x
  obtain ⟨a'⟩ := y
  have e1 : a = a' := h1.1
  exact ⟨by simp only [e1], h.2⟩

theorem sep_global (hs : StdOk std) : Sep (dbgGlobal std) (fun g => { g with init := blindL g.init }) := by
  intro x y r r' h
  have h := struct_sep h
  have h1 := raw_field sep_globalTy h.1
  have h2 := raw_field (sep_constExpr hs) h1.2
  obtain ⟨a, b⟩ := x
  obtain ⟨a', b'⟩ := y
  have e1 : a = a' := h1.1
  have e2 : blindL b = blindL b' := h2.1
  exact ⟨by simp only [e1, e2], h.2⟩

theorem sep_elem (hs : StdOk std) : Sep (dbgElem std) (fun e => { e with offset := blindL e.offset }) := by
  intro x y r r' h
  have h := struct_sep h
  have h1 := raw_field (sep_idx (by decide +kernel)) h.1
  have h2 := raw_field (sep_constExpr hs) h1.2
  have h3 := raw_field (sep_idx (s := "Func") (by decide +kernel)).list h2.2
  obtain ⟨a, b, c⟩ := x
  obtain ⟨a', b', c'⟩ := y
  have e1 : a = a' := h1.1
  have e2 : blindL b = blindL b' := h2.1
  have e3 : List.map id c = List.map id c' := h3.1
  rw [List.map_id, List.map_id] at e3
  exact ⟨by simp only [e1, e2, e3], h.2⟩

theorem sep_data (hs : StdOk std) : Sep (dbgData std) (fun d => { d with offset := blindL d.offset }) := by
  intro x y r r' h
  have h := struct_sep h
  have h1 := raw_field (sep_idx (by decide +kernel)) h.1
  have h2 := raw_field (sep_constExpr hs) h1.2
  have h3 := raw_field sep_byte.list h2.2
  obtain ⟨a, b, c⟩ := x
  obtain ⟨a', b', c'⟩ := y
  have e1 : a = a' := h1.1
  have e2 : blindL b = blindL b' := h2.1
  have e3 : List.map id c = List.map id c' := h3.1
  rw [List.map_id, List.map_id] at e3
  exact ⟨by simp only [e1, e2, e3], h.2⟩

theorem sep_start : Sep dbgStart id := by
  intro x y r r' h
  have h := struct_sep h
  have h1 := raw_field (sep_idx (by decide +kernel)) h.1
  obtain ⟨a⟩ := x
  obtain ⟨a'⟩ := y
  have e1 : a = a' := h1.1
  exact ⟨by simp only [e1], h.2⟩

/-- Tuples with one field and different names. -/
theorem tuple_ne {s t : String} (hs : Word (text s)) (ht : Word (text t)) (hne : s ≠ t) {v w r r' : List Char}
    (h : dbgTuple (text s) [v] ++ ',' :: r = dbgTuple (text t) [w] ++ ',' :: r') : False :=
  hne (text_inj (tuple_sep hs ht h).1)

theorem word_func : Word (text "Func") := by decide +kernel
theorem word_table : Word (text "Table") := by decide +kernel
theorem word_mem : Word (text "Mem") := by decide +kernel
theorem word_global : Word (text "Global") := by decide +kernel

theorem sep_importDesc : Sep dbgImportDesc id := by
  intro x y r r' h
  cases x <;> cases y
  case func.func a a' =>
    have := Sep.tuple1 word_func (sep_idx (s := "Type") (by decide +kernel)) a a' r r' h
    exact ⟨congrArg ImportDesc.func this.1, this.2⟩
  case table.table a a' =>
    have := Sep.tuple1 word_table sep_tableTy a a' r r' h
    exact ⟨congrArg ImportDesc.table this.1, this.2⟩
  case mem.mem a a' =>
    have := Sep.tuple1 word_mem sep_memTy a a' r r' h
    exact ⟨congrArg ImportDesc.mem this.1, this.2⟩
  case global.global a a' =>
    have := Sep.tuple1 word_global sep_globalTy a a' r r' h
    exact ⟨congrArg ImportDesc.global this.1, this.2⟩
  all_goals first
    | exact (tuple_ne word_func word_table (by decide) h).elim
    | exact (tuple_ne word_func word_mem (by decide) h).elim
    | exact (tuple_ne word_func word_global (by decide) h).elim
    | exact (tuple_ne word_table word_func (by decide) h).elim
    | exact (tuple_ne word_table word_mem (by decide) h).elim
    | exact (tuple_ne word_table word_global (by decide) h).elim
    | exact (tuple_ne word_mem word_func (by decide) h).elim
    | exact (tuple_ne word_mem word_table (by decide) h).elim
    | exact (tuple_ne word_mem word_global (by decide) h).elim
    | exact (tuple_ne word_global word_func (by decide) h).elim
    | exact (tuple_ne word_global word_table (by decide) h).elim
    | exact (tuple_ne word_global word_mem (by decide) h).elim

theorem sep_exportDesc : Sep dbgExportDesc id := by
  intro x y r r' h
  cases x <;> cases y
  case func.func a a' =>
    have := Sep.tuple1 word_func (sep_idx word_func) a a' r r' h
    exact ⟨congrArg ExportDesc.func this.1, this.2⟩
  case table.table a a' =>
    have := Sep.tuple1 word_table (sep_idx word_table) a a' r r' h
    exact ⟨congrArg ExportDesc.table this.1, this.2⟩
  case mem.mem a a' =>
    have := Sep.tuple1 word_mem (sep_idx word_mem) a a' r r' h
    exact ⟨congrArg ExportDesc.mem this.1, this.2⟩
  case global.global a a' =>
    have := Sep.tuple1 word_global (sep_idx word_global) a a' r r' h
    exact ⟨congrArg ExportDesc.global this.1, this.2⟩
  all_goals first
    | exact (tuple_ne word_func word_table (by decide) h).elim
    | exact (tuple_ne word_func word_mem (by decide) h).elim
    | exact (tuple_ne word_func word_global (by decide) h).elim
    | exact (tuple_ne word_table word_func (by decide) h).elim
    | exact (tuple_ne word_table word_mem (by decide) h).elim
    | exact (tuple_ne word_table word_global (by decide) h).elim
    | exact (tuple_ne word_mem word_func (by decide) h).elim
    | exact (tuple_ne word_mem word_table (by decide) h).elim
    | exact (tuple_ne word_mem word_global (by decide) h).elim
    | exact (tuple_ne word_global word_func (by decide) h).elim
    | exact (tuple_ne word_global word_table (by decide) h).elim
    | exact (tuple_ne word_global word_mem (by decide) h).elim

theorem sep_import : Sep (dbgImport std) (fun i => (nameChars i.module, nameChars i.name, i.desc)) := by
  intro x y r r' h
  have h := struct_sep h
  have h1 := raw_field (sep_name std) h.1
  have h2 := raw_field (sep_name std) h1.2
  have h3 := raw_field sep_importDesc h2.2
  simp only [id] at h3
  exact ⟨by simp only [h1.1, h2.1, h3.1], h.2⟩

theorem sep_export : Sep (dbgExport std) (fun e => (nameChars e.name, e.desc)) := by
  intro x y r r' h
  have h := struct_sep h
  have h1 := raw_field (sep_name std) h.1
  have h2 := raw_field sep_exportDesc h1.2
  simp only [id] at h2
  exact ⟨by simp only [h1.1, h2.1], h.2⟩

/-- A function injective on two lists. -/
theorem map_inj_on {α β : Type} {f : α → β} {P : α → Prop} (hf : ∀ a b, P a → P b → f a = f b → a = b) :
    ∀ {xs ys : List α}, (∀ x ∈ xs, P x) → (∀ y ∈ ys, P y) → xs.map f = ys.map f → xs = ys
  | [], [], _, _, _ => rfl
  | [], _ :: _, _, _, h => by simp at h
  | _ :: _, [], _, _, h => by simp at h
  | x :: xs, y :: ys, hx, hy, h => by
      rw [List.map_cons, List.map_cons, List.cons.injEq] at h
      rw [hf x y (hx x (by simp)) (hy y (by simp)) h.1,
        map_inj_on hf (fun x h => hx x (by simp [h])) (fun y h => hy y (by simp [h])) h.2]

theorem module_inj (hs : StdOk std) {m m' : Module} (hm : NamesUtf8 m) (hm' : NamesUtf8 m')
    (h : dbgModule std m = dbgModule std m') : blindModule m = blindModule m' := by
  have h : dbgModule std m ++ ',' :: [] = dbgModule std m' ++ ',' :: [] := by rw [h]
  have h := struct_sep h
  have h1 := raw_field sep_funcTy.list h.1
  have h2 := raw_field (sep_func hs).list h1.2
  have h3 := raw_field sep_table.list h2.2
  have h4 := raw_field sep_mem.list h3.2
  have h5 := raw_field (sep_global hs).list h4.2
  have h6 := raw_field (sep_elem hs).list h5.2
  have h7 := raw_field (sep_data hs).list h6.2
  have h8 := raw_field sep_start.option h7.2
  have h9 := raw_field sep_import.list h8.2
  have h10 := raw_field sep_export.list h9.2
  have h1 := h1.1
  have h3 := h3.1
  have h4 := h4.1
  have h8 := h8.1
  rw [List.map_id, List.map_id] at h1 h3 h4
  rw [Option.map_id, id, id] at h8
  have h9 : m.imports = m'.imports := by
    refine map_inj_on (P := fun i => IsUtf8 i.module ∧ IsUtf8 i.name) (fun a b ha hb e => ?_) hm.1 hm'.1 h9.1
    obtain ⟨a1, a2, a3⟩ := a
    obtain ⟨b1, b2, b3⟩ := b
    simp only [Prod.mk.injEq] at e
    have e1 : a1 = b1 := nameChars_inj ha.1 hb.1 e.1
    have e2 : a2 = b2 := nameChars_inj ha.2 hb.2 e.2.1
    rw [e1, e2, e.2.2]
  have h10 : m.exports = m'.exports := by
    refine map_inj_on (P := fun i => IsUtf8 i.name) (fun a b ha hb e => ?_) hm.2 hm'.2 h10.1
    obtain ⟨a1, a2⟩ := a
    obtain ⟨b1, b2⟩ := b
    simp only [Prod.mk.injEq] at e
    have e1 : a1 = b1 := nameChars_inj ha hb e.1
    rw [e1, e.2]
  unfold blindModule
  rw [h1, h2.1, h3, h4, h5.1, h6.1, h7.1, h8, h9, h10]

theorem module_blind (hs : StdOk std) (m : Module) : dbgModule std (blindModule m) = dbgModule std m := by
  have e1 : ∀ e, dbgExpr std (blindL e) = dbgExpr std e := fun e => by rw [dbgExpr, dbgExpr, fieldsL_blind hs]
  have e2 : ∀ e, dbgConstExpr std (blindL e) = dbgConstExpr std e := fun e => by rw [dbgConstExpr, dbgConstExpr, fieldsL_blind hs]
  have f1 : ∀ f : Func, dbgFunc std { f with body := blindL f.body } = dbgFunc std f := fun f => by simp only [dbgFunc, e1]
  have f2 : ∀ g : Global, dbgGlobal std { g with init := blindL g.init } = dbgGlobal std g := fun g => by simp only [dbgGlobal, e2]
  have f3 : ∀ e : Elem, dbgElem std { e with offset := blindL e.offset } = dbgElem std e := fun e => by simp only [dbgElem, e2]
  have f4 : ∀ d : Data, dbgData std { d with offset := blindL d.offset } = dbgData std d := fun d => by simp only [dbgData, e2]
  simp only [dbgModule, blindModule, List.map_map, Function.comp_def, f1, f2, f3, f4]

end Whasm
