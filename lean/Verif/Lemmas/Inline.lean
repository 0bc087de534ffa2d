import Verif.Model.Inline
import Verif.Lemmas.Printed

/-!
# Length of the text on one line
-/

namespace Whasm.Inline
open Spec Printed

variable {std : StdText} {n : Nat}

/-- A value with what separates it from others. -/
def size (v : List Char) : Nat := v.length + 2

theorem items_le : ∀ vs : List (List Char), (lineItems vs).length ≤ total size vs
  | [] => Nat.le_refl _
  | v :: vs => by
    have : ∀ vs : List (List Char), (vs.flatMap fun w => [',', ' '] ++ w).length = total size vs := by
      intro vs
      induction vs with
      | nil => rfl
      | cons v vs ih => rw [List.flatMap_cons, List.length_append, ih]; simp only [total, size, List.length_append, List.length_cons, List.length_nil]; omega
    rw [lineItems, List.length_append, this]
    simp only [total, size]; omega

theorem tuple_le (name : List Char) (vs : List (List Char)) : (lineTuple name vs).length ≤ name.length + 2 + total size vs := by
  have := items_le vs
  unfold lineTuple
  split
  · omega
  · simp only [List.length_append, List.length_cons, List.length_nil]; omega

theorem list_le (vs : List (List Char)) : (lineList vs).length ≤ 2 + total size vs := by
  have := items_le vs
  simp only [lineList, List.length_append, List.length_cons, List.length_nil]; omega

theorem struct_le (name : List Char) (fs : List (List Char × List Char)) : (lineStruct name fs).length ≤ name.length + 5 + total (fun f => f.1.length + f.2.length + 4) fs := by
  have h := items_le (fs.map fun f => f.1 ++ [':', ' '] ++ f.2)
  rw [total_map] at h
  have e : (fun x : List Char × List Char => size (x.1 ++ [':', ' '] ++ x.2)) = fun f => f.1.length + f.2.length + 4 := by
    funext f
    simp only [size, List.length_append, List.length_cons, List.length_nil]; omega
  rw [e] at h
  simp only [lineStruct, List.length_append, List.length_cons, List.length_nil]; omega

theorem idx_le {s : String} (h : IdxName s) (x : Idx) : (lineIdx s x).length ≤ 20 := by
  have h1 := tuple_le (text s) [dbgNat x.toNat]
  have h2 := length_u32 x
  have h3 : (text s).length ≤ 6 := h.1
  simp only [total, size] at h1
  unfold lineIdx; omega

theorem val_le (t : Val) : (lineVal t).length = 3 := by cases t <;> simp [lineVal, text]

theorem vals_le (ts : List Val) : (lineVals ts).length ≤ 2 + 5 * ts.length := by
  have h := list_le (ts.map lineVal)
  rw [total_map, Meter.total_const (k := 5) fun x => by simp [size, val_le x]] at h
  exact h

theorem ret_le (t : RetVal) : (lineRetVal t).length ≤ 12 + 5 * t.length := by
  have h1 := tuple_le (text "RetVal") [lineVals t]
  have h2 := vals_le t
  have h3 : (text "RetVal").length = 6 := by decide +kernel
  simp only [total, size] at h1
  unfold lineRetVal; omega

theorem indices_le {s : String} (h : IdxName s) (ls : List Idx) : (lineList (ls.map (lineIdx s))).length ≤ 2 + 22 * ls.length := by
  have h1 := list_le (ls.map (lineIdx s))
  have h2 : total (fun x => size (lineIdx s x)) ls ≤ total (fun _ => 22) ls := Meter.total_le _ fun x _ => by
    have := idx_le h x
    unfold size; omega
  rw [total_map] at h1
  rw [Meter.total_const (k := 22) fun _ => rfl] at h2
  omega

theorem expr_le (std : StdText) (s : String) (hs : Printed.Word 9 (text s)) (e : List Instr) :
    (lineTuple (text s) [lineList (lineInstrs std e)]).length ≤ 15 + total size (lineInstrs std e) := by
  have h1 := tuple_le (text s) [lineList (lineInstrs std e)]
  have h2 := list_le (lineInstrs std e)
  have h3 := hs.1
  simp only [total] at h1
  unfold size at h1
  omega

theorem leaf_le {i : Instr} {c : Nat} (h : total size (lineFields std i) ≤ c) (hc : c + 21 ≤ 80 + n) (hb : 1 ≤ bulkI i) : size (lineInstr std i) ≤ (80 + n) * bulkI i := by
  have h1 := tuple_le (text (instrName i)) (lineFields std i)
  have h2 := (word_instr i).1
  have h3 : (80 + n) * 1 ≤ (80 + n) * bulkI i := Nat.mul_le_mul_left _ hb
  unfold size lineInstr
  omega

theorem nest_le {K t B T : Nat} (hK : 80 ≤ K) (hT : T ≤ K * B) : 80 + 5 * t + T ≤ K * (1 + t + B) := by
  have h1 : K * (1 + t + B) = K + K * t + K * B := by rw [Nat.mul_add, Nat.mul_add, Nat.mul_one]
  have h2 : 5 * t ≤ K * t := Nat.mul_le_mul_right _ (by omega)
  omega

mutual

theorem instr_le (hF : FloatText n std) : ∀ i : Instr, size (lineInstr std i) ≤ (80 + n) * bulkI i
  | .block t b => by
    have h1 := tuple_le (text (instrName (.block t b))) (lineFields std (.block t b))
    have h2 := (word_instr (.block t b)).1
    have h3 := expr_le std "Expr" word_Expr b
    have h4 := ret_le t
    have h5 := nest_le (t := t.length) (Nat.le_add_right 80 n) (instrs_le hF b)
    simp only [lineFields, total] at h1
    simp only [size, lineInstr, bulkI, lineFields] at h1 h3 h5 ⊢
    omega
  | .loop t b => by
    have h1 := tuple_le (text (instrName (.loop t b))) (lineFields std (.loop t b))
    have h2 := (word_instr (.loop t b)).1
    have h3 := expr_le std "Expr" word_Expr b
    have h4 := ret_le t
    have h5 := nest_le (t := t.length) (Nat.le_add_right 80 n) (instrs_le hF b)
    simp only [lineFields, total] at h1
    simp only [size, lineInstr, bulkI, lineFields] at h1 h3 h5 ⊢
    omega
  | .ifElse t a b => by
    have h1 := tuple_le (text (instrName (.ifElse t a b))) (lineFields std (.ifElse t a b))
    have h2 := (word_instr (.ifElse t a b)).1
    have h3 := expr_le std "Expr" word_Expr a
    have h3' := expr_le std "Expr" word_Expr b
    have h4 := ret_le t
    have h5 := nest_le (t := t.length) (B := bulkL a + bulkL b) (T := total size (lineInstrs std a) + total size (lineInstrs std b)) (Nat.le_add_right 80 n)
      (by rw [Nat.mul_add]; exact Nat.add_le_add (instrs_le hF a) (instrs_le hF b))
    simp only [lineFields, total] at h1
    rw [bulkI, Nat.add_assoc]
    simp only [size, lineInstr, lineFields] at h1 h3 h3' h5 ⊢
    omega
  | .brTable ls l => by
    have h1 := tuple_le (text (instrName (.brTable ls l))) (lineFields std (.brTable ls l))
    have h2 := (word_instr (.brTable ls l)).1
    have h3 := indices_le idx_Label ls
    have h4 := idx_le idx_Label l
    have h5 : (80 + n) * (1 + ls.length) = 80 + n + (80 + n) * ls.length := by rw [Nat.mul_add, Nat.mul_one]
    have h6 : 80 * ls.length ≤ (80 + n) * ls.length := Nat.mul_le_mul_right _ (by omega)
    simp only [lineFields, total] at h1
    simp only [size, lineInstr, bulkI, lineFields] at h1 ⊢
    omega
  | .br l => leaf_le (c := 22) (by have := idx_le idx_Label l; simp only [lineFields, total, size]; omega) (by omega) (by simp [bulkI])
  | .brIf l => leaf_le (c := 22) (by have := idx_le idx_Label l; simp only [lineFields, total, size]; omega) (by omega) (by simp [bulkI])
  | .call x => leaf_le (c := 22) (by have := idx_le idx_Func x; simp only [lineFields, total, size]; omega) (by omega) (by simp [bulkI])
  | .callIndirect x y => leaf_le (c := 44) (by have := idx_le idx_Type x; have := idx_le idx_Table y; simp only [lineFields, total, size]; omega) (by omega) (by simp [bulkI])
  | .localGet x => leaf_le (c := 22) (by have := idx_le idx_Local x; simp only [lineFields, total, size]; omega) (by omega) (by simp [bulkI])
  | .localSet x => leaf_le (c := 22) (by have := idx_le idx_Local x; simp only [lineFields, total, size]; omega) (by omega) (by simp [bulkI])
  | .localTee x => leaf_le (c := 22) (by have := idx_le idx_Local x; simp only [lineFields, total, size]; omega) (by omega) (by simp [bulkI])
  | .globalGet x => leaf_le (c := 22) (by have := idx_le idx_Global x; simp only [lineFields, total, size]; omega) (by omega) (by simp [bulkI])
  | .globalSet x => leaf_le (c := 22) (by have := idx_le idx_Global x; simp only [lineFields, total, size]; omega) (by omega) (by simp [bulkI])
  | .load _ a b => leaf_le (c := 24) (by have := length_u32 a; have := length_u32 b; simp only [lineFields, total, size]; omega) (by omega) (by simp [bulkI])
  | .store _ a b => leaf_le (c := 24) (by have := length_u32 a; have := length_u32 b; simp only [lineFields, total, size]; omega) (by omega) (by simp [bulkI])
  | .memSize x => leaf_le (c := 22) (by have := idx_le idx_Mem x; simp only [lineFields, total, size]; omega) (by omega) (by simp [bulkI])
  | .memGrow x => leaf_le (c := 22) (by have := idx_le idx_Mem x; simp only [lineFields, total, size]; omega) (by omega) (by simp [bulkI])
  | .constI32 v => leaf_le (c := 23) (by have := length_i32 v; simp only [lineFields, total, size]; omega) (by omega) (by simp [bulkI])
  | .constI64 v => leaf_le (c := 23) (by have := length_i64 v; simp only [lineFields, total, size]; omega) (by omega) (by simp [bulkI])
  | .constF32 v => leaf_le (c := n + 2) (by have := hF.short32 v; simp only [lineFields, total, size]; omega) (by omega) (by simp [bulkI])
  | .constF64 v => leaf_le (c := n + 2) (by have := hF.short64 v; simp only [lineFields, total, size]; omega) (by omega) (by simp [bulkI])
  | .unreachable => leaf_le (c := 0) (by simp [lineFields, total]) (by omega) (by simp [bulkI])
  | .nop => leaf_le (c := 0) (by simp [lineFields, total]) (by omega) (by simp [bulkI])
  | .elseMark => leaf_le (c := 0) (by simp [lineFields, total]) (by omega) (by simp [bulkI])
  | .endMark => leaf_le (c := 0) (by simp [lineFields, total]) (by omega) (by simp [bulkI])
  | .ret => leaf_le (c := 0) (by simp [lineFields, total]) (by omega) (by simp [bulkI])
  | .drop => leaf_le (c := 0) (by simp [lineFields, total]) (by omega) (by simp [bulkI])
  | .select => leaf_le (c := 0) (by simp [lineFields, total]) (by omega) (by simp [bulkI])
  | .num _ => leaf_le (c := 0) (by simp [lineFields, total]) (by omega) (by simp [bulkI])

theorem instrs_le (hF : FloatText n std) : ∀ is : List Instr, total size (lineInstrs std is) ≤ (80 + n) * bulkL is
  | [] => Nat.le_refl _
  | i :: is => by
    have h1 := instr_le hF i
    have h2 := instrs_le hF is
    rw [bulkL, Nat.mul_add]
    simp only [lineInstrs, total]
    unfold lineInstr at h1
    omega

end

/-! ## Items of a module -/

/-- A text of length proportional to `k`. -/
def Slim (n k : Nat) (v : List Char) : Prop := size v ≤ (170 + n) * k

theorem slim_plain {k : Nat} {v : List Char} (h : size v ≤ 170 * k) : Slim n k v :=
  Nat.le_trans h (Nat.mul_le_mul_right _ (by omega))

theorem slim_expr {k B T : Nat} {v : List Char} (hT : T ≤ (80 + n) * B) (h : size v ≤ 170 * k + T) : Slim n (k + B) v := by
  have h1 : (170 + n) * (k + B) = (170 + n) * k + (170 + n) * B := Nat.mul_add ..
  have h2 : 170 * k ≤ (170 + n) * k := Nat.mul_le_mul_right _ (by omega)
  have h3 : (80 + n) * B ≤ (170 + n) * B := Nat.mul_le_mul_right _ (by omega)
  unfold Slim; omega

theorem slim_list {α : Type} {pr : α → List Char} {sz : α → Nat} {xs : List α} (h : ∀ x ∈ xs, Slim n (sz x) (pr x)) :
    (lineList (xs.map pr)).length ≤ 2 + (170 + n) * total sz xs := by
  have h1 := list_le (xs.map pr)
  have h2 : total size (xs.map pr) ≤ (170 + n) * total sz xs := by
    rw [total_map, Nat.mul_comm, ← Meter.total_mul]
    exact Meter.total_le _ fun x hx => Nat.mul_comm _ (sz x) ▸ h x hx
  omega

theorem slim_funcTy (t : FuncTy) : Slim n (1 + t.params.length + t.results.length) (lineFuncTy t) := by
  have h := struct_le (text "Func") [(text "params", lineVals t.params), (text "results", lineVals t.results)]
  have h1 := vals_le t.params
  have h2 := vals_le t.results
  have e : (text "Func").length = 4 ∧ (text "params").length = 6 ∧ (text "results").length = 7 := by decide +kernel
  refine slim_plain ?_
  simp only [total] at h
  unfold size lineFuncTy
  omega

theorem limits_le (l : Limits) : (lineLimits l).length ≤ 53 := by
  have h := struct_le (text "Limits") [(text "min", dbgNat l.min.toNat), (text "max", lineOption (l.max.map fun n => dbgNat n.toNat))]
  have h1 := length_u32 l.min
  have h2 : (lineOption (l.max.map fun n => dbgNat n.toNat)).length ≤ 18 := by
    cases l.max with
    | none => simp [lineOption, text]
    | some x =>
      have h3 := tuple_le (text "Some") [dbgNat x.toNat]
      have h4 := length_u32 x
      have h5 : (text "Some").length = 4 := by decide +kernel
      simp only [total, size] at h3
      simp only [lineOption, Option.map_some]
      omega
  have e : (text "Limits").length = 6 ∧ (text "min").length = 3 ∧ (text "max").length = 3 := by decide +kernel
  simp only [total] at h
  unfold lineLimits
  omega

theorem tableTy_le (t : TableTy) : (lineTableTy t).length ≤ 85 := by
  have h := struct_le (text "Table") [(text "lim", lineLimits t.lim), (text "elem", lineElemTy t.elem)]
  have h1 := limits_le t.lim
  have h2 : (lineElemTy t.elem).length = 7 := by cases t.elem; decide +kernel
  have e : (text "Table").length = 5 ∧ (text "lim").length = 3 ∧ (text "elem").length = 4 := by decide +kernel
  simp only [total] at h
  unfold lineTableTy
  omega

theorem memTy_le (t : MemTy) : (lineMemTy t).length ≤ 68 := by
  have h := struct_le (text "Mem") [(text "lim", lineLimits t.lim)]
  have h1 := limits_le t.lim
  have e : (text "Mem").length = 3 ∧ (text "lim").length = 3 := by decide +kernel
  simp only [total] at h
  unfold lineMemTy
  omega

theorem globalTy_le (t : GlobalTy) : (lineGlobalTy t).length ≤ 32 := by
  have h := struct_le (text "Global") [(text "mt", lineMut t.mt), (text "val", lineVal t.val)]
  have h1 := val_le t.val
  have h2 : (lineMut t.mt).length ≤ 5 := by cases t.mt <;> decide +kernel
  have e : (text "Global").length = 6 ∧ (text "mt").length = 2 ∧ (text "val").length = 3 := by decide +kernel
  simp only [total] at h
  unfold lineGlobalTy
  omega

theorem slim_table (t : Table) : Slim n 1 (lineTable t) := by
  have h := struct_le (text "Table") [(text "ty", lineTableTy t.ty)]
  have h1 := tableTy_le t.ty
  have e : (text "Table").length = 5 ∧ (text "ty").length = 2 := by decide +kernel
  refine slim_plain ?_
  simp only [total] at h
  unfold size lineTable
  omega

theorem slim_mem (t : Mem) : Slim n 1 (lineMem t) := by
  have h := struct_le (text "Mem") [(text "ty", lineMemTy t.ty)]
  have h1 := memTy_le t.ty
  have e : (text "Mem").length = 3 ∧ (text "ty").length = 2 := by decide +kernel
  refine slim_plain ?_
  simp only [total] at h
  unfold size lineMem
  omega

theorem slim_func (hF : FloatText n std) (f : Func) : Slim n (1 + f.locals.length + bulkL f.body) (lineFunc std f) := by
  have h := struct_le (text "Func") [(text "ty", lineIdx "Type" f.ty), (text "locals", lineVals f.locals), (text "body", lineExpr std f.body)]
  have h1 := idx_le idx_Type f.ty
  have h2 := vals_le f.locals
  have h3 := expr_le std "Expr" word_Expr f.body
  have e : (text "Func").length = 4 ∧ (text "ty").length = 2 ∧ (text "locals").length = 6 ∧ (text "body").length = 4 := by decide +kernel
  refine slim_expr (instrs_le hF f.body) ?_
  simp only [total, lineExpr] at h
  unfold lineFunc lineExpr
  rw [size]
  omega

theorem slim_global (hF : FloatText n std) (g : Global) : Slim n (1 + bulkL g.init) (lineGlobal std g) := by
  have h := struct_le (text "Global") [(text "ty", lineGlobalTy g.ty), (text "init", lineConstExpr std g.init)]
  have h1 := globalTy_le g.ty
  have h3 := expr_le std "ConstExpr" word_ConstExpr g.init
  have e : (text "Global").length = 6 ∧ (text "ty").length = 2 ∧ (text "init").length = 4 := by decide +kernel
  refine slim_expr (instrs_le hF g.init) ?_
  simp only [total, lineConstExpr] at h
  unfold lineGlobal lineConstExpr
  rw [size]
  omega

theorem slim_elem (hF : FloatText n std) (g : Elem) : Slim n (1 + bulkL g.offset + g.init.length) (lineElem std g) := by
  have h := struct_le (text "Elem") [(text "table", lineIdx "Table" g.table), (text "offset", lineConstExpr std g.offset), (text "init", lineList (g.init.map (lineIdx "Func")))]
  have h1 := idx_le idx_Table g.table
  have h2 := indices_le idx_Func g.init
  have h3 := expr_le std "ConstExpr" word_ConstExpr g.offset
  have e : (text "Elem").length = 4 ∧ (text "table").length = 5 ∧ (text "offset").length = 6 ∧ (text "init").length = 4 := by decide +kernel
  rw [Nat.add_right_comm]
  refine slim_expr (instrs_le hF g.offset) ?_
  simp only [total, lineConstExpr] at h
  unfold lineElem lineConstExpr
  rw [size]
  omega

theorem slim_data (hF : FloatText n std) (g : Data) : Slim n (1 + bulkL g.offset + g.init.length) (lineData std g) := by
  have h := struct_le (text "Data") [(text "mem", lineIdx "Mem" g.mem), (text "offset", lineConstExpr std g.offset), (text "init", lineList (g.init.map fun b => dbgNat b.toNat))]
  have h1 := idx_le idx_Mem g.mem
  have h2 := list_le (g.init.map fun b => dbgNat b.toNat)
  have h2' : total (fun b : Byte => size (dbgNat b.toNat)) g.init ≤ total (fun _ => 5) g.init := Meter.total_le _ fun x _ => by
    have := length_u8 x
    unfold size; omega
  rw [total_map] at h2
  rw [Meter.total_const (k := 5) fun _ => rfl] at h2'
  have h3 := expr_le std "ConstExpr" word_ConstExpr g.offset
  have e : (text "Data").length = 4 ∧ (text "mem").length = 3 ∧ (text "offset").length = 6 ∧ (text "init").length = 4 := by decide +kernel
  rw [Nat.add_right_comm]
  refine slim_expr (instrs_le hF g.offset) ?_
  simp only [total, lineConstExpr] at h
  unfold lineData lineConstExpr
  rw [size]
  omega

theorem importDesc_le (d : ImportDesc) : (lineImportDesc d).length ≤ 94 := by
  have e : (text "Func").length = 4 ∧ (text "Table").length = 5 ∧ (text "Mem").length = 3 ∧ (text "Global").length = 6 := by decide +kernel
  cases d with
  | func x =>
    have h := tuple_le (text "Func") [lineIdx "Type" x]
    have h1 := idx_le idx_Type x
    simp only [total, size] at h
    simp only [lineImportDesc]; omega
  | table t =>
    have h := tuple_le (text "Table") [lineTableTy t]
    have h1 := tableTy_le t
    simp only [total, size] at h
    simp only [lineImportDesc]; omega
  | mem t =>
    have h := tuple_le (text "Mem") [lineMemTy t]
    have h1 := memTy_le t
    simp only [total, size] at h
    simp only [lineImportDesc]; omega
  | global t =>
    have h := tuple_le (text "Global") [lineGlobalTy t]
    have h1 := globalTy_le t
    simp only [total, size] at h
    simp only [lineImportDesc]; omega

theorem exportDesc_le (d : ExportDesc) : (lineExportDesc d).length ≤ 30 := by
  have e : (text "Func").length = 4 ∧ (text "Table").length = 5 ∧ (text "Mem").length = 3 ∧ (text "Global").length = 6 := by decide +kernel
  cases d with
  | func x =>
    have h := tuple_le (text "Func") [lineIdx "Func" x]
    have h1 := idx_le idx_Func x
    simp only [total, size] at h
    simp only [lineExportDesc]; omega
  | table x =>
    have h := tuple_le (text "Table") [lineIdx "Table" x]
    have h1 := idx_le idx_Table x
    simp only [total, size] at h
    simp only [lineExportDesc]; omega
  | mem x =>
    have h := tuple_le (text "Mem") [lineIdx "Mem" x]
    have h1 := idx_le idx_Mem x
    simp only [total, size] at h
    simp only [lineExportDesc]; omega
  | global x =>
    have h := tuple_le (text "Global") [lineIdx "Global" x]
    have h1 := idx_le idx_Global x
    simp only [total, size] at h
    simp only [lineExportDesc]; omega

theorem slim_import (i : Import) : Slim n (1 + (i.module.length + i.name.length)) (lineImport std i) := by
  have h := struct_le (text "Import") [(text "module", dbgName std i.module), (text "name", dbgName std i.name), (text "desc", lineImportDesc i.desc)]
  have h1 := name_le std i.module
  have h2 := name_le std i.name
  have h3 := importDesc_le i.desc
  have e : (text "Import").length = 6 ∧ (text "module").length = 6 ∧ (text "name").length = 4 ∧ (text "desc").length = 4 := by decide +kernel
  refine slim_plain ?_
  simp only [total] at h
  unfold size lineImport
  omega

theorem slim_export (i : Export) : Slim n (1 + i.name.length) (lineExport std i) := by
  have h := struct_le (text "Export") [(text "name", dbgName std i.name), (text "desc", lineExportDesc i.desc)]
  have h2 := name_le std i.name
  have h3 := exportDesc_le i.desc
  have e : (text "Export").length = 6 ∧ (text "name").length = 4 ∧ (text "desc").length = 4 := by decide +kernel
  refine slim_plain ?_
  simp only [total] at h
  unfold size lineExport
  omega

theorem start_le (s : Option Start) : (lineOption (s.map lineStart)).length ≤ 4 + 46 * s.toList.length := by
  cases s with
  | none => simp [lineOption, text]
  | some s =>
    have h := struct_le (text "Start") [(text "func", lineIdx "Func" s.func)]
    have h1 := tuple_le (text "Some") [lineStart s]
    have h2 := idx_le idx_Func s.func
    have e : (text "Start").length = 5 ∧ (text "func").length = 4 ∧ (text "Some").length = 4 := by decide +kernel
    simp only [total, size] at h h1
    unfold lineStart at h1
    simp only [lineOption, Option.map_some, Option.toList_some, List.length_singleton]
    unfold lineStart
    omega

theorem module_le (hF : FloatText n std) (m : Module) : (lineModule std m).length ≤ (170 + n) * parts m + 130 := by
  have h1 := slim_list (n := n) (xs := m.types) fun t _ => slim_funcTy t
  have h2 := slim_list (n := n) (xs := m.funcs) fun f _ => slim_func hF f
  have h3 := slim_list (n := n) (xs := m.tables) fun t _ => slim_table t
  have h4 := slim_list (n := n) (xs := m.mems) fun t _ => slim_mem t
  have h5 := slim_list (n := n) (xs := m.globals) fun f _ => slim_global hF f
  have h6 := slim_list (n := n) (xs := m.elem) fun f _ => slim_elem hF f
  have h7 := slim_list (n := n) (xs := m.data) fun f _ => slim_data hF f
  have h8 := start_le m.start
  have h8' : 46 * m.start.toList.length ≤ (170 + n) * m.start.toList.length := Nat.mul_le_mul_right _ (by omega)
  have h9 := slim_list (n := n) (xs := m.imports) fun t _ => slim_import (std := std) t
  have h10 := slim_list (n := n) (xs := m.exports) fun t _ => slim_export (std := std) t
  have h := struct_le (text "Module") [
    (text "types", lineList (m.types.map lineFuncTy)),
    (text "funcs", lineList (m.funcs.map (lineFunc std))),
    (text "tables", lineList (m.tables.map lineTable)),
    (text "mems", lineList (m.mems.map lineMem)),
    (text "globals", lineList (m.globals.map (lineGlobal std))),
    (text "elem", lineList (m.elem.map (lineElem std))),
    (text "data", lineList (m.data.map (lineData std))),
    (text "start", lineOption (m.start.map lineStart)),
    (text "imports", lineList (m.imports.map (lineImport std))),
    (text "exports", lineList (m.exports.map (lineExport std)))]
  have e : (text "Module").length = 6 ∧ (text "types").length = 5 ∧ (text "funcs").length = 5 ∧ (text "tables").length = 6 ∧
    (text "mems").length = 4 ∧ (text "globals").length = 7 ∧ (text "elem").length = 4 ∧ (text "data").length = 4 ∧
    (text "start").length = 5 ∧ (text "imports").length = 7 ∧ (text "exports").length = 7 := by decide +kernel
  rw [parts_eq]
  simp only [total] at h
  unfold lineModule
  generalize 170 + n = K at *
  simp only [Nat.mul_add K]
  omega

end Whasm.Inline
