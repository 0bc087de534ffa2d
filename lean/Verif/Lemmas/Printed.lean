import Verif.Lemmas.Debug
import Verif.Lemmas.MeteredBytes
import Verif.Spec.Printed
import Verif.Spec.Native

/-!
# The length of the printed text
-/

namespace Whasm.Printed
open Spec

/-! ## Lengths and line breaks of the layouts -/

theorem breaks_append (a b : List Char) : breaks (a ++ b) = breaks a + breaks b := List.count_append

theorem breaks_nil : breaks [] = 0 := rfl

theorem breaks_cons (c : Char) (t : List Char) : breaks (c :: t) = breaks t + (if c = '\n' then 1 else 0) := by
  unfold breaks
  rw [List.count_cons]
  simp

theorem breaks_pad : ∀ (q : Bool) (t : List Char), breaks (pad q t) = breaks t
  | _, [] => rfl
  | q, c :: cs => by
    rw [pad, breaks_append, breaks_cons, breaks_cons, breaks_pad]
    cases q <;> rw [Nat.add_eq_right] <;> rfl

theorem length_pad : ∀ (q : Bool) (t : List Char), (pad q t).length + (if fin q t then 4 else 0) = t.length + 4 * breaks t + (if q then 4 else 0)
  | q, [] => by cases q <;> rfl
  | q, c :: cs => by
    have h := length_pad (c == '\n') cs
    rw [pad, fin, List.length_append, List.length_cons, List.length_cons, breaks_cons]
    by_cases hc : c = '\n'
    · subst hc
      cases q <;> simp at h ⊢ <;> omega
    · have : (c == '\n') = false := by simpa using hc
      rw [this] at h ⊢
      cases q <;> simp [hc] at h ⊢ <;> omega

theorem breaks_field (v : List Char) : breaks (dbgField v) = breaks v + 1 := by
  rw [dbgField, breaks_pad, breaks_append]; rfl

theorem length_field (v : List Char) : (dbgField v).length = v.length + 4 * breaks v + 6 := by
  have h := length_pad true (v ++ [',', '\n'])
  rw [fin_append] at h
  have e : fin (fin true v) [',', '\n'] = true := rfl
  have e' : breaks (v ++ [',', '\n']) = breaks v + 1 := by rw [breaks_append]; rfl
  rw [e, e'] at h
  simp at h
  unfold dbgField
  omega

/-- Characters of one field with its indentation. -/
def wide (v : List Char) : Nat := v.length + 4 * breaks v + 6

theorem wide_eq (v : List Char) : wide v = v.length + 4 * breaks v + 6 := rfl

theorem breaks_fields (vs : List (List Char)) : breaks (vs.flatMap dbgField) = total (fun v => breaks v + 1) vs := by
  induction vs with
  | nil => rfl
  | cons v vs ih => rw [List.flatMap_cons, breaks_append, breaks_field, ih]; rfl

theorem length_fields (vs : List (List Char)) : (vs.flatMap dbgField).length = total wide vs := by
  induction vs with
  | nil => rfl
  | cons v vs ih => rw [List.flatMap_cons, List.length_append, length_field, ih]; rfl

theorem breaks_tuple (n v : List Char) (vs : List (List Char)) : breaks (dbgTuple n (v :: vs)) = breaks n + 1 + total (fun v => breaks v + 1) (v :: vs) := by
  rw [dbgTuple, breaks_append, breaks_append, breaks_append, breaks_fields]
  · have h1 : breaks ['(', '\n'] = 1 := rfl
    have h2 : breaks [')'] = 0 := rfl
    omega
  · intro h; cases h

theorem length_tuple (n v : List Char) (vs : List (List Char)) : (dbgTuple n (v :: vs)).length = n.length + 3 + total wide (v :: vs) := by
  rw [dbgTuple, List.length_append, List.length_append, List.length_append, length_fields]
  · simp; omega
  · intro h; cases h

theorem breaks_items : ∀ vs : List (List Char), breaks (dbgList vs) = (if vs = [] then 0 else 1) + total (fun v => breaks v + 1) vs
  | [] => rfl
  | v :: vs => by
    rw [dbgList, breaks_append, breaks_append, breaks_fields, if_neg (by simp)]
    · have h1 : breaks ['[', '\n'] = 1 := rfl
      have h2 : breaks [']'] = 0 := rfl
      omega
    · intro h; cases h

theorem length_items : ∀ vs : List (List Char), (dbgList vs).length = (if vs = [] then 2 else 3) + total wide vs
  | [] => rfl
  | v :: vs => by
    rw [dbgList, List.length_append, List.length_append, length_fields, if_neg (by simp)]
    · simp; omega
    · intro h; cases h

theorem breaks_struct (n : List Char) (fs : List (List Char × List Char)) :
    breaks (dbgStruct n fs) = breaks n + 1 + total (fun f => breaks f.1 + breaks f.2 + 1) fs := by
  have h : ∀ fs : List (List Char × List Char), breaks (fs.flatMap fun f => dbgField (f.1 ++ [':', ' '] ++ f.2)) = total (fun f => breaks f.1 + breaks f.2 + 1) fs := by
    intro fs
    induction fs with
    | nil => rfl
    | cons f fs ih =>
      have : breaks [':', ' '] = 0 := rfl
      rw [List.flatMap_cons, breaks_append, breaks_field, breaks_append, breaks_append, ih, this]; rfl
  have h1 : breaks [' ', '{', '\n'] = 1 := rfl
  have h2 : breaks ['}'] = 0 := rfl
  rw [dbgStruct, breaks_append, breaks_append, breaks_append, h, h1, h2]
  omega

theorem length_struct (n : List Char) (fs : List (List Char × List Char)) :
    (dbgStruct n fs).length = n.length + 4 + total (fun f => f.1.length + f.2.length + 4 * breaks f.1 + 4 * breaks f.2 + 8) fs := by
  have h : ∀ fs : List (List Char × List Char), (fs.flatMap fun f => dbgField (f.1 ++ [':', ' '] ++ f.2)).length =
      total (fun f => f.1.length + f.2.length + 4 * breaks f.1 + 4 * breaks f.2 + 8) fs := by
    intro fs
    induction fs with
    | nil => rfl
    | cons f fs ih =>
      have : breaks [':', ' '] = 0 := rfl
      rw [List.flatMap_cons, List.length_append, length_field, breaks_append, breaks_append, ih, this]
      simp [total]
      omega
  rw [dbgStruct, List.length_append, List.length_append, List.length_append, h]
  simp
  omega

/-! ## Names of variants and fields, numbers -/

/-- A word of at most `n` characters. -/
def Word (n : Nat) (v : List Char) : Prop := v.length ≤ n ∧ breaks v = 0

instance (n : Nat) (v : List Char) : Decidable (Word n v) := by unfold Word; infer_instance

theorem Word.mono {n k : Nat} {v : List Char} (h : Word n v) (hk : n ≤ k) : Word k v := ⟨Nat.le_trans h.1 hk, h.2⟩

theorem word_num (op : NumOp) : Word 17 (text (numName op)) := by cases op <;> decide +kernel
theorem word_load (op : LoadOp) : Word 17 (text (loadName op)) := by cases op <;> decide +kernel
theorem word_store (op : StoreOp) : Word 17 (text (storeName op)) := by cases op <;> decide +kernel

theorem word_instr (i : Instr) : Word 17 (text (instrName i)) := by
  cases i with
  | num op => exact word_num op
  | load op a b => exact word_load op
  | store op a b => exact word_store op
  | _ => exact ⟨by simp [instrName, text], by simp [instrName, text, breaks]⟩

theorem breaks_of_not_mem {v : List Char} (h : '\n' ∉ v) : breaks v = 0 := List.count_eq_zero.mpr h

theorem length_digits {base : Nat} (hb : 1 < base) : ∀ (k fuel n : Nat), n < base ^ (k + 1) → (digitsOf base fuel n).length ≤ k + 1
  | _, 0, _, _ => by simp [digitsOf]
  | k, fuel + 1, n, h => by
    rw [digitsOf]
    split
    · simp
    · next hn =>
      rw [List.length_append]
      cases k with
      | zero => simp at h; omega
      | succ k =>
        have := length_digits hb k fuel (n / base) (by
          rw [Nat.div_lt_iff_lt_mul (by omega)]
          rwa [Nat.pow_succ] at h)
        simp
        omega

theorem breaks_digits {base : Nat} (h0 : 0 < base) (hb : base ≤ 16) : ∀ (fuel n : Nat), breaks (digitsOf base fuel n) = 0
  | 0, _ => rfl
  | fuel + 1, n => by
    have key : ∀ k : Fin 16, breaks [lowDigit k] = 0 := by decide
    rw [digitsOf]
    split
    · next h => exact key ⟨n, by omega⟩
    · rw [breaks_append, breaks_digits h0 hb fuel, key ⟨n % base, Nat.lt_of_lt_of_le (Nat.mod_lt _ h0) hb⟩]

theorem breaks_nat (n : Nat) : breaks (dbgNat n) = 0 := breaks_digits (by decide) (by decide) _ _

theorem breaks_int (z : Int) : breaks (dbgInt z) = 0 := by
  unfold dbgInt
  split
  · rw [breaks_cons, breaks_nat]; rfl
  · exact breaks_nat _

theorem length_u32 (n : U32) : (dbgNat n.toNat).length ≤ 10 := length_digits (by decide) 9 _ _ (Nat.lt_of_lt_of_le n.isLt (by decide))

theorem length_u8 (n : Byte) : (dbgNat n.toNat).length ≤ 3 := length_digits (by decide) 2 _ _ (Nat.lt_of_lt_of_le n.toNat_lt (by decide))

theorem length_int {z : Int} (h : z.natAbs < 10 ^ 20) : (dbgInt z).length ≤ 21 := by
  have : (dbgNat z.natAbs).length ≤ 20 := length_digits (by decide) 19 _ _ h
  unfold dbgInt
  split
  · rw [List.length_cons]; omega
  · omega

theorem length_i32 (v : BitVec 32) : (dbgInt v.toInt).length ≤ 21 := by
  refine length_int ?_
  have h1 := BitVec.le_toInt v
  have h2 := BitVec.toInt_lt (x := v)
  omega

theorem length_i64 (v : BitVec 64) : (dbgInt v.toInt).length ≤ 21 := by
  refine length_int ?_
  have h1 := BitVec.le_toInt v
  have h2 := BitVec.toInt_lt (x := v)
  omega

theorem breaks_val (t : Val) : breaks (dbgVal t) = 0 := by cases t <;> simp [dbgVal, text, breaks]
theorem length_val (t : Val) : (dbgVal t).length = 3 := by cases t <;> simp [dbgVal, text]

/-- The name of an index type. -/
def IdxName (s : String) : Prop := Word 6 (text s)

theorem breaks_idx {s : String} (h : IdxName s) (x : Idx) : breaks (dbgIdx s x) = 2 := by
  rw [dbgIdx, breaks_tuple, h.2]
  simp [total, breaks_nat]

theorem length_idx {s : String} (h : IdxName s) (x : Idx) : (dbgIdx s x).length ≤ 25 := by
  have := length_u32 x
  have := h.1
  rw [dbgIdx, length_tuple]
  simp [total, wide, breaks_nat]
  omega

theorem total_map {α β : Type} (f : β → Nat) (g : α → β) : ∀ xs : List α, total f (xs.map g) = total (fun x => f (g x)) xs
  | [] => rfl
  | x :: xs => by rw [List.map_cons, total, total, total_map]

theorem breaks_vals (ts : List Val) : breaks (dbgVals ts) ≤ 2 * ts.length := by
  rw [dbgVals, breaks_items, total_map, Meter.total_const (k := 1) (fun t => by rw [breaks_val])]
  cases ts with
  | nil => simp
  | cons t ts => simp; omega

theorem length_vals (ts : List Val) : (dbgVals ts).length ≤ 3 + 9 * ts.length := by
  rw [dbgVals, length_items, total_map, Meter.total_const (k := 9) (fun t => by rw [wide, breaks_val, length_val])]
  cases ts with
  | nil => simp
  | cons t ts => simp

theorem breaks_ret (t : RetVal) : breaks (dbgRetVal t) ≤ 2 + 2 * t.length := by
  have := breaks_vals t
  rw [dbgRetVal, breaks_tuple]
  simp [total, text, breaks] at *
  omega

theorem length_ret (t : RetVal) : (dbgRetVal t).length ≤ 18 + 17 * t.length := by
  have := breaks_vals t
  have := length_vals t
  rw [dbgRetVal, length_tuple]
  simp [total, text, wide] at *
  omega

/-! ## Instructions -/

theorem breaks_dbgInstr (std : StdText) (i : Instr) : breaks (dbgInstr std i) = if instrFields std i = [] then 0 else 1 + total (fun v => breaks v + 1) (instrFields std i) := by
  have h := (word_instr i).2
  unfold dbgInstr
  cases hf : instrFields std i with
  | nil => rw [if_pos rfl]; exact h
  | cons v vs => rw [breaks_tuple, h, if_neg (by simp)]

theorem length_dbgInstr (std : StdText) (i : Instr) : (dbgInstr std i).length ≤ 20 + total wide (instrFields std i) := by
  have h := (word_instr i).1
  unfold dbgInstr
  cases hf : instrFields std i with
  | nil => rw [dbgTuple]; omega
  | cons v vs => rw [length_tuple]; omega

theorem breaks_expr (std : StdText) (n : String) (hn : breaks (text n) = 0) (e : List Instr) :
    breaks (dbgTuple (text n) [dbgList (dbgInstrs std e)]) ≤ 3 + total (fun v => breaks v + 1) (dbgInstrs std e) := by
  rw [breaks_tuple, hn]
  simp only [total, breaks_items]
  split <;> omega

theorem length_expr (std : StdText) (n : String) (hn : Word 9 (text n)) (e : List Instr) :
    (dbgTuple (text n) [dbgList (dbgInstrs std e)]).length ≤ 25 + total wide (dbgInstrs std e) + 4 * total (fun v => breaks v + 1) (dbgInstrs std e) := by
  have := hn.1
  rw [length_tuple]
  simp only [total, wide_eq, breaks_items, length_items]
  split <;> omega

theorem word_Expr : Word 9 (text "Expr") := by decide +kernel
theorem word_ConstExpr : Word 9 (text "ConstExpr") := by decide +kernel
theorem idx_Label : IdxName "Label" := by unfold IdxName; decide +kernel
theorem idx_Func : IdxName "Func" := by unfold IdxName; decide +kernel
theorem idx_Type : IdxName "Type" := by unfold IdxName; decide +kernel
theorem idx_Table : IdxName "Table" := by unfold IdxName; decide +kernel
theorem idx_Local : IdxName "Local" := by unfold IdxName; decide +kernel
theorem idx_Global : IdxName "Global" := by unfold IdxName; decide +kernel
theorem idx_Mem : IdxName "Mem" := by unfold IdxName; decide +kernel

variable {std : StdText} {n : Nat}

/-- One line for each label of a `br_table` is not enough, three are. -/
theorem breaks_indices {s : String} (hs : IdxName s) (ls : List Idx) : breaks (dbgList (ls.map (dbgIdx s))) ≤ 1 + 3 * ls.length := by
  rw [breaks_items, total_map, Meter.total_const (k := 3) (fun t => by rw [breaks_idx hs])]
  split <;> omega

theorem length_indices {s : String} (hs : IdxName s) (ls : List Idx) : (dbgList (ls.map (dbgIdx s))).length ≤ 3 + 39 * ls.length := by
  have h : total wide (ls.map (dbgIdx s)) ≤ total (fun _ => 39) ls := by
    rw [total_map]
    refine Meter.total_le _ fun x _ => ?_
    have := length_idx hs x
    rw [wide, breaks_idx hs]
    omega
  rw [Meter.total_const (k := 39) (fun _ => rfl)] at h
  rw [length_items]
  split <;> omega

mutual

theorem lines_instr (hF : FloatText n std) : ∀ i : Instr, breaks (dbgInstr std i) + 1 ≤ 13 * bulkI i
  | .block t b => by
    have h := lines_instrs hF b
    have h1 := breaks_ret t
    have h2 := breaks_expr std "Expr" word_Expr.2 b
    rw [breaks_dbgInstr, instrFields, if_neg (by simp), bulkI]
    simp only [total]
    omega
  | .loop t b => by
    have h := lines_instrs hF b
    have h1 := breaks_ret t
    have h2 := breaks_expr std "Expr" word_Expr.2 b
    rw [breaks_dbgInstr, instrFields, if_neg (by simp), bulkI]
    simp only [total]
    omega
  | .ifElse t a b => by
    have h := lines_instrs hF b
    have h' := lines_instrs hF a
    have h1 := breaks_ret t
    have h2 := breaks_expr std "Expr" word_Expr.2 b
    have h3 := breaks_expr std "Expr" word_Expr.2 a
    rw [breaks_dbgInstr, instrFields, if_neg (by simp), bulkI]
    simp only [total]
    omega
  | .brTable ls l => by
    have h1 := breaks_indices idx_Label ls
    have h2 := breaks_idx idx_Label l
    rw [breaks_dbgInstr, instrFields, if_neg (by simp), bulkI]
    simp only [total]
    omega
  | .br l => by simp [breaks_dbgInstr, instrFields, total, bulkI, breaks_idx idx_Label]
  | .brIf l => by simp [breaks_dbgInstr, instrFields, total, bulkI, breaks_idx idx_Label]
  | .call x => by simp [breaks_dbgInstr, instrFields, total, bulkI, breaks_idx idx_Func]
  | .callIndirect x y => by simp [breaks_dbgInstr, instrFields, total, bulkI, breaks_idx idx_Type, breaks_idx idx_Table]
  | .localGet x => by simp [breaks_dbgInstr, instrFields, total, bulkI, breaks_idx idx_Local]
  | .localSet x => by simp [breaks_dbgInstr, instrFields, total, bulkI, breaks_idx idx_Local]
  | .localTee x => by simp [breaks_dbgInstr, instrFields, total, bulkI, breaks_idx idx_Local]
  | .globalGet x => by simp [breaks_dbgInstr, instrFields, total, bulkI, breaks_idx idx_Global]
  | .globalSet x => by simp [breaks_dbgInstr, instrFields, total, bulkI, breaks_idx idx_Global]
  | .load _ a b => by simp [breaks_dbgInstr, instrFields, total, bulkI, breaks_nat]
  | .store _ a b => by simp [breaks_dbgInstr, instrFields, total, bulkI, breaks_nat]
  | .memSize x => by simp [breaks_dbgInstr, instrFields, total, bulkI, breaks_idx idx_Mem]
  | .memGrow x => by simp [breaks_dbgInstr, instrFields, total, bulkI, breaks_idx idx_Mem]
  | .constI32 v => by simp [breaks_dbgInstr, instrFields, total, bulkI, breaks_int]
  | .constI64 v => by simp [breaks_dbgInstr, instrFields, total, bulkI, breaks_int]
  | .constF32 v => by simp [breaks_dbgInstr, instrFields, total, bulkI, breaks_of_not_mem (hF.line32 v)]
  | .constF64 v => by simp [breaks_dbgInstr, instrFields, total, bulkI, breaks_of_not_mem (hF.line64 v)]
  | .unreachable => by simp [breaks_dbgInstr, instrFields, bulkI]
  | .nop => by simp [breaks_dbgInstr, instrFields, bulkI]
  | .elseMark => by simp [breaks_dbgInstr, instrFields, bulkI]
  | .endMark => by simp [breaks_dbgInstr, instrFields, bulkI]
  | .ret => by simp [breaks_dbgInstr, instrFields, bulkI]
  | .drop => by simp [breaks_dbgInstr, instrFields, bulkI]
  | .select => by simp [breaks_dbgInstr, instrFields, bulkI]
  | .num _ => by simp [breaks_dbgInstr, instrFields, bulkI]

theorem lines_instrs (hF : FloatText n std) : ∀ is : List Instr, total (fun v => breaks v + 1) (dbgInstrs std is) ≤ 13 * bulkL is
  | [] => by simp [dbgInstrs, total]
  | i :: is => by
    have h := lines_instr hF i
    have h' := lines_instrs hF is
    unfold dbgInstr at h
    rw [dbgInstrs, bulkL, total]
    omega

end

/-- An instruction that is not a block has a few short fields. -/
theorem wide_leaf {i : Instr} {k c : Nat} (h1 : total wide (instrFields std i) ≤ c) (h2 : breaks (dbgInstr std i) ≤ k) (h : 26 + 4 * k + c ≤ 180 + n) (D : Nat) (hb : 1 ≤ bulkI i) :
    wide (dbgInstr std i) ≤ (180 + n) * bulkI i * (D + 1) := by
  have h0 := length_dbgInstr std i
  have h3 : 180 + n ≤ (180 + n) * bulkI i * (D + 1) :=
    Nat.le_trans (Nat.le_mul_of_pos_right _ hb) (Nat.le_mul_of_pos_right _ (by omega))
  unfold wide
  omega

/-- One more level of nesting. -/
theorem nest_le {b t B D T : Nat} (hb : 180 ≤ b) (h : T ≤ b * B * (D + 1)) : 192 + 33 * t + T + 156 * B ≤ b * (1 + t + B) * (D + 1 + 1) := by
  have e : b * (1 + t + B) * (D + 1 + 1) = b * (1 + t) * D + 2 * (b * (1 + t)) + (b * B * (D + 1) + b * B) := by
    simp only [Nat.mul_add, Nat.add_mul, Nat.mul_one]
    omega
  have h1 : 180 * (1 + t) ≤ b * (1 + t) := Nat.mul_le_mul_right _ hb
  have h2 : 180 * B ≤ b * B := Nat.mul_le_mul_right _ hb
  omega

mutual

theorem wide_instr (hF : FloatText n std) : ∀ (i : Instr) (D : Nat), depthI i ≤ D → wide (dbgInstr std i) ≤ (180 + n) * bulkI i * (D + 1)
  | .block t b, 0, hD => by simp [depthI] at hD
  | .loop t b, 0, hD => by simp [depthI] at hD
  | .ifElse t a b, 0, hD => by simp [depthI] at hD
  | .block t b, D + 1, hD => by
    have h := wide_instrs hF b D (by simp [depthI] at hD; omega)
    have h1 := breaks_ret t
    have h2 := length_ret t
    have h3 := breaks_expr std "Expr" word_Expr.2 b
    have h4 := length_expr std "Expr" word_Expr b
    have h5 := lines_instrs hF b
    have h6 := length_dbgInstr std (.block t b)
    have h7 := breaks_dbgInstr std (.block t b)
    rw [instrFields, if_neg (by simp)] at h7
    rw [instrFields] at h6
    simp only [total, wide] at h6 h7
    refine Nat.le_trans ?_ (nest_le (t := t.length) (by omega) h)
    rw [wide_eq (dbgInstr std (.block t b))]
    omega
  | .loop t b, D + 1, hD => by
    have h := wide_instrs hF b D (by simp [depthI] at hD; omega)
    have h1 := breaks_ret t
    have h2 := length_ret t
    have h3 := breaks_expr std "Expr" word_Expr.2 b
    have h4 := length_expr std "Expr" word_Expr b
    have h5 := lines_instrs hF b
    have h6 := length_dbgInstr std (.loop t b)
    have h7 := breaks_dbgInstr std (.loop t b)
    rw [instrFields, if_neg (by simp)] at h7
    rw [instrFields] at h6
    simp only [total, wide] at h6 h7
    refine Nat.le_trans ?_ (nest_le (t := t.length) (by omega) h)
    rw [wide_eq (dbgInstr std (.loop t b))]
    omega
  | .ifElse t a b, D + 1, hD => by
    have ha := wide_instrs hF a D (by simp [depthI] at hD; omega)
    have hb := wide_instrs hF b D (by simp [depthI] at hD; omega)
    have h1 := breaks_ret t
    have h2 := length_ret t
    have h3 := breaks_expr std "Expr" word_Expr.2 b
    have h4 := length_expr std "Expr" word_Expr b
    have h3' := breaks_expr std "Expr" word_Expr.2 a
    have h4' := length_expr std "Expr" word_Expr a
    have h5 := lines_instrs hF b
    have h5' := lines_instrs hF a
    have h6 := length_dbgInstr std (.ifElse t a b)
    have h7 := breaks_dbgInstr std (.ifElse t a b)
    rw [instrFields, if_neg (by simp)] at h7
    rw [instrFields] at h6
    simp only [total, wide] at h6 h7
    have h : total wide (dbgInstrs std a) + total wide (dbgInstrs std b) ≤ (180 + n) * (bulkL a + bulkL b) * (D + 1) := by
      rw [Nat.mul_add (180 + n), Nat.add_mul]
      exact Nat.add_le_add ha hb
    rw [bulkI, Nat.add_assoc]
    refine Nat.le_trans ?_ (nest_le (t := t.length) (by omega) h)
    rw [wide_eq (dbgInstr std (.ifElse t a b))]
    omega
  | .brTable ls l, D, _ => by
    have h1 := breaks_indices idx_Label ls
    have h2 := length_indices idx_Label ls
    have h3 := breaks_idx idx_Label l
    have h4 := length_idx idx_Label l
    have h6 := length_dbgInstr std (.brTable ls l)
    have h7 := breaks_dbgInstr std (.brTable ls l)
    rw [instrFields, if_neg (by simp)] at h7
    rw [instrFields] at h6
    simp only [total, wide] at h6 h7
    have h8 : 180 * (1 + ls.length) ≤ (180 + n) * (1 + ls.length) := Nat.mul_le_mul_right _ (by omega)
    have h9 : (180 + n) * (1 + ls.length) ≤ (180 + n) * (1 + ls.length) * (D + 1) := Nat.le_mul_of_pos_right _ (by omega)
    rw [bulkI]
    rw [wide_eq (dbgInstr std (.brTable ls l))]
    omega
  | .br l, D, _ => by
    refine wide_leaf (c := 39) (k := 4) ?_ ?_ (by omega) D (by simp [bulkI])
    · simp only [instrFields, total, wide, breaks_idx idx_Label]
      have := length_idx idx_Label l
      omega
    · simp [breaks_dbgInstr, instrFields, total, breaks_idx idx_Label]
  | .brIf l, D, _ => by
    refine wide_leaf (c := 39) (k := 4) ?_ ?_ (by omega) D (by simp [bulkI])
    · simp only [instrFields, total, wide, breaks_idx idx_Label]
      have := length_idx idx_Label l
      omega
    · simp [breaks_dbgInstr, instrFields, total, breaks_idx idx_Label]
  | .call x, D, _ => by
    refine wide_leaf (c := 39) (k := 4) ?_ ?_ (by omega) D (by simp [bulkI])
    · simp only [instrFields, total, wide, breaks_idx idx_Func]
      have := length_idx idx_Func x
      omega
    · simp [breaks_dbgInstr, instrFields, total, breaks_idx idx_Func]
  | .callIndirect x y, D, _ => by
    refine wide_leaf (c := 78) (k := 7) ?_ ?_ (by omega) D (by simp [bulkI])
    · simp only [instrFields, total, wide, breaks_idx idx_Type, breaks_idx idx_Table]
      have := length_idx idx_Type x
      have := length_idx idx_Table y
      omega
    · simp [breaks_dbgInstr, instrFields, total, breaks_idx idx_Type, breaks_idx idx_Table]
  | .localGet x, D, _ => by
    refine wide_leaf (c := 39) (k := 4) ?_ ?_ (by omega) D (by simp [bulkI])
    · simp only [instrFields, total, wide, breaks_idx idx_Local]
      have := length_idx idx_Local x
      omega
    · simp [breaks_dbgInstr, instrFields, total, breaks_idx idx_Local]
  | .localSet x, D, _ => by
    refine wide_leaf (c := 39) (k := 4) ?_ ?_ (by omega) D (by simp [bulkI])
    · simp only [instrFields, total, wide, breaks_idx idx_Local]
      have := length_idx idx_Local x
      omega
    · simp [breaks_dbgInstr, instrFields, total, breaks_idx idx_Local]
  | .localTee x, D, _ => by
    refine wide_leaf (c := 39) (k := 4) ?_ ?_ (by omega) D (by simp [bulkI])
    · simp only [instrFields, total, wide, breaks_idx idx_Local]
      have := length_idx idx_Local x
      omega
    · simp [breaks_dbgInstr, instrFields, total, breaks_idx idx_Local]
  | .globalGet x, D, _ => by
    refine wide_leaf (c := 39) (k := 4) ?_ ?_ (by omega) D (by simp [bulkI])
    · simp only [instrFields, total, wide, breaks_idx idx_Global]
      have := length_idx idx_Global x
      omega
    · simp [breaks_dbgInstr, instrFields, total, breaks_idx idx_Global]
  | .globalSet x, D, _ => by
    refine wide_leaf (c := 39) (k := 4) ?_ ?_ (by omega) D (by simp [bulkI])
    · simp only [instrFields, total, wide, breaks_idx idx_Global]
      have := length_idx idx_Global x
      omega
    · simp [breaks_dbgInstr, instrFields, total, breaks_idx idx_Global]
  | .memSize x, D, _ => by
    refine wide_leaf (c := 39) (k := 4) ?_ ?_ (by omega) D (by simp [bulkI])
    · simp only [instrFields, total, wide, breaks_idx idx_Mem]
      have := length_idx idx_Mem x
      omega
    · simp [breaks_dbgInstr, instrFields, total, breaks_idx idx_Mem]
  | .memGrow x, D, _ => by
    refine wide_leaf (c := 39) (k := 4) ?_ ?_ (by omega) D (by simp [bulkI])
    · simp only [instrFields, total, wide, breaks_idx idx_Mem]
      have := length_idx idx_Mem x
      omega
    · simp [breaks_dbgInstr, instrFields, total, breaks_idx idx_Mem]
  | .load _ a b, D, _ => by
    refine wide_leaf (c := 32) (k := 3) ?_ ?_ (by omega) D (by simp [bulkI])
    · simp only [instrFields, total, wide, breaks_nat]
      have := length_u32 a
      have := length_u32 b
      omega
    · simp [breaks_dbgInstr, instrFields, total, breaks_nat]
  | .store _ a b, D, _ => by
    refine wide_leaf (c := 32) (k := 3) ?_ ?_ (by omega) D (by simp [bulkI])
    · simp only [instrFields, total, wide, breaks_nat]
      have := length_u32 a
      have := length_u32 b
      omega
    · simp [breaks_dbgInstr, instrFields, total, breaks_nat]
  | .constI32 v, D, _ => by
    refine wide_leaf (c := 27) (k := 2) ?_ ?_ (by omega) D (by simp [bulkI])
    · simp only [instrFields, total, wide, breaks_int]
      have := length_i32 v
      omega
    · simp [breaks_dbgInstr, instrFields, total, breaks_int]
  | .constI64 v, D, _ => by
    refine wide_leaf (c := 27) (k := 2) ?_ ?_ (by omega) D (by simp [bulkI])
    · simp only [instrFields, total, wide, breaks_int]
      have := length_i64 v
      omega
    · simp [breaks_dbgInstr, instrFields, total, breaks_int]
  | .constF32 v, D, _ => by
    refine wide_leaf (c := n + 6) (k := 2) ?_ ?_ (by omega) D (by simp [bulkI])
    · simp only [instrFields, total, wide, breaks_of_not_mem (hF.line32 v)]
      have := hF.short32 v
      omega
    · simp [breaks_dbgInstr, instrFields, total, breaks_of_not_mem (hF.line32 v)]
  | .constF64 v, D, _ => by
    refine wide_leaf (c := n + 6) (k := 2) ?_ ?_ (by omega) D (by simp [bulkI])
    · simp only [instrFields, total, wide, breaks_of_not_mem (hF.line64 v)]
      have := hF.short64 v
      omega
    · simp [breaks_dbgInstr, instrFields, total, breaks_of_not_mem (hF.line64 v)]
  | .unreachable, D, _ => wide_leaf (c := 0) (k := 0) (by simp [instrFields, total]) (by simp [breaks_dbgInstr, instrFields]) (by omega) D (by simp [bulkI])
  | .nop, D, _ => wide_leaf (c := 0) (k := 0) (by simp [instrFields, total]) (by simp [breaks_dbgInstr, instrFields]) (by omega) D (by simp [bulkI])
  | .elseMark, D, _ => wide_leaf (c := 0) (k := 0) (by simp [instrFields, total]) (by simp [breaks_dbgInstr, instrFields]) (by omega) D (by simp [bulkI])
  | .endMark, D, _ => wide_leaf (c := 0) (k := 0) (by simp [instrFields, total]) (by simp [breaks_dbgInstr, instrFields]) (by omega) D (by simp [bulkI])
  | .ret, D, _ => wide_leaf (c := 0) (k := 0) (by simp [instrFields, total]) (by simp [breaks_dbgInstr, instrFields]) (by omega) D (by simp [bulkI])
  | .drop, D, _ => wide_leaf (c := 0) (k := 0) (by simp [instrFields, total]) (by simp [breaks_dbgInstr, instrFields]) (by omega) D (by simp [bulkI])
  | .select, D, _ => wide_leaf (c := 0) (k := 0) (by simp [instrFields, total]) (by simp [breaks_dbgInstr, instrFields]) (by omega) D (by simp [bulkI])
  | .num _, D, _ => wide_leaf (c := 0) (k := 0) (by simp [instrFields, total]) (by simp [breaks_dbgInstr, instrFields]) (by omega) D (by simp [bulkI])

theorem wide_instrs (hF : FloatText n std) : ∀ (is : List Instr) (D : Nat), depthL is ≤ D → total wide (dbgInstrs std is) ≤ (180 + n) * bulkL is * (D + 1)
  | [], D, _ => by simp [dbgInstrs, total]
  | i :: is, D, hD => by
    have h := wide_instr hF i D (by simp [depthL] at hD; omega)
    have h' := wide_instrs hF is D (by simp [depthL] at hD; omega)
    unfold dbgInstr at h
    rw [dbgInstrs, bulkL, total, Nat.mul_add (180 + n), Nat.add_mul]
    exact Nat.add_le_add h h'

end

/-! ## Definitions -/

/-- The text of something of size `k`: few lines, and not wide if it is nested to depth `D`. -/
def Thin (n D k : Nat) (v : List Char) : Prop := breaks v + 1 ≤ 15 * k ∧ wide v ≤ (340 + n) * k * (D + 1)

/-- Without expressions. -/
theorem thin_plain {D k : Nat} {v : List Char} (h1 : breaks v + 1 ≤ 15 * k) (h2 : wide v ≤ 340 * k) : Thin n D k v := by
  refine ⟨h1, Nat.le_trans h2 (Nat.le_trans (Nat.mul_le_mul_right _ (Nat.le_add_right 340 n)) (Nat.le_mul_of_pos_right _ (by omega)))⟩

/-- With an expression of size `B`. -/
theorem thin_expr {D k B T : Nat} {v : List Char} (h1 : breaks v + 1 ≤ 15 * (k + B)) (hT : T ≤ (180 + n) * B * (D + 1)) (h2 : wide v ≤ 340 * k + T + 156 * B) :
    Thin n D (k + B) v := by
  refine ⟨h1, ?_⟩
  have e : (340 + n) * (k + B) * (D + 1) = (180 + n) * B * (D + 1) + 160 * B * (D + 1) + (340 + n) * k * (D + 1) := by
    have e1 : (340 + n) * B = (180 + n) * B + 160 * B := by rw [← Nat.add_mul, Nat.add_right_comm]
    rw [Nat.mul_add (340 + n), Nat.add_mul _ _ (D + 1), e1, Nat.add_mul _ _ (D + 1), Nat.add_comm]
  have h3 : 156 * B ≤ 160 * B * (D + 1) := Nat.le_trans (Nat.mul_le_mul_right _ (by omega)) (Nat.le_mul_of_pos_right _ (by omega))
  have h4 : 340 * k ≤ (340 + n) * k * (D + 1) := Nat.le_trans (Nat.mul_le_mul_right _ (by omega)) (Nat.le_mul_of_pos_right _ (by omega))
  omega

theorem thin_list {α : Type} {D : Nat} {pr : α → List Char} {sz : α → Nat} {xs : List α} (h : ∀ x ∈ xs, Thin n D (sz x) (pr x)) :
    breaks (dbgList (xs.map pr)) ≤ 1 + 15 * total sz xs ∧ (dbgList (xs.map pr)).length ≤ 3 + (340 + n) * total sz xs * (D + 1) := by
  have h1 : total (fun v => breaks v + 1) (xs.map pr) ≤ 15 * total sz xs := by
    rw [total_map, Nat.mul_comm, ← Meter.total_mul]
    exact Meter.total_le _ fun x hx => Nat.mul_comm 15 _ ▸ (h x hx).1
  have h2 : total wide (xs.map pr) ≤ (340 + n) * total sz xs * (D + 1) := by
    rw [total_map, Nat.mul_right_comm, Nat.mul_comm, ← Meter.total_mul]
    exact Meter.total_le _ fun x hx => Nat.mul_comm _ (sz x) ▸ Nat.mul_right_comm (340 + n) (sz x) (D + 1) ▸ (h x hx).2
  rw [breaks_items, length_items]
  constructor <;> split <;> omega

theorem thin_funcTy (D : Nat) (t : FuncTy) : Thin n D (1 + t.params.length + t.results.length) (dbgFuncTy t) := by
  have h1 := breaks_vals t.params
  have h2 := breaks_vals t.results
  have h3 := length_vals t.params
  have h4 := length_vals t.results
  have e : breaks (text "Func") = 0 ∧ (text "Func").length = 4 ∧ breaks (text "params") = 0 ∧ (text "params").length = 6 ∧
    breaks (text "results") = 0 ∧ (text "results").length = 7 := by decide +kernel
  obtain ⟨e1, e2, e3, e4, e5, e6⟩ := e
  refine thin_plain ?_ ?_ <;> simp only [dbgFuncTy, wide_eq, breaks_struct, length_struct, total, e1, e2, e3, e4, e5, e6] <;> omega

theorem limits_le (l : Limits) : breaks (dbgLimits l) ≤ 5 ∧ (dbgLimits l).length ≤ 73 := by
  have e : breaks (text "Limits") = 0 ∧ (text "Limits").length = 6 ∧ breaks (text "min") = 0 ∧ (text "min").length = 3 ∧
    breaks (text "max") = 0 ∧ (text "max").length = 3 ∧ breaks (text "None") = 0 ∧ (text "None").length = 4 ∧
    breaks (text "Some") = 0 ∧ (text "Some").length = 4 := by decide +kernel
  obtain ⟨e1, e2, e3, e4, e5, e6, e7, e8, e9, e10⟩ := e
  have h1 := length_u32 l.min
  cases hm : l.max with
  | none =>
    constructor <;> simp only [dbgLimits, hm, Option.map_none, dbgOption, breaks_struct, length_struct, total, breaks_nat, e1, e2, e3, e4, e5, e6, e7, e8] <;> omega
  | some x =>
    have h2 := length_u32 x
    constructor <;> simp only [dbgLimits, hm, Option.map_some, dbgOption, breaks_struct, length_struct, breaks_tuple, length_tuple, wide_eq, total, breaks_nat, e1, e2, e3, e4, e5, e6, e9, e10] <;> omega

theorem tableTy_le (t : TableTy) : breaks (dbgTableTy t) ≤ 8 ∧ (dbgTableTy t).length ≤ 132 := by
  have h := limits_le t.lim
  have e : breaks (text "Table") = 0 ∧ (text "Table").length = 5 ∧ breaks (text "lim") = 0 ∧ (text "lim").length = 3 ∧
    breaks (text "elem") = 0 ∧ (text "elem").length = 4 ∧ breaks (text "FuncRef") = 0 ∧ (text "FuncRef").length = 7 := by decide +kernel
  obtain ⟨e1, e2, e3, e4, e5, e6, e7, e8⟩ := e
  cases t.elem
  constructor <;> simp only [dbgTableTy, dbgElemTy, breaks_struct, length_struct, total, e1, e2, e3, e4, e5, e6, e7, e8] <;> omega

theorem memTy_le (t : MemTy) : breaks (dbgMemTy t) ≤ 7 ∧ (dbgMemTy t).length ≤ 111 := by
  have h := limits_le t.lim
  have e : breaks (text "Mem") = 0 ∧ (text "Mem").length = 3 ∧ breaks (text "lim") = 0 ∧ (text "lim").length = 3 := by decide +kernel
  obtain ⟨e1, e2, e3, e4⟩ := e
  constructor <;> simp only [dbgMemTy, breaks_struct, length_struct, total, e1, e2, e3, e4] <;> omega

theorem globalTy_le (t : GlobalTy) : breaks (dbgGlobalTy t) = 3 ∧ (dbgGlobalTy t).length ≤ 39 := by
  have e : breaks (text "Global") = 0 ∧ (text "Global").length = 6 ∧ breaks (text "mt") = 0 ∧ (text "mt").length = 2 ∧
    breaks (text "val") = 0 ∧ (text "val").length = 3 ∧ breaks (text "Const") = 0 ∧ (text "Const").length = 5 ∧ breaks (text "Var") = 0 ∧ (text "Var").length = 3 := by
    decide +kernel
  obtain ⟨e1, e2, e3, e4, e5, e6, e7, e8, e9, e10⟩ := e
  cases hm : t.mt <;>
    constructor <;> simp only [dbgGlobalTy, hm, dbgMut, breaks_struct, length_struct, total, breaks_val, length_val, e1, e2, e3, e4, e5, e6, e7, e8, e9, e10] <;> omega

theorem thin_table (D : Nat) (t : Table) : Thin n D 1 (dbgTable t) := by
  have h := tableTy_le t.ty
  have e : breaks (text "Table") = 0 ∧ (text "Table").length = 5 ∧ breaks (text "ty") = 0 ∧ (text "ty").length = 2 := by decide +kernel
  obtain ⟨e1, e2, e3, e4⟩ := e
  refine thin_plain ?_ ?_ <;> simp only [dbgTable, wide_eq, breaks_struct, length_struct, total, e1, e2, e3, e4] <;> omega

theorem thin_mem (D : Nat) (t : Mem) : Thin n D 1 (dbgMem t) := by
  have h := memTy_le t.ty
  have e : breaks (text "Mem") = 0 ∧ (text "Mem").length = 3 ∧ breaks (text "ty") = 0 ∧ (text "ty").length = 2 := by decide +kernel
  obtain ⟨e1, e2, e3, e4⟩ := e
  refine thin_plain ?_ ?_ <;> simp only [dbgMem, wide_eq, breaks_struct, length_struct, total, e1, e2, e3, e4] <;> omega

theorem thin_func (hF : FloatText n std) {D : Nat} (f : Func) (hD : depthL f.body ≤ D) : Thin n D (1 + f.locals.length + bulkL f.body) (dbgFunc std f) := by
  have h1 := wide_instrs hF f.body D hD
  have h2 := lines_instrs hF f.body
  have h3 := breaks_expr std "Expr" word_Expr.2 f.body
  have h4 := length_expr std "Expr" word_Expr f.body
  have h5 := breaks_idx idx_Type f.ty
  have h6 := length_idx idx_Type f.ty
  have h7 := breaks_vals f.locals
  have h8 := length_vals f.locals
  have e : breaks (text "Func") = 0 ∧ (text "Func").length = 4 ∧ breaks (text "ty") = 0 ∧ (text "ty").length = 2 ∧
    breaks (text "locals") = 0 ∧ (text "locals").length = 6 ∧ breaks (text "body") = 0 ∧ (text "body").length = 4 := by decide +kernel
  obtain ⟨e1, e2, e3, e4, e5, e6, e7, e8⟩ := e
  refine thin_expr ?_ h1 ?_ <;> simp only [dbgFunc, dbgExpr, wide_eq (dbgStruct _ _), breaks_struct, length_struct, total, e1, e2, e3, e4, e5, e6, e7, e8] <;> omega

theorem thin_global (hF : FloatText n std) {D : Nat} (g : Global) (hD : depthL g.init ≤ D) : Thin n D (1 + bulkL g.init) (dbgGlobal std g) := by
  have h1 := wide_instrs hF g.init D hD
  have h2 := lines_instrs hF g.init
  have h3 := breaks_expr std "ConstExpr" word_ConstExpr.2 g.init
  have h4 := length_expr std "ConstExpr" word_ConstExpr g.init
  have h5 := globalTy_le g.ty
  have e : breaks (text "Global") = 0 ∧ (text "Global").length = 6 ∧ breaks (text "ty") = 0 ∧ (text "ty").length = 2 ∧
    breaks (text "init") = 0 ∧ (text "init").length = 4 := by decide +kernel
  obtain ⟨e1, e2, e3, e4, e5, e6⟩ := e
  refine thin_expr ?_ h1 ?_ <;> simp only [dbgGlobal, dbgConstExpr, wide_eq (dbgStruct _ _), breaks_struct, length_struct, total, e1, e2, e3, e4, e5, e6] <;> omega

theorem thin_elem (hF : FloatText n std) {D : Nat} (g : Elem) (hD : depthL g.offset ≤ D) : Thin n D (1 + bulkL g.offset + g.init.length) (dbgElem std g) := by
  have h1 := wide_instrs hF g.offset D hD
  have h2 := lines_instrs hF g.offset
  have h3 := breaks_expr std "ConstExpr" word_ConstExpr.2 g.offset
  have h4 := length_expr std "ConstExpr" word_ConstExpr g.offset
  have h5 := breaks_idx idx_Table g.table
  have h6 := length_idx idx_Table g.table
  have h7 := breaks_indices idx_Func g.init
  have h8 := length_indices idx_Func g.init
  have e : breaks (text "Elem") = 0 ∧ (text "Elem").length = 4 ∧ breaks (text "table") = 0 ∧ (text "table").length = 5 ∧
    breaks (text "offset") = 0 ∧ (text "offset").length = 6 ∧ breaks (text "init") = 0 ∧ (text "init").length = 4 := by decide +kernel
  obtain ⟨e1, e2, e3, e4, e5, e6, e7, e8⟩ := e
  rw [Nat.add_right_comm]
  refine thin_expr ?_ h1 ?_ <;> simp only [dbgElem, dbgConstExpr, wide_eq (dbgStruct _ _), breaks_struct, length_struct, total, e1, e2, e3, e4, e5, e6, e7, e8] <;> omega

theorem bytes_le (bs : List Byte) : breaks (dbgList (bs.map fun b => dbgNat b.toNat)) ≤ 2 * bs.length ∧ (dbgList (bs.map fun b => dbgNat b.toNat)).length ≤ 3 + 9 * bs.length := by
  have h : total wide (bs.map fun b => dbgNat b.toNat) ≤ 9 * bs.length := by
    rw [total_map, ← Meter.total_const (f := fun _ => 9) (fun _ => rfl) bs]
    refine Meter.total_le _ fun x _ => ?_
    have := length_u8 x
    rw [wide_eq, breaks_nat]
    omega
  have h' : total (fun v => breaks v + 1) (bs.map fun b => dbgNat b.toNat) = 1 * bs.length := by
    rw [total_map]
    exact Meter.total_const (fun b => by rw [breaks_nat]) bs
  rw [breaks_items, length_items, h']
  cases bs with
  | nil => simp [total]
  | cons b bs => simp at h ⊢; omega

theorem thin_data (hF : FloatText n std) {D : Nat} (g : Data) (hD : depthL g.offset ≤ D) : Thin n D (1 + bulkL g.offset + g.init.length) (dbgData std g) := by
  have h1 := wide_instrs hF g.offset D hD
  have h2 := lines_instrs hF g.offset
  have h3 := breaks_expr std "ConstExpr" word_ConstExpr.2 g.offset
  have h4 := length_expr std "ConstExpr" word_ConstExpr g.offset
  have h5 := breaks_idx idx_Mem g.mem
  have h6 := length_idx idx_Mem g.mem
  have h7 := bytes_le g.init
  have e : breaks (text "Data") = 0 ∧ (text "Data").length = 4 ∧ breaks (text "mem") = 0 ∧ (text "mem").length = 3 ∧
    breaks (text "offset") = 0 ∧ (text "offset").length = 6 ∧ breaks (text "init") = 0 ∧ (text "init").length = 4 := by decide +kernel
  obtain ⟨e1, e2, e3, e4, e5, e6, e7, e8⟩ := e
  rw [Nat.add_right_comm]
  refine thin_expr ?_ h1 ?_ <;> simp only [dbgData, dbgConstExpr, wide_eq (dbgStruct _ _), breaks_struct, length_struct, total, e1, e2, e3, e4, e5, e6, e7, e8] <;> omega

/-! ## Names -/

theorem escape_le (std : StdText) (c : Char) : breaks (escapeChar std c) = 0 ∧ (escapeChar std c).length ≤ 10 := by
  unfold escapeChar
  split
  · decide
  split
  · decide
  split
  · decide
  split
  · decide
  split
  · decide
  split
  · decide
  split
  · have h : (digitsOf 16 (c.toNat + 1) c.toNat).length ≤ 6 := length_digits (by decide) 5 _ _ (by
      have := c.valid
      unfold UInt32.isValidChar Nat.isValidChar at this
      unfold Char.toNat
      omega)
    have h1 : breaks ['\\', 'u', '{'] = 0 := rfl
    have h2 : breaks ['}'] = 0 := rfl
    constructor
    · rw [breaks_append, breaks_append, breaks_digits (by decide) (by decide), h1, h2]
    · simp; omega
  · next h _ _ _ => exact ⟨breaks_of_not_mem (by simpa using fun e => h e.symm), by simp⟩

theorem nameChars_length (bs : List Byte) : (nameChars bs).length ≤ bs.length := by
  induction hk : bs.length using Nat.strongRecOn generalizing bs with
  | _ k ih =>
    subst hk
    cases bs with
    | nil => simp [nameChars]
    | cons b rest =>
      unfold nameChars
      split
      · have := ih rest.length (by simp) rest rfl
        simp; omega
      split
      · split
        · next b1 r =>
          have := ih r.length (by simp only [List.length_cons]; omega) r rfl
          simp; omega
        · simp
      split
      · split
        · next b1 b2 r =>
          have := ih r.length (by simp only [List.length_cons]; omega) r rfl
          simp; omega
        · simp
      · split
        · next b1 b2 b3 r =>
          have := ih r.length (by simp only [List.length_cons]; omega) r rfl
          simp; omega
        · simp

theorem name_le (std : StdText) (b : Name) : breaks (dbgName std b) = 0 ∧ (dbgName std b).length ≤ 2 + 10 * b.length := by
  have h : ∀ cs : List Char, breaks (cs.flatMap (escapeChar std)) = 0 ∧ (cs.flatMap (escapeChar std)).length ≤ 10 * cs.length := by
    intro cs
    induction cs with
    | nil => exact ⟨rfl, Nat.le_refl _⟩
    | cons c cs ih =>
      have := escape_le std c
      rw [List.flatMap_cons, breaks_append, List.length_append, List.length_cons]
      omega
  have h1 := h (nameChars b)
  have h2 := nameChars_length b
  have h3 : breaks ['"'] = 0 := rfl
  constructor
  · rw [dbgName, breaks_append, breaks_cons, h1.1, h3]; rfl
  · rw [dbgName, List.length_append, List.length_cons, List.length_singleton]; omega

theorem importDesc_le (d : ImportDesc) : breaks (dbgImportDesc d) ≤ 10 ∧ (dbgImportDesc d).length ≤ 178 := by
  have e : breaks (text "Func") = 0 ∧ (text "Func").length = 4 ∧ breaks (text "Table") = 0 ∧ (text "Table").length = 5 ∧
    breaks (text "Mem") = 0 ∧ (text "Mem").length = 3 ∧ breaks (text "Global") = 0 ∧ (text "Global").length = 6 := by decide +kernel
  obtain ⟨e1, e2, e3, e4, e5, e6, e7, e8⟩ := e
  cases d with
  | func x =>
    have h1 := breaks_idx idx_Type x
    have h2 := length_idx idx_Type x
    constructor <;> simp only [dbgImportDesc, breaks_tuple, length_tuple, total, wide_eq, e1, e2] <;> omega
  | table t =>
    have h1 := tableTy_le t
    constructor <;> simp only [dbgImportDesc, breaks_tuple, length_tuple, total, wide_eq, e3, e4] <;> omega
  | mem t =>
    have h1 := memTy_le t
    constructor <;> simp only [dbgImportDesc, breaks_tuple, length_tuple, total, wide_eq, e5, e6] <;> omega
  | global t =>
    have h1 := globalTy_le t
    constructor <;> simp only [dbgImportDesc, breaks_tuple, length_tuple, total, wide_eq, e7, e8] <;> omega

theorem exportDesc_le (d : ExportDesc) : breaks (dbgExportDesc d) = 4 ∧ (dbgExportDesc d).length ≤ 48 := by
  have e : breaks (text "Func") = 0 ∧ (text "Func").length = 4 ∧ breaks (text "Table") = 0 ∧ (text "Table").length = 5 ∧
    breaks (text "Mem") = 0 ∧ (text "Mem").length = 3 ∧ breaks (text "Global") = 0 ∧ (text "Global").length = 6 := by decide +kernel
  obtain ⟨e1, e2, e3, e4, e5, e6, e7, e8⟩ := e
  cases d with
  | func x =>
    have h1 := breaks_idx idx_Func x
    have h2 := length_idx idx_Func x
    constructor <;> simp only [dbgExportDesc, breaks_tuple, length_tuple, total, wide_eq, e1, e2] <;> omega
  | table x =>
    have h1 := breaks_idx idx_Table x
    have h2 := length_idx idx_Table x
    constructor <;> simp only [dbgExportDesc, breaks_tuple, length_tuple, total, wide_eq, e3, e4] <;> omega
  | mem x =>
    have h1 := breaks_idx idx_Mem x
    have h2 := length_idx idx_Mem x
    constructor <;> simp only [dbgExportDesc, breaks_tuple, length_tuple, total, wide_eq, e5, e6] <;> omega
  | global x =>
    have h1 := breaks_idx idx_Global x
    have h2 := length_idx idx_Global x
    constructor <;> simp only [dbgExportDesc, breaks_tuple, length_tuple, total, wide_eq, e7, e8] <;> omega

theorem thin_import (D : Nat) (i : Import) : Thin n D (1 + (i.module.length + i.name.length)) (dbgImport std i) := by
  have h1 := name_le std i.module
  have h2 := name_le std i.name
  have h3 := importDesc_le i.desc
  have e : breaks (text "Import") = 0 ∧ (text "Import").length = 6 ∧ breaks (text "module") = 0 ∧ (text "module").length = 6 ∧
    breaks (text "name") = 0 ∧ (text "name").length = 4 ∧ breaks (text "desc") = 0 ∧ (text "desc").length = 4 := by decide +kernel
  obtain ⟨e1, e2, e3, e4, e5, e6, e7, e8⟩ := e
  refine thin_plain ?_ ?_ <;> simp only [dbgImport, wide_eq, breaks_struct, length_struct, total, e1, e2, e3, e4, e5, e6, e7, e8] <;> omega

theorem thin_export (D : Nat) (i : Export) : Thin n D (1 + i.name.length) (dbgExport std i) := by
  have h2 := name_le std i.name
  have h3 := exportDesc_le i.desc
  have e : breaks (text "Export") = 0 ∧ (text "Export").length = 6 ∧
    breaks (text "name") = 0 ∧ (text "name").length = 4 ∧ breaks (text "desc") = 0 ∧ (text "desc").length = 4 := by decide +kernel
  obtain ⟨e1, e2, e3, e4, e5, e6⟩ := e
  refine thin_plain ?_ ?_ <;> simp only [dbgExport, wide_eq, breaks_struct, length_struct, total, e1, e2, e3, e4, e5, e6] <;> omega

theorem start_le (s : Option Start) : breaks (dbgOption (s.map dbgStart)) ≤ 6 * s.toList.length ∧ (dbgOption (s.map dbgStart)).length ≤ 4 + 79 * s.toList.length := by
  have e : breaks (text "Start") = 0 ∧ (text "Start").length = 5 ∧ breaks (text "func") = 0 ∧ (text "func").length = 4 ∧
    breaks (text "None") = 0 ∧ (text "None").length = 4 ∧ breaks (text "Some") = 0 ∧ (text "Some").length = 4 := by decide +kernel
  obtain ⟨e1, e2, e3, e4, e5, e6, e7, e8⟩ := e
  cases s with
  | none => exact ⟨Nat.le_of_eq e5, Nat.le_of_eq e6⟩
  | some s =>
    have h1 := breaks_idx idx_Func s.func
    have h2 := length_idx idx_Func s.func
    constructor <;> simp only [Option.map_some, dbgOption, dbgStart, breaks_tuple, length_tuple, breaks_struct, length_struct, total, wide_eq, Option.toList, List.length_cons, List.length_nil,
      e1, e2, e3, e4, e7, e8] <;> omega

/-! ## Modules -/

theorem total_plus {α : Type} (f g : α → Nat) : ∀ xs : List α, total (fun x => f x + g x) xs = total f xs + total g xs
  | [] => rfl
  | x :: xs => by simp only [total, total_plus f g xs]; omega

theorem parts_eq (m : Module) : parts m =
    total (fun t => 1 + t.params.length + t.results.length) m.types + total (fun f => 1 + f.locals.length + bulkL f.body) m.funcs +
    total (fun _ => 1) m.tables + total (fun _ => 1) m.mems + total (fun g => 1 + bulkL g.init) m.globals + total (fun e => 1 + bulkL e.offset + e.init.length) m.elem +
    total (fun d => 1 + bulkL d.offset + d.init.length) m.data + m.start.toList.length + total (fun i => 1 + (i.module.length + i.name.length)) m.imports +
    total (fun e => 1 + e.name.length) m.exports := by
  unfold parts bulk nameBytes dataBytes
  rw [total_plus (fun d : Data => 1 + bulkL d.offset), total_plus (fun _ : Import => 1), total_plus (fun _ : Export => 1), Meter.total_const (f := fun _ : Table => 1) (fun _ => rfl),
    Meter.total_const (f := fun _ : Mem => 1) (fun _ => rfl), Meter.total_const (f := fun _ : Import => 1) (fun _ => rfl), Meter.total_const (f := fun _ : Export => 1) (fun _ => rfl)]
  omega

theorem module_le (hF : FloatText n std) {D : Nat} {m : Module} (hD : NestsAtMost D m) :
    breaks (dbgModule std m) ≤ 15 * parts m + 21 ∧ (dbgModule std m).length ≤ (400 + n) * parts m * (D + 1) + 230 := by
  have h1 := thin_list (n := n) (D := D) (xs := m.types) fun t _ => thin_funcTy D t
  have h2 := thin_list (n := n) (D := D) (xs := m.funcs) fun f hf => thin_func hF f (hD.funcs f hf)
  have h3 := thin_list (n := n) (D := D) (xs := m.tables) fun t _ => thin_table D t
  have h4 := thin_list (n := n) (D := D) (xs := m.mems) fun t _ => thin_mem D t
  have h5 := thin_list (n := n) (D := D) (xs := m.globals) fun f hf => thin_global hF f (hD.globals f hf)
  have h6 := thin_list (n := n) (D := D) (xs := m.elem) fun f hf => thin_elem hF f (hD.elem f hf)
  have h7 := thin_list (n := n) (D := D) (xs := m.data) fun f hf => thin_data hF f (hD.data f hf)
  have h8 := start_le m.start
  have h9 := thin_list (n := n) (D := D) (xs := m.imports) fun t _ => thin_import (std := std) D t
  have h10 := thin_list (n := n) (D := D) (xs := m.exports) fun t _ => thin_export (std := std) D t
  have e : breaks (text "Module") = 0 ∧ (text "Module").length = 6 ∧ breaks (text "types") = 0 ∧ (text "types").length = 5 ∧
    breaks (text "funcs") = 0 ∧ (text "funcs").length = 5 ∧ breaks (text "tables") = 0 ∧ (text "tables").length = 6 ∧
    breaks (text "mems") = 0 ∧ (text "mems").length = 4 ∧ breaks (text "globals") = 0 ∧ (text "globals").length = 7 ∧
    breaks (text "elem") = 0 ∧ (text "elem").length = 4 ∧ breaks (text "data") = 0 ∧ (text "data").length = 4 ∧
    breaks (text "start") = 0 ∧ (text "start").length = 5 ∧ breaks (text "imports") = 0 ∧ (text "imports").length = 7 ∧
    breaks (text "exports") = 0 ∧ (text "exports").length = 7 := by decide +kernel
  obtain ⟨e1, e2, e3, e4, e5, e6, e7, e8, e9, e10, e11, e12, e13, e14, e15, e16, e17, e18, e19, e20, e21, e22⟩ := e
  rw [parts_eq]
  refine ⟨?_, ?_⟩
  · simp only [dbgModule, breaks_struct, total, e1, e3, e5, e7, e9, e11, e13, e15, e17, e19, e21]
    omega
  · simp only [dbgModule, length_struct, total, e2, e3, e4, e5, e6, e7, e8, e9, e10, e11, e12, e13, e14, e15, e16, e17, e18, e19, e20, e21, e22]
    have hk : ∀ k, (400 + n) * k * (D + 1) = (340 + n) * k * (D + 1) + 60 * k * (D + 1) := fun k => by
      rw [← Nat.add_mul, ← Nat.add_mul, Nat.add_right_comm]
    have h60 : ∀ k, 60 * k ≤ 60 * k * (D + 1) := fun k => Nat.le_mul_of_pos_right _ (by omega)
    have hs : ∀ k, 340 * k ≤ (340 + n) * k * (D + 1) := fun k =>
      Nat.le_trans (Nat.mul_le_mul_right _ (Nat.le_add_right 340 n)) (Nat.le_mul_of_pos_right _ (by omega))
    generalize D + 1 = E at *
    generalize 400 + n = c at *
    generalize 340 + n = c' at *
    simp only [Nat.mul_add c, Nat.add_mul _ _ E, hk]
    have g1 := h60 (total (fun t : FuncTy => 1 + t.params.length + t.results.length) m.types)
    have g2 := h60 (total (fun f : Func => 1 + f.locals.length + bulkL f.body) m.funcs)
    have g3 := h60 (total (fun _ => 1) m.tables)
    have g4 := h60 (total (fun _ => 1) m.mems)
    have g5 := h60 (total (fun g : Global => 1 + bulkL g.init) m.globals)
    have g6 := h60 (total (fun e : Elem => 1 + bulkL e.offset + e.init.length) m.elem)
    have g7 := h60 (total (fun d : Data => 1 + bulkL d.offset + d.init.length) m.data)
    have g8 := h60 m.start.toList.length
    have g8' := hs m.start.toList.length
    have g9 := h60 (total (fun i : Import => 1 + (i.module.length + i.name.length)) m.imports)
    have g10 := h60 (total (fun e : Export => 1 + e.name.length) m.exports)
    omega

/-! ## Lower bounds -/

/-- A deep text is long: the lines of the innermost blocks are indented by all others. -/
def Long (d : Nat) (v : List Char) : Prop := 9 * d ≤ breaks v + 2 ∧ 54 * d * d ≤ v.length

theorem total_ge {f : List Char → Nat} {v : List Char} : ∀ {vs : List (List Char)}, v ∈ vs → f v ≤ total f vs
  | w :: ws, h => by
    rw [total]
    cases h with
    | head => omega
    | tail _ h => have := total_ge (f := f) h; omega

/-- What is needed of the body of a block. -/
def LongBody (d : Nat) (v : List Char) : Prop := 9 * d + 2 ≤ breaks v ∧ 54 * d * d + 72 * d + 4 ≤ v.length

theorem long_expr {d : Nat} {v : List Char} {vs : List (List Char)} (h : v ∈ vs) (hv : Long d v) : LongBody d (dbgTuple (text "Expr") [dbgList vs]) := by
  have h1 := total_ge (f := fun v => breaks v + 1) h
  have h2 := total_ge (f := wide) h
  rw [wide_eq] at h2
  have h3 := hv.1
  have h4 := hv.2
  have hn : vs ≠ [] := by rintro rfl; cases h
  have e := word_Expr.2
  have e' : (text "Expr").length = 4 := by decide +kernel
  unfold LongBody
  rw [breaks_tuple, length_tuple, e, e']
  simp only [total, wide_eq (dbgList vs), breaks_items, length_items, if_neg hn]
  omega

theorem long_empty : LongBody 0 (dbgTuple (text "Expr") [dbgList []]) := by
  unfold LongBody
  decide +kernel

theorem ret_ge (t : RetVal) : 2 ≤ breaks (dbgRetVal t) ∧ 17 ≤ (dbgRetVal t).length := by
  have e : (text "RetVal").length = 6 := by decide +kernel
  rw [dbgRetVal, breaks_tuple, length_tuple, e]
  simp only [total, wide_eq, dbgVals, length_items]
  split <;> omega

theorem square (d : Nat) : 54 * (1 + d) * (1 + d) = 54 * d * d + 108 * d + 54 := by
  simp only [Nat.mul_add, Nat.add_mul, Nat.mul_one]
  omega

/-- A block around a deep body. -/
theorem long_block {d : Nat} {i : Instr} {t : RetVal} {e : List Char} {pre post : List (List Char)} (hn : 2 ≤ (text (instrName i)).length)
    (hf : instrFields std i = dbgRetVal t :: pre ++ e :: post) (he : LongBody d e) : Long (1 + d) (dbgInstr std i) := by
  have hr := ret_ge t
  have hl : ∀ f : List Char → Nat, f (dbgRetVal t) + f e ≤ total f (dbgRetVal t :: pre ++ e :: post) := fun f => by
    have := total_ge (f := f) (v := e) (vs := pre ++ e :: post) (by simp)
    rw [List.cons_append, total]
    omega
  have h1 := hl fun v => breaks v + 1
  have h2 := hl wide
  have h3 : (dbgInstr std i).length = (text (instrName i)).length + 3 + total wide (dbgRetVal t :: pre ++ e :: post) := by
    unfold dbgInstr; rw [hf, List.cons_append, length_tuple]
  have h4 : breaks (dbgInstr std i) = 1 + total (fun v => breaks v + 1) (dbgRetVal t :: pre ++ e :: post) := by
    rw [breaks_dbgInstr, hf, if_neg (by simp)]
  rw [wide_eq, wide_eq] at h2
  unfold LongBody at he
  unfold Long
  rw [square]
  omega

theorem long_zero (v : List Char) : Long 0 v := ⟨by omega, by omega⟩

/-- A body with the text of a deep instruction. -/
theorem body_of {b : List Instr} (h : b = [] ∨ ∃ v ∈ dbgInstrs std b, Long (depthL b) v) : LongBody (depthL b) (dbgTuple (text "Expr") [dbgList (dbgInstrs std b)]) := by
  rcases h with rfl | ⟨v, hv, hl⟩
  · exact long_empty
  · exact long_expr hv hl

mutual

theorem long_instr : ∀ i : Instr, Long (depthI i) (dbgInstr std i)
  | .block t b => long_block (pre := []) (post := []) (by show 2 ≤ (text "Block").length; decide +kernel) rfl (body_of (long_instrs b))
  | .loop t b => long_block (pre := []) (post := []) (by show 2 ≤ (text "Loop").length; decide +kernel) rfl (body_of (long_instrs b))
  | .ifElse t a b => by
    have hn : 2 ≤ (text (instrName (.ifElse t a b))).length := by show 2 ≤ (text "If").length; decide +kernel
    have ha := body_of (std := std) (long_instrs a)
    have hb := body_of (std := std) (long_instrs b)
    rw [depthI]
    rcases Nat.le_total (depthL b) (depthL a) with h | h
    · rw [Nat.max_eq_left h]
      exact long_block (pre := []) hn rfl ha
    · rw [Nat.max_eq_right h]
      exact long_block (pre := [_]) (post := []) hn rfl hb
  | .brTable _ _ => long_zero _
  | .br _ => long_zero _
  | .brIf _ => long_zero _
  | .call _ => long_zero _
  | .callIndirect _ _ => long_zero _
  | .localGet _ => long_zero _
  | .localSet _ => long_zero _
  | .localTee _ => long_zero _
  | .globalGet _ => long_zero _
  | .globalSet _ => long_zero _
  | .load _ _ _ => long_zero _
  | .store _ _ _ => long_zero _
  | .memSize _ => long_zero _
  | .memGrow _ => long_zero _
  | .constI32 _ => long_zero _
  | .constI64 _ => long_zero _
  | .constF32 _ => long_zero _
  | .constF64 _ => long_zero _
  | .unreachable => long_zero _
  | .nop => long_zero _
  | .elseMark => long_zero _
  | .endMark => long_zero _
  | .ret => long_zero _
  | .drop => long_zero _
  | .select => long_zero _
  | .num _ => long_zero _

theorem long_instrs : ∀ is : List Instr, is = [] ∨ ∃ v ∈ dbgInstrs std is, Long (depthL is) v
  | [] => .inl rfl
  | i :: is => by
    have hi := long_instr i
    refine .inr ?_
    rw [depthL, dbgInstrs]
    rcases Nat.le_total (depthL is) (depthI i) with h | h
    · rw [Nat.max_eq_left h]
      exact ⟨_, .head _, hi⟩
    · rw [Nat.max_eq_right h]
      rcases long_instrs is with rfl | ⟨v, hv, hl⟩
      · exact ⟨_, .head _, long_zero _⟩
      · exact ⟨v, .tail _ hv, hl⟩

end

theorem long_module {m : Module} {f : Func} (hf : f ∈ m.funcs) : 54 * depthL f.body * depthL f.body ≤ (dbgModule std m).length := by
  have h1 : LongBody (depthL f.body) (dbgExpr std f.body) := body_of (long_instrs f.body)
  have h2 : (dbgExpr std f.body).length ≤ (dbgFunc std f).length := by
    rw [dbgFunc, length_struct]; simp only [total]; omega
  have h3 := total_ge (f := wide) (List.mem_map_of_mem (f := dbgFunc std) hf)
  have h4 : total wide (m.funcs.map (dbgFunc std)) ≤ (dbgList (m.funcs.map (dbgFunc std))).length := by rw [length_items]; omega
  have h5 : (dbgList (m.funcs.map (dbgFunc std))).length ≤ (dbgModule std m).length := by
    rw [dbgModule, length_struct]; simp only [total]; omega
  rw [wide_eq] at h3
  have := h1.2
  omega

/-! ## Parts and bytes -/

/-- The bytes of names and data are in the encoding. -/
theorem payload_length (m : Module) : nameBytes m + dataBytes m ≤ (encModule m).length := by
  have hb : ∀ bs : List Byte, bs.length ≤ (encVec encByte bs).length := fun bs => by
    have := encVec_length (enc := encByte) (k := 1) (fun x => by simp [encByte]) bs
    omega
  have h2 : total (fun i : Import => i.module.length + i.name.length) m.imports ≤ (encSection 0x02 m.imports (contents m).imports).length := by
    refine section_length (Nat.le_trans (Meter.total_le m.imports fun i _ => ?_) (Nat.le_trans (Nat.le_succ _) (encVec_total encImport m.imports))) (by rintro h; rw [h]; rfl)
    have h1 := hb i.module
    have h2 := hb i.name
    unfold encImport encName
    rw [List.length_append, List.length_append]
    omega
  have h7 : total (fun i : Export => i.name.length) m.exports ≤ (encSection 0x07 m.exports (contents m).exports).length := by
    refine section_length (Nat.le_trans (Meter.total_le m.exports fun i _ => ?_) (Nat.le_trans (Nat.le_succ _) (encVec_total encExport m.exports))) (by rintro h; rw [h]; rfl)
    have h1 := hb i.name
    unfold encExport encName
    rw [List.length_append]
    omega
  have h11 : total (fun d : Data => d.init.length) m.data ≤ (encSection 0x0B m.data (contents m).data).length := by
    refine section_length (Nat.le_trans (Meter.total_le m.data fun i _ => ?_) (Nat.le_trans (Nat.le_succ _) (encVec_total encData m.data))) (by rintro h; rw [h]; rfl)
    have h1 := hb i.init
    unfold encData
    rw [List.length_append, List.length_append]
    omega
  unfold nameBytes dataBytes encModule
  dsimp only
  simp only [List.length_append]
  omega

end Whasm.Printed
