import Verif.Model.Debug
import Verif.Spec.Show
import Verif.Spec.Printed
import Verif.Lemmas.DebugInstr

/-!
# The printed text against its description by depths
-/

namespace Whasm.Shown
open Spec Spec.Show

/-! ## Indentation -/

/-- The text at depth `d`. -/
def shift (d : Nat) (t : List Char) : List Char := t.flatMap fun c => if c = '\n' then '\n' :: indent d else [c]

theorem shift_nil (d : Nat) : shift d [] = [] := rfl

theorem shift_append (d : Nat) (a b : List Char) : shift d (a ++ b) = shift d a ++ shift d b := List.flatMap_append ..

theorem shift_cons (d : Nat) (c : Char) (t : List Char) : shift d (c :: t) = (if c = '\n' then '\n' :: indent d else [c]) ++ shift d t := rfl

theorem shift_line (d : Nat) {t : List Char} (h : '\n' ∉ t) : shift d t = t := by
  induction t with
  | nil => rfl
  | cons c t ih =>
    rw [List.mem_cons, not_or] at h
    rw [shift_cons, if_neg (Ne.symm h.1), ih h.2]; rfl

theorem shift_zero (t : List Char) : shift 0 t = t := by
  induction t with
  | nil => rfl
  | cons c t ih =>
    rw [shift_cons, ih]
    split
    · next h => rw [h]; rfl
    · rfl

theorem indent_succ (d : Nat) : indent (d + 1) = indent d ++ indent 1 := by
  unfold indent
  rw [List.replicate_append_replicate, Nat.mul_add]

theorem nl_indent (d : Nat) : '\n' ∉ indent d := by
  unfold indent
  intro h
  exact absurd (List.eq_of_mem_replicate h) (by decide)

theorem shift_shift (d : Nat) (t : List Char) : shift d (shift 1 t) = shift (d + 1) t := by
  induction t with
  | nil => rfl
  | cons c t ih =>
    rw [shift_cons, shift_append, ih, shift_cons]
    congr 1
    split
    · rw [shift_cons, if_pos rfl, shift_line d (nl_indent 1), indent_succ d]; rfl
    · next h => exact shift_line d (by simpa using Ne.symm h)

theorem pad_shift (v : List Char) : ∀ q : Bool, pad q (v ++ [',', '\n']) = (if q then indent 1 else []) ++ shift 1 v ++ [',', '\n'] := by
  induction v with
  | nil => intro q; cases q <;> rfl
  | cons c v ih =>
    intro q
    rw [List.cons_append, pad, ih, shift_cons]
    by_cases hc : c = '\n'
    · subst hc
      cases q <;> simp [indent, List.replicate]
    · have : (c == '\n') = false := by simpa using hc
      rw [this, if_neg hc]
      cases q <;> simp [indent, List.replicate]

theorem field_shift (v : List Char) : dbgField v = indent 1 ++ shift 1 v ++ [',', '\n'] := by
  unfold dbgField; rw [pad_shift]; rfl

/-! ## Layouts -/

/-- The text at any depth is as described. -/
def Is (t : List Char) (L : Layout) : Prop := ∀ d, shift d t = L d

theorem is_word {t : List Char} (h : '\n' ∉ t) : Is t (word t) := fun d => shift_line d h

/-- Fields and their description. -/
def Are : List (List Char) → List (String × Layout) → Prop
  | [], [] => True
  | v :: vs, (l, L) :: xs => (∀ d, shift d v = l.toList ++ L d) ∧ Are vs xs
  | _, _ => False

theorem shift_fields (d : Nat) : ∀ {vs : List (List Char)} {xs : List (String × Layout)}, Are vs xs →
    indent d ++ shift d (vs.flatMap dbgField) = xs.flatMap (fun item => indent (d + 1) ++ item.1.toList ++ item.2 (d + 1) ++ [',', '\n']) ++ indent d
  | [], [], _ => by simp [shift]
  | v :: vs, (l, L) :: xs, h => by
    have ih := shift_fields d h.2
    rw [List.flatMap_cons, List.flatMap_cons, shift_append, field_shift, shift_append, shift_append, shift_line d (nl_indent 1), shift_shift, h.1 (d + 1)]
    have h2 : shift d [',', '\n'] = [',', '\n'] ++ indent d := by simp [shift]
    rw [h2, List.append_assoc _ (xs.flatMap _), ← ih, indent_succ d]
    simp

theorem is_bracket {vs : List (List Char)} {xs : List (String × Layout)} (h : Are vs xs) {opening closing : String} (ho : '\n' ∉ opening.toList)
    (hc : '\n' ∉ closing.toList) : Is (opening.toList ++ ['\n'] ++ vs.flatMap dbgField ++ closing.toList) (bracket opening xs closing) := by
  intro d
  unfold bracket
  rw [shift_append, shift_append, shift_append, shift_line d ho, shift_line d hc]
  have := shift_fields d h
  have h1 : shift d ['\n'] = ['\n'] ++ indent d := by simp [shift]
  rw [h1]
  simp only [List.append_assoc] at this ⊢
  rw [← List.append_assoc (indent d), this]
  simp

theorem nl_text {s : String} (h : '\n' ∉ s.toList) : '\n' ∉ text s := by unfold text; exact h

theorem is_text {s : String} (h : '\n' ∉ s.toList) : Is (text s) (word s.toList) := by
  unfold text; exact is_word h

theorem are_label {l : String} (h : '\n' ∉ l.toList) {t : List Char} {L : Layout} (ht : Is t L) :
    ∀ d, shift d (text l ++ [':', ' '] ++ t) = (l ++ ": ").toList ++ L d := by
  intro d
  rw [shift_append, shift_append, shift_line d (nl_text h), shift_line d (by decide), ht d]
  unfold text
  simp

/-- Named fields and their description. -/
def Named : List (List Char × List Char) → List (String × Layout) → Prop
  | [], [] => True
  | (n, v) :: vs, (l, L) :: xs => (n = text l ∧ '\n' ∉ l.toList ∧ Is v L) ∧ Named vs xs
  | _, _ => False

theorem named_are : ∀ {vs : List (List Char × List Char)} {xs : List (String × Layout)}, Named vs xs →
    Are (vs.map fun f => f.1 ++ [':', ' '] ++ f.2) (xs.map fun f => (f.1 ++ ": ", f.2))
  | [], [], _ => trivial
  | (n, v) :: vs, (l, L) :: xs, h => by
    refine ⟨?_, named_are h.2⟩
    obtain ⟨⟨rfl, h2, h3⟩, _⟩ := h
    exact are_label h2 h3

theorem is_record {name : String} (hn : '\n' ∉ name.toList) {vs : List (List Char × List Char)} {xs : List (String × Layout)} (h : Named vs xs) :
    Is (dbgStruct (text name) vs) (record name xs) := by
  have h1 := is_bracket (named_are h) (opening := name ++ " {") (closing := "}") (by simpa using hn) (by decide)
  have h2 : dbgStruct (text name) vs = (name ++ " {").toList ++ ['\n'] ++ (vs.map fun f => f.1 ++ [':', ' '] ++ f.2).flatMap dbgField ++ "}".toList := by
    unfold dbgStruct text
    rw [List.flatMap_map]
    simp
  rw [h2]
  exact h1

/-- Fields by position. -/
def Each : List (List Char) → List Layout → Prop
  | [], [] => True
  | v :: vs, L :: xs => Is v L ∧ Each vs xs
  | _, _ => False

theorem each_are : ∀ {vs : List (List Char)} {xs : List Layout}, Each vs xs → Are vs (xs.map fun f => ("", f))
  | [], [], _ => trivial
  | _ :: _, _ :: _, h => ⟨fun d => h.1 d, each_are h.2⟩

theorem each_map {α : Type} {f : α → List Char} {g : α → Layout} (h : ∀ x, Is (f x) (g x)) : ∀ xs : List α, Each (xs.map f) (xs.map g)
  | [] => trivial
  | x :: xs => ⟨h x, each_map h xs⟩

theorem each_map_mem {α : Type} {f : α → List Char} {g : α → Layout} : ∀ xs : List α, (∀ x ∈ xs, Is (f x) (g x)) → Each (xs.map f) (xs.map g)
  | [], _ => trivial
  | x :: xs, h => ⟨h x (by simp), each_map_mem xs fun y hy => h y (by simp [hy])⟩

theorem is_tuple {name : String} (hn : '\n' ∉ name.toList) {vs : List (List Char)} {xs : List Layout} (h : Each vs xs) :
    Is (dbgTuple (text name) vs) (tuple name xs) := by
  cases vs with
  | nil =>
    cases xs with
    | nil => exact is_text hn
    | cons => exact h.elim
  | cons v vs =>
    cases xs with
    | nil => exact h.elim
    | cons L xs =>
      have h1 := is_bracket (each_are h) (opening := name ++ "(") (closing := ")") (by simpa using hn) (by decide)
      have h2 : dbgTuple (text name) (v :: vs) = (name ++ "(").toList ++ ['\n'] ++ (v :: vs).flatMap dbgField ++ ")".toList := by
        unfold dbgTuple text
        simp
      rw [h2]
      exact h1

theorem is_list {vs : List (List Char)} {xs : List Layout} (h : Each vs xs) : Is (dbgList vs) (Show.list xs) := by
  cases vs with
  | nil =>
    cases xs with
    | nil => exact is_word (by decide)
    | cons => exact h.elim
  | cons v vs =>
    cases xs with
    | nil => exact h.elim
    | cons L xs => exact is_bracket (each_are h) (opening := "[") (closing := "]") (by decide) (by decide)

theorem is_option {α : Type} {f : α → List Char} {g : α → Layout} (h : ∀ x, Is (f x) (g x)) : ∀ x : Option α,
    Is (dbgOption (x.map f)) (option (x.map g))
  | none => is_text (by decide)
  | some x => is_tuple (name := "Some") (vs := [f x]) (xs := [g x]) (by decide) ⟨h x, trivial⟩

/-! ## Numbers -/

theorem lowDigit_eq {n : Nat} (h : n < 16) : lowDigit n = n.digitChar := by
  have : ∀ n : Fin 16, lowDigit n = (n : Nat).digitChar := by decide
  exact this ⟨n, h⟩

theorem digits_eq {base : Nat} (hb : 1 < base) (hb16 : base ≤ 16) : ∀ fuel n : Nat, n < fuel → digitsOf base fuel n = Nat.toDigits base n
  | 0, _, h => by omega
  | fuel + 1, n, h => by
    rw [digitsOf, Nat.toDigits_eq_if hb]
    by_cases hn : n < base
    · rw [if_pos hn, if_pos hn, lowDigit_eq (by omega)]
    · have h1 : n / base < n := Nat.div_lt_self (by omega) hb
      have h2 : n % base < base := Nat.mod_lt _ (by omega)
      rw [if_neg hn, if_neg hn, digits_eq hb hb16 fuel _ (by omega), lowDigit_eq (by omega)]

theorem nat_eq (n : Nat) : dbgNat n = (toString n).toList := by
  show digitsOf 10 (n + 1) n = (Nat.repr n).toList
  rw [digits_eq (by omega) (by omega) _ _ (by omega), Nat.toList_repr]

theorem nl_digits (n : Nat) : '\n' ∉ Nat.toDigits 10 n := fun h => absurd (Nat.isDigit_of_mem_toDigits (by omega) (by omega) h) (by decide)

theorem nl_nat (n : Nat) : '\n' ∉ dbgNat n := by
  rw [nat_eq]
  show '\n' ∉ (Nat.repr n).toList
  rw [Nat.toList_repr]
  exact nl_digits n

theorem is_nat (n : Nat) : Is (dbgNat n) (nat n) := by
  have := is_word (nl_nat n)
  unfold nat
  rw [← nat_eq]; exact this

theorem int_eq (z : Int) : dbgInt z = (toString z).toList := by
  unfold dbgInt
  rw [Int.toString_eq_repr, Int.repr_eq_if]
  cases z with
  | ofNat n => simp [nat_eq]
  | negSucc n => simp [nat_eq]

theorem is_int (z : Int) : Is (dbgInt z) (int z) := by
  have : '\n' ∉ dbgInt z := by
    unfold dbgInt
    split
    · simp [nl_nat]
    · exact nl_nat _
  have := is_word this
  unfold int
  rw [← int_eq]; exact this

/-! ## Names -/

theorem hexDigits (n : Nat) : digitsOf 16 (n + 1) n = Nat.toDigits 16 n := digits_eq (by omega) (by omega) _ _ (by omega)

theorem escape_eq (std : StdText) (c : Char) : escapeChar std c = escaped std c := by
  unfold escapeChar escaped
  rw [hexDigits]
  by_cases h1 : c = '\x00'
  · subst h1; rfl
  by_cases h2 : c = '\t'
  · subst h2; rfl
  by_cases h3 : c = '\r'
  · subst h3; rfl
  by_cases h4 : c = '\n'
  · subst h4; rfl
  by_cases h5 : c = '"'
  · subst h5; rfl
  by_cases h6 : c = '\\'
  · subst h6; rfl
  have e : ∀ d : Char, ¬ c = d → (c == d) = false := fun d h => by simpa using h
  simp only [List.lookup, e _ h1, e _ h2, e _ h3, e _ h4, e _ h5, e _ h6, if_neg h1, if_neg h2, if_neg h3, if_neg h4, if_neg h5, if_neg h6]
  rfl

theorem nl_hex : ∀ fuel n, '\n' ∉ digitsOf 16 fuel n
  | 0, _ => by simp [digitsOf]
  | fuel + 1, n => by
    have key : ∀ k : Fin 16, '\n' ≠ lowDigit k := by decide
    unfold digitsOf
    split
    · next h => simpa using key ⟨n, h⟩
    · rw [List.mem_append, not_or]
      exact ⟨nl_hex fuel _, by simpa using key ⟨n % 16, by omega⟩⟩

theorem nl_escape (std : StdText) (c : Char) : '\n' ∉ escapeChar std c := by
  unfold escapeChar
  by_cases h4 : c = '\n'
  · subst h4
    rw [if_neg (by decide), if_neg (by decide), if_neg (by decide), if_pos rfl]; decide
  rw [if_neg h4]
  split
  · decide
  split
  · decide
  split
  · decide
  split
  · decide
  split
  · decide
  split
  · rw [List.mem_append, List.mem_append, not_or, not_or]; exact ⟨⟨by decide, nl_hex _ _⟩, by decide⟩
  · rw [List.mem_singleton]; exact Ne.symm h4

theorem is_name (std : StdText) {chars : Name → List Char} (hc : ∀ cs : List Char, chars (cs.flatMap String.utf8EncodeChar) = cs) {n : Name} (hn : IsUtf8 n) :
    Is (dbgName std n) (quoted std (chars n)) := by
  obtain ⟨cs, rfl⟩ := hn
  have h1 : dbgName std (cs.flatMap String.utf8EncodeChar) = "\"".toList ++ cs.flatMap (escaped std) ++ "\"".toList := by
    unfold dbgName
    rw [nameChars_flatMap, funext (escape_eq std)]; rfl
  unfold quoted
  rw [hc, ← h1]
  refine is_word ?_
  unfold dbgName
  simp [nl_escape]

/-! ## Types -/

theorem is_val (v : Val) : Is (dbgVal v) (val v) := by cases v <;> exact is_text (by decide)

theorem is_vals (ts : List Val) : Is (dbgVals ts) (vals ts) := is_list (each_map is_val ts)

theorem is_retVal (t : RetVal) : Is (dbgRetVal t) (retVal t) := is_tuple (by decide) ⟨is_vals t, trivial⟩

theorem is_limits (l : Limits) : Is (dbgLimits l) (limits l) :=
  is_record (by decide) ⟨⟨rfl, by decide, is_nat _⟩, ⟨rfl, by decide, is_option (fun n => is_nat n.toNat) l.max⟩, trivial⟩

theorem is_elemTy : ∀ t : ElemTy, Is (dbgElemTy t) (elemTy t)
  | .funcRef => is_text (by decide)

theorem is_mut : ∀ t : Mut, Is (dbgMut t) (mutability t)
  | .const => is_text (by decide)
  | .var => is_text (by decide)

theorem is_funcTy (t : FuncTy) : Is (dbgFuncTy t) (funcTy t) :=
  is_record (by decide) ⟨⟨rfl, by decide, is_vals _⟩, ⟨rfl, by decide, is_vals _⟩, trivial⟩

theorem is_tableTy (t : TableTy) : Is (dbgTableTy t) (tableTy t) :=
  is_record (by decide) ⟨⟨rfl, by decide, is_limits _⟩, ⟨rfl, by decide, is_elemTy _⟩, trivial⟩

theorem is_memTy (t : MemTy) : Is (dbgMemTy t) (memTy t) := is_record (by decide) ⟨⟨rfl, by decide, is_limits _⟩, trivial⟩

theorem is_globalTy (t : GlobalTy) : Is (dbgGlobalTy t) (globalTy t) :=
  is_record (by decide) ⟨⟨rfl, by decide, is_mut _⟩, ⟨rfl, by decide, is_val _⟩, trivial⟩

theorem is_idx {name : String} (h : '\n' ∉ name.toList) (x : Idx) : Is (dbgIdx name x) (idx name x) := is_tuple h ⟨is_nat _, trivial⟩

/-! ## Instructions -/

theorem title_eq (i : Instr) : instrName i = title (mnemonic i) := by
  cases i with
  | load op _ _ => simp only [instrName, mnemonic]; cases op <;> decide +kernel
  | store op _ _ => simp only [instrName, mnemonic]; cases op <;> decide +kernel
  | num op => simp only [instrName, mnemonic]; cases op <;> decide +kernel
  | _ => simp only [instrName, mnemonic]; decide +kernel

theorem nl_title (i : Instr) : '\n' ∉ (instrName i).toList := by
  cases i with
  | load op _ _ => simp only [instrName]; cases op <;> decide +kernel
  | store op _ _ => simp only [instrName]; cases op <;> decide +kernel
  | num op => simp only [instrName]; cases op <;> decide +kernel
  | _ => simp only [instrName]; decide +kernel

section
variable {std : StdText} (h32 : ∀ v, '\n' ∉ std.f32 v) (h64 : ∀ v, '\n' ∉ std.f64 v)
include h32 h64

mutual

theorem each_fields : ∀ i : Instr, Each (instrFields std i) (immediates std i)
  | .block t b => ⟨is_retVal t, is_tuple (by decide) ⟨is_list (each_instrs b), trivial⟩, trivial⟩
  | .loop t b => ⟨is_retVal t, is_tuple (by decide) ⟨is_list (each_instrs b), trivial⟩, trivial⟩
  | .ifElse t a b => ⟨is_retVal t, is_tuple (by decide) ⟨is_list (each_instrs a), trivial⟩, is_tuple (by decide) ⟨is_list (each_instrs b), trivial⟩, trivial⟩
  | .br l => ⟨is_idx (by decide) l, trivial⟩
  | .brIf l => ⟨is_idx (by decide) l, trivial⟩
  | .brTable ls l => ⟨is_list (each_map (fun x => is_idx (by decide) x) ls), is_idx (by decide) l, trivial⟩
  | .call x => ⟨is_idx (by decide) x, trivial⟩
  | .callIndirect x y => ⟨is_idx (by decide) x, is_idx (by decide) y, trivial⟩
  | .localGet x => ⟨is_idx (by decide) x, trivial⟩
  | .localSet x => ⟨is_idx (by decide) x, trivial⟩
  | .localTee x => ⟨is_idx (by decide) x, trivial⟩
  | .globalGet x => ⟨is_idx (by decide) x, trivial⟩
  | .globalSet x => ⟨is_idx (by decide) x, trivial⟩
  | .load _ a b => ⟨is_nat _, is_nat _, trivial⟩
  | .store _ a b => ⟨is_nat _, is_nat _, trivial⟩
  | .memSize x => ⟨is_idx (by decide) x, trivial⟩
  | .memGrow x => ⟨is_idx (by decide) x, trivial⟩
  | .constI32 v => ⟨is_int _, trivial⟩
  | .constI64 v => ⟨is_int _, trivial⟩
  | .constF32 v => ⟨is_word (h32 v), trivial⟩
  | .constF64 v => ⟨is_word (h64 v), trivial⟩
  | .unreachable => trivial
  | .nop => trivial
  | .elseMark => trivial
  | .endMark => trivial
  | .ret => trivial
  | .drop => trivial
  | .select => trivial
  | .num _ => trivial

theorem each_instrs : ∀ is : List Instr, Each (dbgInstrs std is) (instrs std is)
  | [] => trivial
  | i :: is => by
    refine ⟨?_, each_instrs is⟩
    rw [← title_eq]
    exact is_tuple (nl_title i) (each_fields i)

end

theorem is_expr (e : Expr) : Is (dbgExpr std e) (expr std e) := is_tuple (by decide) ⟨is_list (each_instrs h32 h64 e), trivial⟩

theorem is_constExpr (e : ConstExpr) : Is (dbgConstExpr std e) (constExpr std e) := is_tuple (by decide) ⟨is_list (each_instrs h32 h64 e), trivial⟩

/-! ## Modules -/

theorem is_func (f : Func) : Is (dbgFunc std f) (func std f) :=
  is_record (by decide) ⟨⟨rfl, by decide, is_idx (by decide) _⟩, ⟨rfl, by decide, is_vals _⟩, ⟨rfl, by decide, is_expr h32 h64 _⟩, trivial⟩

omit h32 h64 in
theorem is_table (t : Table) : Is (dbgTable t) (table t) := is_record (by decide) ⟨⟨rfl, by decide, is_tableTy _⟩, trivial⟩

omit h32 h64 in
theorem is_mem (t : Mem) : Is (dbgMem t) (mem t) := is_record (by decide) ⟨⟨rfl, by decide, is_memTy _⟩, trivial⟩

theorem is_global (g : Global) : Is (dbgGlobal std g) (global std g) :=
  is_record (by decide) ⟨⟨rfl, by decide, is_globalTy _⟩, ⟨rfl, by decide, is_constExpr h32 h64 _⟩, trivial⟩

theorem is_elem (e : Elem) : Is (dbgElem std e) (elem std e) :=
  is_record (by decide) ⟨⟨rfl, by decide, is_idx (by decide) _⟩, ⟨rfl, by decide, is_constExpr h32 h64 _⟩,
    ⟨rfl, by decide, is_list (each_map (fun x => is_idx (by decide) x) e.init)⟩, trivial⟩

theorem is_data (d : Data) : Is (dbgData std d) (data std d) :=
  is_record (by decide) ⟨⟨rfl, by decide, is_idx (by decide) _⟩, ⟨rfl, by decide, is_constExpr h32 h64 _⟩,
    ⟨rfl, by decide, is_list (each_map (fun b : Byte => is_nat b.toNat) d.init)⟩, trivial⟩

omit h32 h64 in
theorem is_start (s : Start) : Is (dbgStart s) (start s) := is_record (by decide) ⟨⟨rfl, by decide, is_idx (by decide) _⟩, trivial⟩

omit h32 h64 in
theorem is_importDesc (d : ImportDesc) : Is (dbgImportDesc d) (importDesc d) := by
  cases d with
  | func x => simp only [dbgImportDesc, importDesc]; exact is_tuple (by decide) ⟨is_idx (by decide) x, trivial⟩
  | table x => simp only [dbgImportDesc, importDesc]; exact is_tuple (by decide) ⟨is_tableTy x, trivial⟩
  | mem x => simp only [dbgImportDesc, importDesc]; exact is_tuple (by decide) ⟨is_memTy x, trivial⟩
  | global x => simp only [dbgImportDesc, importDesc]; exact is_tuple (by decide) ⟨is_globalTy x, trivial⟩

omit h32 h64 in
theorem is_exportDesc (d : ExportDesc) : Is (dbgExportDesc d) (exportDesc d) := by
  cases d with
  | func x => simp only [dbgExportDesc, exportDesc]; exact is_tuple (by decide) ⟨is_idx (by decide) x, trivial⟩
  | table x => simp only [dbgExportDesc, exportDesc]; exact is_tuple (by decide) ⟨is_idx (by decide) x, trivial⟩
  | mem x => simp only [dbgExportDesc, exportDesc]; exact is_tuple (by decide) ⟨is_idx (by decide) x, trivial⟩
  | global x => simp only [dbgExportDesc, exportDesc]; exact is_tuple (by decide) ⟨is_idx (by decide) x, trivial⟩

variable {chars : Name → List Char} (hc : ∀ cs : List Char, chars (cs.flatMap String.utf8EncodeChar) = cs)
include hc

omit h32 h64 in
theorem is_import {i : Import} (h : IsUtf8 i.module ∧ IsUtf8 i.name) : Is (dbgImport std i) (importItem std chars i) :=
  is_record (by decide) ⟨⟨rfl, by decide, is_name std hc h.1⟩, ⟨rfl, by decide, is_name std hc h.2⟩, ⟨rfl, by decide, is_importDesc _⟩, trivial⟩

omit h32 h64 in
theorem is_export {e : Export} (h : IsUtf8 e.name) : Is (dbgExport std e) (exportItem std chars e) :=
  is_record (by decide) ⟨⟨rfl, by decide, is_name std hc h⟩, ⟨rfl, by decide, is_exportDesc _⟩, trivial⟩

theorem is_module {m : Module} (h : NamesUtf8 m) : Is (dbgModule std m) (wholeModule std chars m) :=
  is_record (by decide) ⟨⟨rfl, by decide, is_list (each_map is_funcTy _)⟩, ⟨rfl, by decide, is_list (each_map (is_func h32 h64) _)⟩,
    ⟨rfl, by decide, is_list (each_map is_table _)⟩, ⟨rfl, by decide, is_list (each_map is_mem _)⟩,
    ⟨rfl, by decide, is_list (each_map (is_global h32 h64) _)⟩, ⟨rfl, by decide, is_list (each_map (is_elem h32 h64) _)⟩,
    ⟨rfl, by decide, is_list (each_map (is_data h32 h64) _)⟩, ⟨rfl, by decide, is_option is_start _⟩,
    ⟨rfl, by decide, is_list (each_map_mem _ fun i hi => is_import hc (h.1 i hi))⟩,
    ⟨rfl, by decide, is_list (each_map_mem _ fun e he => is_export hc (h.2 e he))⟩, trivial⟩

theorem module_eq {m : Module} (h : NamesUtf8 m) : dbgModule std m = wholeModule std chars m 0 := by
  have := is_module h32 h64 hc h 0
  rwa [shift_zero] at this

end

end Whasm.Shown
