import Verif.Model.Debug
import Verif.Spec.Debug
import Verif.Lemmas.Utf8

/-!
# The printed text can be read back
-/

namespace Whasm
open Spec

/-! ## Cutting texts -/

theorem cut {α : Type} (p : α → Bool) {c d : α} {r r' : List α} (hc : p c = false) (hd : p d = false) :
    ∀ {a b : List α}, a.all p = true → b.all p = true → a ++ c :: r = b ++ d :: r' → a = b ∧ c = d ∧ r = r'
  | [], [], _, _, h => by simpa using h
  | [], y :: b, _, hb, h => by
      rw [List.nil_append, List.cons_append, List.cons.injEq] at h
      rw [List.all_cons, Bool.and_eq_true] at hb
      rw [h.1, hb.1] at hc; exact absurd hc (by decide)
  | x :: a, [], ha, _, h => by
      rw [List.nil_append, List.cons_append, List.cons.injEq] at h
      rw [List.all_cons, Bool.and_eq_true] at ha
      rw [← h.1, ha.1] at hd; exact absurd hd (by decide)
  | x :: a, y :: b, ha, hb, h => by
      rw [List.all_cons, Bool.and_eq_true] at ha hb
      rw [List.cons_append, List.cons_append, List.cons.injEq] at h
      have := cut p hc hd ha.2 hb.2 h.2
      exact ⟨by rw [h.1, this.1], this.2⟩

/-- A printer whose text, followed by a comma, determines `c x`. -/
def Sep {α β : Type} (pr : α → List Char) (c : α → β) : Prop :=
  ∀ x y r r', pr x ++ ',' :: r = pr y ++ ',' :: r' → c x = c y ∧ r = r'

def notComma (c : Char) : Bool := c != ','

theorem Sep.atom {α β : Type} {pr : α → List Char} {c : α → β} (h : ∀ x, (pr x).all notComma = true)
    (inj : ∀ x y, pr x = pr y → c x = c y) : Sep pr c := fun x y _ _ e =>
  have := cut notComma (c := ',') (d := ',') rfl rfl (h x) (h y) e
  ⟨inj x y this.1, this.2.2⟩

theorem Sep.map {α β γ : Type} {pr : α → List Char} {c : α → β} (f : β → γ) (h : Sep pr c) : Sep pr (fun x => f (c x)) :=
  fun x y r r' e => ⟨congrArg f (h x y r r' e).1, (h x y r r' e).2⟩

/-! ## Indentation -/

def fin : Bool → List Char → Bool
  | q, [] => q
  | _, c :: cs => fin (c == '\n') cs

theorem fin_append (q : Bool) (a b : List Char) : fin q (a ++ b) = fin (fin q a) b := by
  induction a generalizing q with
  | nil => rfl
  | cons x a ih => exact ih _

theorem pad_append (q : Bool) (a b : List Char) : pad q (a ++ b) = pad q a ++ pad (fin q a) b := by
  induction a generalizing q with
  | nil => rfl
  | cons x a ih => rw [List.cons_append, pad, ih, pad, fin, List.append_assoc, List.cons_append]

theorem pad_close {c : Char} (hc : c ≠ ' ') {r r' : List Char} : ∀ (q : Bool) (b b' : List Char), fin q b = true → fin q b' = true →
    pad q b ++ c :: r = pad q b' ++ c :: r' → b = b' ∧ r = r'
  | q, [], [], _, _, h => by simpa [pad] using h
  | q, [], y :: b', hq, _, h => by
      rw [fin] at hq; subst hq
      simp only [pad, if_pos, List.nil_append, List.cons_append] at h
      exact absurd (List.cons.inj h).1 hc
  | q, x :: b, [], _, hq, h => by
      rw [fin] at hq; subst hq
      simp only [pad, if_pos, List.nil_append, List.cons_append] at h
      exact absurd (List.cons.inj h).1.symm hc
  | q, x :: b, y :: b', hb, hb', h => by
      rw [pad, pad, List.append_assoc, List.append_assoc] at h
      have h := List.append_cancel_left h
      rw [List.cons_append, List.cons_append, List.cons.injEq] at h
      obtain ⟨rfl, h⟩ := h
      have := pad_close hc _ b b' hb hb' h
      exact ⟨by rw [this.1], this.2⟩

/-- The fields before indentation. -/
def raw (vs : List (List Char)) : List Char := vs.flatMap (· ++ [',', '\n'])

theorem raw_cons (v : List Char) (vs : List (List Char)) : raw (v :: vs) = v ++ ',' :: '\n' :: raw vs := by
  simp [raw]

theorem fin_raw (vs : List (List Char)) : fin true (raw vs) = true := by
  induction vs with
  | nil => rfl
  | cons v vs ih =>
    rw [raw_cons, fin_append]
    exact ih

theorem fields_raw (vs : List (List Char)) : vs.flatMap dbgField = pad true (raw vs) := by
  induction vs with
  | nil => rfl
  | cons v vs ih =>
    have e : raw (v :: vs) = (v ++ [',', '\n']) ++ raw vs := rfl
    rw [List.flatMap_cons, ih, e, pad_append, fin_append]
    rfl

theorem raw_sep {α β : Type} {pr : α → List Char} {c : α → β} (h : Sep pr c) {x y : α} {vs vs' : List (List Char)}
    (e : raw (pr x :: vs) = raw (pr y :: vs')) : c x = c y ∧ raw vs = raw vs' := by
  rw [raw_cons, raw_cons] at e
  have := h x y _ _ e
  exact ⟨this.1, (List.cons.inj this.2).2⟩

theorem raw_field {α β : Type} {pr : α → List Char} {c : α → β} (h : Sep pr c) {n : List Char} {x y : α} {vs vs' : List (List Char)}
    (e : raw ((n ++ [':', ' '] ++ pr x) :: vs) = raw ((n ++ [':', ' '] ++ pr y) :: vs')) : c x = c y ∧ raw vs = raw vs' := by
  rw [raw_cons, raw_cons, List.append_assoc _ (pr x), List.append_assoc _ (pr y)] at e
  have := h x y _ _ (List.append_cancel_left e)
  exact ⟨this.1, (List.cons.inj this.2).2⟩

theorem raw_list {α β : Type} {pr : α → List Char} {c : α → β} (h : Sep pr c) :
    ∀ (xs ys : List α), raw (xs.map pr) = raw (ys.map pr) → xs.map c = ys.map c
  | [], [], _ => rfl
  | [], y :: ys, e => by
      rw [List.map_cons, raw_cons] at e
      exact absurd (congrArg List.length e) (by simp [raw])
  | x :: xs, [], e => by
      rw [List.map_cons, raw_cons] at e
      exact absurd (congrArg List.length e) (by simp [raw])
  | x :: xs, y :: ys, e => by
      rw [List.map_cons, List.map_cons] at e
      have := raw_sep h e
      rw [List.map_cons, List.map_cons, this.1, raw_list h xs ys this.2]

/-! ## Builders -/

/-- Characters of identifiers. -/
def identChar (c : Char) : Bool := c.isAlphanum

def Word (w : List Char) : Prop := w.all identChar = true

instance (w : List Char) : Decidable (Word w) := inferInstanceAs (Decidable (_ = true))

theorem tuple_nil (w : List Char) : dbgTuple w [] = w := rfl

theorem tuple_cons (w v : List Char) (vs : List (List Char)) :
    dbgTuple w (v :: vs) = w ++ '(' :: '\n' :: (pad true (raw (v :: vs)) ++ [')']) := by
  rw [← fields_raw]
  show w ++ ['(', '\n'] ++ _ ++ [')'] = _
  simp

theorem tuple_sep {w w' : List Char} (hw : Word w) (hw' : Word w') {vs vs' : List (List Char)} {r r' : List Char}
    (h : dbgTuple w vs ++ ',' :: r = dbgTuple w' vs' ++ ',' :: r') : w = w' ∧ raw vs = raw vs' ∧ r = r' := by
  cases vs with
  | nil =>
    cases vs' with
    | nil =>
      have := cut identChar (c := ',') (d := ',') (by decide) (by decide) hw hw' h
      exact ⟨this.1, rfl, this.2.2⟩
    | cons v' vs' =>
      rw [tuple_nil, tuple_cons, List.append_assoc] at h
      have := cut identChar (c := ',') (d := '(') (by decide) (by decide) hw hw' h
      exact absurd this.2.1 (by decide)
  | cons v vs =>
    cases vs' with
    | nil =>
      rw [tuple_nil, tuple_cons, List.append_assoc] at h
      have := cut identChar (c := '(') (d := ',') (by decide) (by decide) hw hw' h
      exact absurd this.2.1 (by decide)
    | cons v' vs' =>
      rw [tuple_cons, tuple_cons, List.append_assoc, List.append_assoc] at h
      have h := cut identChar (c := '(') (d := '(') (by decide) (by decide) hw hw' h
      have h2 : '\n' :: (pad true (raw (v :: vs)) ++ [')']) ++ ',' :: r = '\n' :: (pad true (raw (v' :: vs')) ++ [')']) ++ ',' :: r' := h.2.2
      rw [List.cons_append, List.cons_append, List.cons.injEq, List.append_assoc, List.append_assoc] at h2
      have h3 := pad_close (c := ')') (by decide) true _ _ (fin_raw _) (fin_raw _) h2.2
      exact ⟨h.1, h3.1, (List.cons.inj h3.2).2⟩

/-- A newtype. -/
theorem Sep.tuple1 {α β : Type} {pr : α → List Char} {c : α → β} {w : List Char} (hw : Word w) (h : Sep pr c) :
    Sep (fun x => dbgTuple w [pr x]) c := fun _ _ _ _ e =>
  have := tuple_sep hw hw e
  ⟨(raw_sep h this.2.1).1, this.2.2⟩

def fieldTexts (fs : List (List Char × List Char)) : List (List Char) := fs.map fun f => f.1 ++ [':', ' '] ++ f.2

theorem struct_raw (w : List Char) (fs : List (List Char × List Char)) :
    dbgStruct w fs = w ++ ' ' :: '{' :: '\n' :: (pad true (raw (fieldTexts fs)) ++ ['}']) := by
  rw [← fields_raw]
  simp [dbgStruct, fieldTexts, List.flatMap_map]

theorem struct_sep {w : List Char} {fs fs' : List (List Char × List Char)} {r r' : List Char}
    (h : dbgStruct w fs ++ ',' :: r = dbgStruct w fs' ++ ',' :: r') : raw (fieldTexts fs) = raw (fieldTexts fs') ∧ r = r' := by
  rw [struct_raw, struct_raw, List.append_assoc, List.append_assoc] at h
  have h := List.append_cancel_left h
  simp only [List.cons_append, List.cons.injEq, true_and, List.append_assoc] at h
  have h := pad_close (c := '}') (by decide) true _ _ (fin_raw _) (fin_raw _) h
  exact ⟨h.1, (List.cons.inj h.2).2⟩

theorem list_cons (v : List Char) (vs : List (List Char)) :
    dbgList (v :: vs) = '[' :: '\n' :: (pad true (raw (v :: vs)) ++ [']']) := by
  rw [← fields_raw]; rfl

theorem list_sep {vs vs' : List (List Char)} {r r' : List Char} (h : dbgList vs ++ ',' :: r = dbgList vs' ++ ',' :: r') :
    raw vs = raw vs' ∧ r = r' := by
  cases vs with
  | nil =>
    cases vs' with
    | nil => exact ⟨rfl, by simpa [dbgList] using h⟩
    | cons v' vs' =>
      rw [list_cons] at h
      have : ']' = '\n' := (List.cons.inj (List.cons.inj h).2).1
      exact absurd this (by decide)
  | cons v vs =>
    cases vs' with
    | nil =>
      rw [list_cons] at h
      have : '\n' = ']' := (List.cons.inj (List.cons.inj h).2).1
      exact absurd this (by decide)
    | cons v' vs' =>
      rw [list_cons, list_cons] at h
      simp only [List.cons_append, List.cons.injEq, true_and, List.append_assoc] at h
      have h := pad_close (c := ']') (by decide) true _ _ (fin_raw _) (fin_raw _) h
      exact ⟨h.1, (List.cons.inj h.2).2⟩

theorem Sep.list {α β : Type} {pr : α → List Char} {c : α → β} (h : Sep pr c) : Sep (fun xs => dbgList (xs.map pr)) (List.map c) :=
  fun xs ys _ _ e =>
    have := list_sep e
    ⟨raw_list h xs ys this.1, this.2⟩

theorem text_inj {s t : String} (h : text s = text t) : s = t := by
  unfold text at h
  exact String.toList_inj.mp h

theorem Sep.option {α β : Type} {pr : α → List Char} {c : α → β} (h : Sep pr c) :
    Sep (fun o => dbgOption (o.map pr)) (Option.map c) := by
  have hn : Word (text "None") := by decide +kernel
  have hs : Word (text "Some") := by decide +kernel
  intro x y r r' e
  cases x with
  | none =>
    cases y with
    | none => exact ⟨rfl, (List.cons.inj (List.append_cancel_left e)).2⟩
    | some y => exact absurd (text_inj (tuple_sep (vs := []) (vs' := [pr y]) hn hs e).1) (by decide)
  | some x =>
    cases y with
    | none => exact absurd (text_inj (tuple_sep (vs := [pr x]) (vs' := []) hs hn e).1) (by decide)
    | some y =>
      have := Sep.tuple1 hs h x y r r' e
      exact ⟨congrArg some this.1, this.2⟩

/-! ## Numbers -/

def digitVal (c : Char) : Nat := if c.toNat < 58 then c.toNat - 48 else c.toNat - 87

theorem lowDigit_cases (n : Nat) (h : n < 16) : digitVal (lowDigit n) = n ∧ identChar (lowDigit n) = true := by
  have : ∀ k : Fin 16, digitVal (lowDigit k) = k ∧ identChar (lowDigit k) = true := by decide
  exact this ⟨n, h⟩

def valueOf (base : Nat) (ds : List Char) : Nat := ds.foldl (fun a c => a * base + digitVal c) 0

theorem digits_value {base : Nat} (hb : 2 ≤ base) (hb' : base ≤ 16) : ∀ (fuel n : Nat), n < fuel → valueOf base (digitsOf base fuel n) = n := by
  intro fuel
  induction fuel with
  | zero => intro n h; omega
  | succ fuel ih =>
    intro n h
    rw [digitsOf]
    split
    · rw [valueOf, List.foldl_cons, List.foldl_nil, (lowDigit_cases n (by omega)).1]; omega
    · next hn =>
      have hlt : n / base < fuel := by
        have : n / base < n := Nat.div_lt_self (by omega) (by omega)
        omega
      rw [valueOf, List.foldl_append, List.foldl_cons, List.foldl_nil]
      have := ih _ hlt
      rw [valueOf] at this
      rw [this, (lowDigit_cases (n % base) (by have := Nat.mod_lt n (show base > 0 by omega); omega)).1]
      have := Nat.div_add_mod n base
      rw [Nat.mul_comm] at this
      exact this

theorem digits_all {base : Nat} (hb : 2 ≤ base) (hb' : base ≤ 16) : ∀ (fuel n : Nat), (digitsOf base fuel n).all identChar = true := by
  intro fuel
  induction fuel with
  | zero => intro n; rfl
  | succ fuel ih =>
    intro n
    rw [digitsOf]
    split
    · simp [(lowDigit_cases n (by omega)).2]
    · rw [List.all_append, ih]
      simp [(lowDigit_cases (n % base) (by have := Nat.mod_lt n (show base > 0 by omega); omega)).2]

theorem all_imp {p q : Char → Bool} (h : ∀ c, p c = true → q c = true) {l : List Char} (hl : l.all p = true) : l.all q = true := by
  rw [List.all_eq_true] at hl ⊢
  exact fun x hx => h x (hl x hx)

theorem ident_notComma (c : Char) (h : identChar c = true) : notComma c = true := by
  rw [notComma, bne_iff_ne]
  intro e; subst e; exact absurd h (by decide)

theorem dbgNat_inj {n k : Nat} (h : dbgNat n = dbgNat k) : n = k := by
  have h1 := digits_value (base := 10) (by omega) (by omega) (n + 1) n (by omega)
  have h2 := digits_value (base := 10) (by omega) (by omega) (k + 1) k (by omega)
  have h : digitsOf 10 (n + 1) n = digitsOf 10 (k + 1) k := h
  rw [← h1, h, h2]

theorem dbgNat_ident (n : Nat) : (dbgNat n).all identChar = true := digits_all (by omega) (by omega) _ _

theorem sep_nat {w : Nat} : Sep (fun x : BitVec w => dbgNat x.toNat) id :=
  Sep.atom (fun _ => all_imp ident_notComma (dbgNat_ident _)) (fun _ _ h => BitVec.eq_of_toNat_eq (dbgNat_inj h))

theorem sep_byte : Sep (fun x : Byte => dbgNat x.toNat) id :=
  Sep.atom (fun _ => all_imp ident_notComma (dbgNat_ident _)) (fun _ _ h => UInt8.toNat_inj.mp (dbgNat_inj h))

theorem dbgInt_inj {a b : Int} (h : dbgInt a = dbgInt b) : a = b := by
  unfold dbgInt at h
  have hm : ∀ n t, '-' :: t ≠ dbgNat n := by
    intro n t e
    have := dbgNat_ident n
    rw [← e, List.all_cons, Bool.and_eq_true] at this
    exact absurd this.1 (by decide)
  split at h
  · split at h
    · have := dbgNat_inj (List.cons.inj h).2; omega
    · exact absurd h (hm _ _)
  · split at h
    · exact absurd h.symm (hm _ _)
    · have := dbgNat_inj h; omega

theorem sep_int {w : Nat} : Sep (fun x : BitVec w => dbgInt x.toInt) id := by
  refine Sep.atom (fun x => ?_) (fun _ _ h => BitVec.eq_of_toInt_eq (dbgInt_inj h))
  unfold dbgInt
  split
  · rw [List.all_cons, all_imp ident_notComma (dbgNat_ident _)]; decide
  · exact all_imp ident_notComma (dbgNat_ident _)

end Whasm
