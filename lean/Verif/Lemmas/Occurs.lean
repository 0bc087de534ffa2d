import Verif.Spec.Occurs
import Verif.Lemmas.InstrGrammar

/-!
# Lemmas on occurrences and misplaced `else`
-/

namespace Whasm
open Spec

theorem ginstrs_mem {D : Dialect} {i : Instr} : ∀ {is : List Instr} {b : List Byte}, GInstrs D b is → i ∈ is → ∃ b', GInstr D b' i := by
  intro is
  induction is with
  | nil => intro b _ h; cases h
  | cons j is ih =>
    intro b h hm
    cases h with
    | cons h1 h2 =>
      rcases List.mem_cons.mp hm with rfl | hm
      · exact ⟨_, h1⟩
      · exact ih h2 hm

/-- Whatever occurs in an expression of the grammar is an instruction of the grammar. -/
theorem ginstrs_occurs {D : Dialect} {j : Instr} {e : List Instr} (ho : Occurs j e) :
    ∀ {b : List Byte}, GInstrs D b e → ∃ b', GInstr D b' j := by
  induction ho with
  | here h => exact fun hb => ginstrs_mem hb h
  | block h _ ih =>
    intro b hb
    obtain ⟨_, hi⟩ := ginstrs_mem hb h
    cases hi with
    | block _ h2 => exact ih h2
  | loop h _ ih =>
    intro b hb
    obtain ⟨_, hi⟩ := ginstrs_mem hb h
    cases hi with
    | loop _ h2 => exact ih h2
  | thn h _ ih =>
    intro b hb
    obtain ⟨_, hi⟩ := ginstrs_mem hb h
    cases hi with
    | ifThen _ h2 => exact ih h2
    | ifElse _ h2 _ => exact ih h2
  | els h _ ih =>
    intro b hb
    obtain ⟨_, hi⟩ := ginstrs_mem hb h
    cases hi with
    | ifThen _ h2 => exact ih .nil
    | ifElse _ _ h2 => exact ih h2

theorem gretVal_length {b : List Byte} {t : RetVal} (h : GRetVal b t) : t.length ≤ 1 := by
  cases h <;> simp

theorem ginstr_blockTypes {D : Dialect} {b : List Byte} {i : Instr} (h : GInstr D b i) : ∀ t ∈ blockTypes i, t.length ≤ 1 := by
  intro t ht
  cases h with
  | block h _ | loop h _ | ifThen h _ | ifElse h _ _ => obtain rfl := List.mem_singleton.mp ht; exact gretVal_length h
  | _ => cases ht

/-! ## Misplaced `else` -/

/-- An instruction that fails after some good ones. -/
theorem subExpr_bad {b' : List Byte} {e : Error} {r r' : List Byte} {N : Nat}
    (hbad : ∀ fuel, N ≤ fuel → instrOf (parseSubExpr fuel) (b' ++ r) = (.error e, r')) :
    ∀ {is : List Instr} {b : List Byte}, GInstrs .code b is → ∀ fuel, b.length + N < fuel →
      parseSubExpr fuel (b ++ (b' ++ r)) = (.error e, r') := by
  intro is
  induction is with
  | nil =>
    intro b h fuel hf
    cases h
    obtain ⟨fuel, rfl⟩ : ∃ n, fuel = n + 1 := ⟨fuel - 1, by omega⟩
    rw [parseSubExpr_succ]
    exact bind_of_error (hbad fuel (by simp at hf; omega))
  | cons i is ih =>
    intro b h fuel hf
    cases h with
    | @cons b bs _ _ h1 h2 =>
      obtain ⟨fuel, rfl⟩ : ∃ n, fuel = n + 1 := ⟨fuel - 1, by omega⟩
      have hb : 0 < b.length := List.length_pos_iff.mpr (ginstr_ne_nil h1)
      simp only [List.length_append] at hf
      rw [parseSubExpr_succ, List.append_assoc, bind_of_ok (instr_complete h1 fuel (by omega) _),
        subStep_other (ginstr_not_mark h1), bind_of_error (ih h2 fuel (by omega))]

theorem badInstr {b : List Byte} {n : String} (h : BadInstr .code b n) : ∀ fuel, b.length ≤ fuel → ∀ r,
    instrOf (parseSubExpr fuel) (b ++ r) = (.error (.unexpectedOpcode n), r) := by
  induction h with
  | block h1 h2 =>
    intro fuel hf r
    simp only [List.length_append, List.length_cons] at hf
    simp only [List.cons_append, List.append_assoc, List.nil_append]
    rw [instrOf_cons]
    show (parseRetVal >>= _) _ = _
    rw [bind_of_ok (retVal_complete h1 _)]
    refine bind_of_error ?_
    unfold exprOf
    rw [bind_of_ok (instrs_complete h2 fuel (by omega) 0x05 _ .els r)]; rfl
  | loop h1 h2 =>
    intro fuel hf r
    simp only [List.length_append, List.length_cons] at hf
    simp only [List.cons_append, List.append_assoc, List.nil_append]
    rw [instrOf_cons]
    show (parseRetVal >>= _) _ = _
    rw [bind_of_ok (retVal_complete h1 _)]
    refine bind_of_error ?_
    unfold exprOf
    rw [bind_of_ok (instrs_complete h2 fuel (by omega) 0x05 _ .els r)]; rfl
  | second h1 h2 h3 =>
    rename_i b1 b2 b3 t is js
    intro fuel hf r
    simp only [List.length_append, List.length_cons] at hf
    simp only [List.cons_append, List.append_assoc, List.nil_append]
    rw [instrOf_cons]
    show ifOf _ _ = _
    unfold ifOf
    rw [bind_of_ok (retVal_complete h1 _), bind_of_ok (instrs_complete h2 fuel (by omega) 0x05 _ .els _)]
    have : elsePart (parseSubExpr fuel) ⟨is, .elseMark⟩ (b3 ++ 0x05 :: r) = (.ok (js, .elseMark), r) := by
      unfold elsePart
      exact map_complete (instrs_complete h3 fuel (by omega) 0x05 _ .els r) _
    rw [bind_of_ok this]
    rfl
  | inBlock h1 h2 _ ih =>
    intro fuel hf r
    simp only [List.length_append, List.length_cons] at hf
    simp only [List.cons_append, List.append_assoc]
    rw [instrOf_cons]
    show (parseRetVal >>= _) _ = _
    rw [bind_of_ok (retVal_complete h1 _)]
    refine bind_of_error ?_
    unfold exprOf
    exact bind_of_error (subExpr_bad (fun fuel hf => ih fuel hf r) h2 fuel (by omega))
  | inLoop h1 h2 _ ih =>
    intro fuel hf r
    simp only [List.length_append, List.length_cons] at hf
    simp only [List.cons_append, List.append_assoc]
    rw [instrOf_cons]
    show (parseRetVal >>= _) _ = _
    rw [bind_of_ok (retVal_complete h1 _)]
    refine bind_of_error ?_
    unfold exprOf
    exact bind_of_error (subExpr_bad (fun fuel hf => ih fuel hf r) h2 fuel (by omega))
  | inThen h1 h2 _ ih =>
    intro fuel hf r
    simp only [List.length_append, List.length_cons] at hf
    simp only [List.cons_append, List.append_assoc]
    rw [instrOf_cons]
    show ifOf _ _ = _
    unfold ifOf
    rw [bind_of_ok (retVal_complete h1 _)]
    exact bind_of_error (subExpr_bad (fun fuel hf => ih fuel hf r) h2 fuel (by omega))
  | inElse h1 h2 h3 _ ih =>
    intro fuel hf r
    simp only [List.length_append, List.length_cons] at hf
    simp only [List.cons_append, List.append_assoc, List.nil_append]
    rw [instrOf_cons]
    show ifOf _ _ = _
    unfold ifOf
    rw [bind_of_ok (retVal_complete h1 _), bind_of_ok (instrs_complete h2 fuel (by omega) 0x05 _ .els _)]
    refine bind_of_error ?_
    unfold elsePart
    exact bind_of_error (subExpr_bad (fun fuel hf => ih fuel hf r) h3 fuel (by omega))

theorem badExpr {b : List Byte} {n : String} (h : BadExpr .code b n) (r : List Byte) :
    parseExpr (b ++ r) = (.error (.unexpectedOpcode n), r) := by
  unfold parseExpr exprOf
  cases h with
  | here h =>
    rw [List.append_assoc, List.singleton_append, bind_of_ok (instrs_complete h _ (by simp; omega) _ _ .els r)]
    rfl
  | inside h1 h2 =>
    rw [List.append_assoc]
    exact bind_of_error (subExpr_bad (fun fuel hf => badInstr h2 fuel hf r) h1 _ (by simp; omega))

end Whasm
