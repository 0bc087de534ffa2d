import Verif.Spec.Typing
import Verif.Model.ValidInstr

/-!
# Lemmas on the type system
-/

namespace Whasm
open Spec

theorem numType_eq (op : NumOp) : numType op = numSig op := by cases op <;> decide

theorem loadType_eq (op : LoadOp) : (loadType op).1 = (loadSig op).2 := by cases op <;> rfl

theorem storeType_eq (op : StoreOp) : (storeType op).1 = (storeSig op).2 := by cases op <;> rfl

theorem hasTypes_append {C : Env} {is : List Instr} {ts1 ts2 : List Val} (h : HasTypes C is ts1 ts2) :
    ∀ {js : List Instr} {ts3 : List Val}, HasTypes C js ts2 ts3 → HasTypes C (is ++ js) ts1 ts3
  | _, _, .nil _ => by simpa using h
  | _, _, .snoc h1 h2 => by rw [← List.append_assoc]; exact .snoc (hasTypes_append h h1) h2

theorem hasTypes_weaken {C : Env} (t0 : List Val) : ∀ {is : List Instr} {ts1 ts2 : List Val}, HasTypes C is ts1 ts2 →
    HasTypes C is (t0 ++ ts1) (t0 ++ ts2)
  | _, _, _, .nil _ => .nil _
  | _, _, _, .snoc h1 h2 => by
    rw [← List.append_assoc]
    refine .snoc ?_ h2
    rw [List.append_assoc]
    exact hasTypes_weaken t0 h1

theorem hasTypes_single {C : Env} {i : Instr} {a b : List Val} (t0 : List Val) (h : HasType C i a b) :
    HasTypes C [i] (t0 ++ a) (t0 ++ b) := .snoc (is := []) (.nil _) h

theorem hasTypes_nil {C : Env} {a b : List Val} (h : HasTypes C [] a b) : a = b := by
  generalize hl : ([] : List Instr) = l at h
  cases h with
  | nil => rfl
  | snoc => simp at hl

theorem hasTypes_cons_aux {C : Env} : ∀ {l : List Instr} {ts1 ts2 : List Val}, HasTypes C l ts1 ts2 → ∀ {i : Instr} {is : List Instr},
    l = i :: is → ∃ t0 a b, ts1 = t0 ++ a ∧ HasType C i a b ∧ HasTypes C is (t0 ++ b) ts2
  | _, _, _, .nil _, _, _, hl => by cases hl
  | _, _, _, .snoc (is := js) (i := j) (ts0 := ts0) (ts := ts) (ts3 := ts3) h1 h2, i, is, hl => by
    have ih := fun {i is} => hasTypes_cons_aux h1 (i := i) (is := is)
    cases js with
    | nil =>
      simp only [List.nil_append, List.cons.injEq] at hl
      obtain ⟨rfl, rfl⟩ := hl
      exact ⟨ts0, ts, ts3, hasTypes_nil h1, h2, .nil _⟩
    | cons k ks =>
      simp only [List.cons_append, List.cons.injEq] at hl
      obtain ⟨rfl, rfl⟩ := hl
      obtain ⟨t0, a, b, e, k1, k2⟩ := ih rfl
      exact ⟨t0, a, b, e, k1, .snoc k2 h2⟩

/-- The sequence rule read from the left. -/
theorem hasTypes_cons {C : Env} {i : Instr} {is : List Instr} {ts1 ts2 : List Val} :
    HasTypes C (i :: is) ts1 ts2 ↔ ∃ t0 a b, ts1 = t0 ++ a ∧ HasType C i a b ∧ HasTypes C is (t0 ++ b) ts2 := by
  constructor
  · exact fun h => hasTypes_cons_aux h rfl
  · rintro ⟨t0, a, b, rfl, h1, h2⟩
    exact hasTypes_append (is := [i]) (hasTypes_single t0 h1) h2

end Whasm
