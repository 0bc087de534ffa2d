import Verif.Model.Equality

/-!
# Decidable (structural) equality of instructions and modules

Needed only to check concrete examples; this is Lean's `=`, not Rust's `==` (see C53).
-/

namespace Whasm

mutual

/-- Structural equality test on instructions. -/
def Instr.eqb : Instr → Instr → Bool
  | .unreachable, .unreachable => true
  | .nop, .nop => true
  | .block r a, .block r' a' => decide (r = r') && exprEqb a a'
  | .loop r a, .loop r' a' => decide (r = r') && exprEqb a a'
  | .ifElse r a b, .ifElse r' a' b' => decide (r = r') && exprEqb a a' && exprEqb b b'
  | .elseMark, .elseMark => true
  | .endMark, .endMark => true
  | .br l, .br l' => decide (l = l')
  | .brIf l, .brIf l' => decide (l = l')
  | .brTable ls l, .brTable ls' l' => decide (ls = ls') && decide (l = l')
  | .ret, .ret => true
  | .call l, .call l' => decide (l = l')
  | .callIndirect t l, .callIndirect t' l' => decide (t = t') && decide (l = l')
  | .drop, .drop => true
  | .select, .select => true
  | .localGet l, .localGet l' => decide (l = l')
  | .localSet l, .localSet l' => decide (l = l')
  | .localTee l, .localTee l' => decide (l = l')
  | .globalGet l, .globalGet l' => decide (l = l')
  | .globalSet l, .globalSet l' => decide (l = l')
  | .load o a b, .load o' a' b' => decide (o = o') && decide (a = a') && decide (b = b')
  | .store o a b, .store o' a' b' => decide (o = o') && decide (a = a') && decide (b = b')
  | .memSize l, .memSize l' => decide (l = l')
  | .memGrow l, .memGrow l' => decide (l = l')
  | .constI32 l, .constI32 l' => decide (l = l')
  | .constI64 l, .constI64 l' => decide (l = l')
  | .constF32 l, .constF32 l' => decide (l = l')
  | .constF64 l, .constF64 l' => decide (l = l')
  | .num o, .num o' => decide (o = o')
  | _, _ => false

/-- Structural equality test on expressions. -/
def exprEqb : List Instr → List Instr → Bool
  | [], [] => true
  | i :: is, j :: js => Instr.eqb i j && exprEqb is js
  | _, _ => false

end

mutual

theorem Instr.eq_of_eqb : ∀ (i j : Instr), Instr.eqb i j = true → i = j := by
  intro i j h
  cases i <;> cases j <;> simp [Instr.eqb] at h ⊢ <;> try grind
  · exact ⟨h.1, exprEq_of_eqb _ _ h.2⟩
  · exact ⟨h.1, exprEq_of_eqb _ _ h.2⟩
  · exact ⟨h.1.1, exprEq_of_eqb _ _ h.1.2, exprEq_of_eqb _ _ h.2⟩

theorem exprEq_of_eqb : ∀ (is js : List Instr), exprEqb is js = true → is = js := by
  intro is js h
  cases is with
  | nil => cases js <;> simp [exprEqb] at h ⊢
  | cons i is =>
    cases js with
    | nil => simp [exprEqb] at h
    | cons j js =>
      simp [exprEqb] at h
      rw [Instr.eq_of_eqb _ _ h.1, exprEq_of_eqb _ _ h.2]

end

mutual

theorem Instr.eqb_refl : ∀ (i : Instr), Instr.eqb i i = true := by
  intro i
  cases i <;> simp [Instr.eqb, exprEqb_refl]

theorem exprEqb_refl : ∀ (is : List Instr), exprEqb is is = true := by
  intro is
  cases is with
  | nil => simp [exprEqb]
  | cons i is => simp [exprEqb, Instr.eqb_refl i, exprEqb_refl is]

end

instance : DecidableEq Instr := fun i j =>
  if h : Instr.eqb i j = true then .isTrue (Instr.eq_of_eqb i j h)
  else .isFalse (fun e => h (e ▸ Instr.eqb_refl i))

deriving instance DecidableEq for Func, Global, Elem, Data, Module
deriving instance DecidableEq for Except

end Whasm
