import Verif.Lemmas.Equality
import Verif.Model.BinaryModule
import Verif.Lemmas.DecEq

/-!
# Properties of `==` on modules: C53
-/

namespace Whasm
open Spec

/-- **C53, floats**: `==` on floats is equality of the numbers (IEEE 754), and false if a NaN takes part. -/
theorem C53_f32 (a b : F32) : f32Eq a b = true ↔ datum32 a ≠ .nan ∧ datum32 a = datum32 b := f32Eq_iff a b

theorem C53_f64 (a b : F64) : f64Eq a b = true ↔ datum64 a ≠ .nan ∧ datum64 a = datum64 b := f64Eq_iff a b

-- one, zero with either sign, the smallest number, infinity and a NaN
example : datum32 0x3f800000 = .fin (2 ^ 149) ∧ datum32 0x80000000 = .fin 0 ∧ datum32 0x80000001 = .fin (-1) ∧
    datum32 0xff800000 = .inf true ∧ datum32 0x7f800001 = .nan := by decide +kernel
example : datum64 0x3ff0000000000000 = .fin (2 ^ 1074) ∧ datum64 0x7ff8000000000000 = .nan := by decide +kernel

/-- **C53, what `==` says**: modules are equal item by item, constants are compared as numbers. -/
theorem C53_meaning (m n : Module) : moduleEq m n = true ↔ SameModule m n := moduleEq_iff m n

/-- A module whose global is initialised with the given float. -/
def floatGlobal (v : F32) : Module := { globals := [⟨⟨.const, .f32⟩, [.constF32 v]⟩] }

-- the two zeros: equal, but not the same module
example : moduleEq (floatGlobal 0) (floatGlobal 0x80000000) = true ∧ floatGlobal 0 ≠ floatGlobal 0x80000000 ∧
    moduleEq (floatGlobal 0) (floatGlobal 1) = false := by decide +kernel

/-- **C53, exactly the modules without NaN constants are equal to themselves.** -/
theorem C53_exact (m : Module) : moduleEq m m = true ↔ NaNFree m := (moduleEq_iff m m).trans (sameModule_refl m)

/-- **C53, partial**: as stated, for modules without NaN constants. Missing are the others, where it is false (`C53_negation`). -/
theorem C53_reflexive_partial {m : Module} (h : NaNFree m) : moduleEq m m = true := (C53_exact m).mpr h

/-- **C53, partial**: modules parsed from equal bytes. Missing are modules with NaN constants. -/
theorem C53_parsed_partial {b b' r r' : List Byte} {m m' : Module} (hb : b = b') (h : parseModule b = (.ok m, r))
    (h' : parseModule b' = (.ok m', r')) (hn : NaNFree m) : moduleEq m m' = true := by
  subst hb
  obtain rfl : m = m' := by rw [h] at h'; cases h'; rfl
  exact C53_reflexive_partial hn

/-- **C53, the reason for what is missing**: parsed twice, bytes with a NaN constant give modules that are not equal. -/
theorem C53_parsed_nan {b r r' : List Byte} {m m' : Module} (h : parseModule b = (.ok m, r)) (h' : parseModule b = (.ok m', r'))
    (hn : ¬ NaNFree m) : moduleEq m m' = false := by
  obtain rfl : m = m' := by rw [h] at h'; cases h'; rfl
  exact Bool.eq_false_iff.mpr fun hm => hn ((C53_exact m).mp hm)

/-- A module with the global `f32.const nan`. -/
def nanBytes : List Byte := [0, 0x61, 0x73, 0x6d, 1, 0, 0, 0, 6, 9, 1, 0x7d, 0, 0x43, 0, 0, 0xc0, 0x7f, 0x0b]

/-- **C53 fails**: this module is not equal to itself. -/
theorem C53_negation : parseModule nanBytes = (.ok (floatGlobal 0x7fc00000), []) ∧
    moduleEq (floatGlobal 0x7fc00000) (floatGlobal 0x7fc00000) = false := by decide +kernel

/-- The same module with the constant 1.0. -/
def oneBytes : List Byte := [0, 0x61, 0x73, 0x6d, 1, 0, 0, 0, 6, 9, 1, 0x7d, 0, 0x43, 0, 0, 0x80, 0x3f, 0x0b]

example : parseModule oneBytes = (.ok (floatGlobal 0x3f800000), []) ∧
    moduleEq (floatGlobal 0x3f800000) (floatGlobal 0x3f800000) = true := by decide +kernel

/-- **C53, `==` is symmetric** ... -/
theorem C53_symmetric {m n : Module} (h : moduleEq m n = true) : moduleEq n m = true :=
  (moduleEq_iff n m).mpr (sameModule_symm ((moduleEq_iff m n).mp h))

/-- **C53, ... and transitive.** -/
theorem C53_transitive {l m n : Module} (h : moduleEq l m = true) (h' : moduleEq m n = true) : moduleEq l n = true :=
  (moduleEq_iff l n).mpr (sameModule_trans ((moduleEq_iff l m).mp h) ((moduleEq_iff m n).mp h'))

/-- **C53, equal modules are treated alike by the validator.** -/
theorem C53_validate {m n : Module} (h : moduleEq m n = true) : validateModule m = validateModule n := by
  rw [← module_forget m, sameModule_forget ((moduleEq_iff m n).mp h), module_forget n]

example : validateModule (floatGlobal 0) = .ok ⟨[], []⟩ := by decide +kernel

end Whasm
