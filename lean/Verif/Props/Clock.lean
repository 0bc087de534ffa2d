import Verif.Lemmas.Clock
import Verif.Lemmas.DecEq
import Verif.Spec.Sections

/-!
# C79: The time of parsing
-/

namespace Whasm
open Spec

/-- All steps of `Module::parse` on `s`, also those that copy local variables. -/
def parseTime (s : List Byte) : Nat := (Clock.parseModule 0 s).steps + (Clock.parseModule 0 s).copies

/-- The parser that counts returns what the parser returns. -/
theorem C79_same (s : List Byte) : (Clock.parseModule 0 s).out = parseModule s := (Clock.fits_module 0 (Nat.le_refl 0) s).out

/-- **C79, what is not a local variable, partial.** Whatever the input, apart from copying local variables there are at most 12 steps for each byte that was read, and 6 more. Missing for C79:
a bound on the copies that is a small number for each byte, see `C79_negation`. -/
theorem C79_steps_partial {s read rest : List Byte} {r : Except Error Module} (h : parseModule s = (r, rest)) (hs : s = read ++ rest) :
    (Clock.parseModule 0 s).steps ≤ 12 * read.length + 6 := by
  have hf := Clock.fits_module 0 (Nat.le_refl 0) s
  have ho : (Clock.parseModule 0 s).out = (r, rest) := (C79_same s).trans h
  have hl : s.length = read.length + rest.length := by rw [hs, List.length_append]
  rcases r with e | m
  · have := hf.err _ _ ho
    simp only [Clock.K] at this
    omega
  · have := (hf.ok _ _ ho).1
    simp only [Clock.K] at this
    omega

/-- **C79, what can be parsed, partial.** A module with `l` local variables in all functions together is read from `n` bytes in `12 n + l` steps at most, and in `l` at least. -/
theorem C79_locals_partial {s rest : List Byte} {m : Module} (h : parseModule s = (.ok m, rest)) :
    parseTime s ≤ 12 * s.length + localsOf m ∧ localsOf m ≤ parseTime s := by
  have hf := Clock.fits_module 0 (Nat.le_refl 0) s
  have ho : (Clock.parseModule 0 s).out = (.ok m, rest) := (C79_same s).trans h
  have := hf.ok _ _ ho
  simp only [Clock.K] at this
  unfold parseTime
  omega

/-- **C79, any input, partial.** The factor is at most `2^32 + 11`. -/
theorem C79_worst_partial (s : List Byte) : parseTime s ≤ (2 ^ 32 + 11) * s.length + 6 := by
  have hf := Clock.fits_module 0 (Nat.le_refl 0) s
  have hc := hf.copies
  have hs : (Clock.parseModule 0 s).steps ≤ 12 * s.length + 6 := by
    rcases ho : (Clock.parseModule 0 s).out with ⟨_ | m, rest⟩
    · have := hf.err _ _ ho
      simp only [Clock.K] at this
      omega
    · have := (hf.ok _ _ ho).1
      simp only [Clock.K] at this
      omega
  simp only [Clock.B] at hc
  unfold parseTime
  omega

/-- A function section and a body with 100 local variables in one run: 20 bytes, 222 steps, 100 of them copies. -/
example : let s := preamble ++ [0x03, 0x02, 0x01, 0x00] ++ [0x0A, 0x06, 0x01, 0x04, 0x01, 0x64, 0x7E, 0x0B]
    parseModule s = (.ok { funcs := [⟨0, List.replicate 100 .i64, []⟩] }, []) ∧ s.length = 20 ∧ parseTime s = 222 ∧ (Clock.parseModule 0 s).copies = 100 := by decide +kernel

/-- The same with an `else` in place of the end: also the copies of a rejected input count. -/
example : let s := preamble ++ [0x03, 0x02, 0x01, 0x00] ++ [0x0A, 0x07, 0x01, 0x05, 0x01, 0x64, 0x7E, 0x05, 0x0B]
    parseModule s = (.error (.unexpectedOpcode "Else"), [0x0B]) ∧ s.length = 21 ∧ parseTime s = 218 := by decide +kernel

/-- A label in `br_table` takes 11 steps: 32 labels more, 352 steps more. -/
example : let s := fun n : Nat => preamble ++ [0x03, 0x02, 0x01, 0x00] ++ [0x0A, UInt8.ofNat (n + 7), 0x01, UInt8.ofNat (n + 5), 0x00, 0x0E, UInt8.ofNat n] ++ List.replicate n 0x00 ++ [0x00, 0x0B]
    (parseModule (s 40)).1 = .ok { funcs := [⟨0, [], [.brTable (List.replicate 40 0) 0]⟩] } ∧ parseTime (s 8) + 352 = parseTime (s 40) := by decide +kernel

/-- One function with `2^32 - 1` local variables. -/
def manyLocals : List Byte := preamble ++ [0x01, 0x04, 0x01, 0x60, 0x00, 0x00] ++ [0x03, 0x02, 0x01, 0x00] ++
  [0x0A, 0x0A, 0x01, 0x08, 0x01, 0xFF, 0xFF, 0xFF, 0xFF, 0x0F, 0x7F, 0x0B]

theorem manyLocals_copies : (Clock.parseModule 0 manyLocals).copies = 2 ^ 32 - 1 := by decide +kernel

/-- The code does not have the property: the factor would have to be at least `2^26`. -/
theorem C79_negation : ¬ ∃ k, k < 2 ^ 26 ∧ ∀ s : List Byte, parseTime s ≤ k * (s.length + 1) := by
  rintro ⟨k, hk, h⟩
  have h := h manyLocals
  have h1 : parseTime manyLocals = (Clock.parseModule 0 manyLocals).steps + (2 ^ 32 - 1) := by rw [← manyLocals_copies]; rfl
  have h2 : manyLocals.length = 30 := rfl
  rw [h1, h2] at h
  omega

end Whasm
