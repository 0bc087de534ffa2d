import Verif.Lemmas.Printed
import Verif.Props.Native
import Verif.Props.Debug
import Verif.Props.Metered

/-!
# Property C87: how long the printed text is

The property is that the text that the tool prints for a file is proportional to the length of the file, with some reasonable factor:

`∃ c < 2 ^ 34, ∀ s m r, parseModule s = (.ok m, r) → (dbgModule std m).length ≤ c * s.length`.

It is false: `C87_negation`. Every level of blocks indents the lines within by twelve more columns, and local variables are written one by one.
-/

namespace Whasm
open Spec

variable {std : StdText} {n : Nat}

/-- **C87, lines, partial.** The number of lines is proportional to the number of parts of the module. -/
theorem C87_lines_partial (hF : FloatText n std) (m : Module) : breaks (dbgModule std m) ≤ 15 * parts m + 21 := by
  have : ∃ D, NestsAtMost D m := by
    refine ⟨total (fun f : Func => depthL f.body) m.funcs + total (fun g : Global => depthL g.init) m.globals + total (fun e : Elem => depthL e.offset) m.elem +
      total (fun d : Data => depthL d.offset) m.data, fun f hf => ?_, fun f hf => ?_, fun f hf => ?_, fun f hf => ?_⟩
    · have := Meter.total_mem (f := fun f : Func => depthL f.body) hf; omega
    · have := Meter.total_mem (f := fun f : Global => depthL f.init) hf; omega
    · have := Meter.total_mem (f := fun f : Elem => depthL f.offset) hf; omega
    · have := Meter.total_mem (f := fun f : Data => depthL f.offset) hf; omega
  obtain ⟨D, hD⟩ := this
  exact (Printed.module_le hF hD).1

/-- **C87, characters, partial.** If at most `D` blocks are inside of each other, the number of characters is at most proportional to the number of parts times `D + 1`.
Missing for C87: a bound that does not depend on `D`, see `C87_negation`. -/
theorem C87_depth_partial (hF : FloatText n std) {D : Nat} {m : Module} (hD : NestsAtMost D m) : (dbgModule std m).length ≤ (400 + n) * parts m * (D + 1) + 230 :=
  (Printed.module_le hF hD).2

/-- **C87, what is read, partial.** Whatever can be parsed, from `k` bytes, with `l` local variables in all functions together. -/
theorem C87_bytes_partial (hF : FloatText n std) {D : Nat} {s rest : List Byte} {m : Module} (h : parseModule s = (.ok m, rest)) (hD : NestsAtMost D m) :
    (dbgModule std m).length ≤ (400 + n) * (2 * s.length + localsOf m) * (D + 1) + 230 := by
  have hb := bulk_le_length (flats_of_encodable ((C27_exact m).mp ⟨s, rest, h⟩))
  have hp := Printed.payload_length m
  have hs := C27_shortest h
  have hk : parts m ≤ 2 * s.length + localsOf m := by unfold parts; omega
  refine Nat.le_trans (C87_depth_partial hF hD) (Nat.add_le_add_right (Nat.mul_le_mul_right _ (Nat.mul_le_mul_left _ hk)) _)

/-- **C87, lower bound, partial.** The text is at least quadratic in the depth of any body. -/
theorem C87_lower_partial {m : Module} {f : Func} (hf : f ∈ m.funcs) : 54 * depthL f.body * depthL f.body ≤ (dbgModule std m).length :=
  Printed.long_module hf

/-- **C87, quadratic, partial.** The text is at most quadratic in the length of the file, apart from local variables. -/
theorem C87_quadratic_partial (hF : FloatText n std) {s rest : List Byte} {m : Module} (h : parseModule s = (.ok m, rest)) :
    (dbgModule std m).length ≤ (400 + n) * (2 * s.length + localsOf m) * (s.length + 1) + 230 := by
  refine C87_bytes_partial hF h (Classical.byContradiction fun hn => ?_)
  have h1 := (C71_exact_partial h s.length).2 hn
  rw [C71_short_partial (k := s.length) (by omega), h] at h1
  cases h1

theorem steep (x : Nat) : (18 * (x + 12) - 199) * (3 * (x + 12) + 33) ≤ 54 * (x + 12) * (x + 12) := by
  have h2 : (18 * x + 17) * (3 * x + 69) = 54 * (x * x) + 1293 * x + 1173 := by
    have : 18 * x * (3 * x) = 54 * (x * x) := by rw [Nat.mul_assoc, Nat.mul_left_comm x 3 x, ← Nat.mul_assoc]
    refine (Nat.add_mul (18 * x) 17 _).trans ?_
    rw [Nat.mul_add (18 * x), this]
    generalize x * x = q
    omega
  have h3 : (x + 12) * (x + 12) = x * x + 24 * x + 144 := by
    refine (Nat.add_mul x 12 _).trans ?_
    rw [Nat.mul_add x]
    generalize x * x = q
    omega
  have h4 : (18 * (x + 12) - 199) * (3 * (x + 12) + 33) = (18 * x + 17) * (3 * x + 69) :=
    congr (congrArg _ (by omega)) (by omega)
  have h5 : 54 * (x + 12) * (x + 12) = 54 * (x * x + 24 * x + 144) := (Nat.mul_assoc 54 (x + 12) (x + 12)).trans (congrArg _ h3)
  refine Nat.le_trans (Nat.le_of_eq (h4.trans h2)) (Nat.le_trans ?_ (Nat.le_of_eq h5.symm))
  generalize x * x = q
  omega

/-- The tool prints the module of a file. -/
theorem prints {s rest : List Byte} {m : Module} {r : ModuleResult} (h : parseModule s = (.ok m, rest)) (hv : validateModule m = .ok r) :
    mainRun ["whasm", "-p", "a.wasm"] (fun _ => .contents s) = ⟨[], some m, 0⟩ := by
  have hc : configNew ["whasm", "-p", "a.wasm"] = some ⟨"a.wasm", true⟩ := by decide +kernel
  unfold mainRun
  rw [hc]
  dsimp only
  rw [h]
  dsimp only
  rw [hv]
  rfl

/-- **C87 does not hold.** For any factor below 2^34 there is a file with a valid module without local variables for which the tool prints more than so many characters per byte. -/
theorem C87_negation {c : Nat} (hc : c < 2 ^ 34) : ∃ s m, GModule .w3c s m ∧ Valid .w3c m ∧ localsOf m = 0 ∧
    mainRun ["whasm", "-p", "a.wasm"] (fun _ => .contents s) = ⟨[], some m, 0⟩ ∧
    c * s.length < ((mainRun ["whasm", "-p", "a.wasm"] fun _ => .contents s).stdout std).length := by
  obtain ⟨d, hd⟩ : ∃ d, d = c / 18 + 12 := ⟨_, rfl⟩
  have hk : d ≤ 2 ^ 30 := by omega
  have hp := C27_roundtrip (encodable_deep (D := .code) (k := d) (by simp [Dialect.code]) hk)
  have hv := C29_deep_valid d
  have hr := prints hp hv
  refine ⟨encModule (deepModule d), deepModule d, (C27_w3c _).2 (encodable_deep (by simp [Dialect.w3c]) hk), deep_w3c d, rfl, hr, ?_⟩
  have h1 := length_deepModule hk
  have h2 := C87_lower_partial (std := std) (m := deepModule d) (f := ⟨0, [], deep d⟩) (by simp [deepModule])
  have h3 : (Run.stdout std ⟨[], some (deepModule d), 0⟩).length = (dbgModule std (deepModule d)).length + 1 := by simp [Run.stdout]
  have h4 : depthL (deep d) = d := depth_deep d
  rw [hr, h3]
  dsimp only at h2
  rw [h4] at h2
  have h5 : c * (encModule (deepModule d)).length ≤ (18 * d - 199) * (3 * d + 33) := Nat.mul_le_mul (by omega) h1
  have h6 := steep (c / 18)
  rw [← hd] at h6
  omega

/-! ## Examples -/

/-- The text of floats of `plainStd`. -/
theorem plainStd_short : FloatText 20 plainStd where
  short32 v := by
    simp only [plainStd]
    split
    · decide
    · exact Nat.le_trans (Printed.length_digits (by decide) 9 _ _ (Nat.lt_of_lt_of_le v.isLt (by decide))) (by decide)
  short64 v := by
    simp only [plainStd]
    split
    · decide
    · exact Printed.length_digits (by decide) 19 _ _ (Nat.lt_of_lt_of_le v.isLt (by decide))
  line32 v := by
    simp only [plainStd]
    split
    · decide
    · exact List.count_eq_zero.mp (Printed.breaks_nat _)
  line64 v := by
    simp only [plainStd]
    split
    · decide
    · exact List.count_eq_zero.mp (Printed.breaks_nat _)

/-- The module `costly` of `Props/Metered`, 36 parts, one block. -/
example : parts costly = 36 ∧ breaks (dbgModule plainStd costly) = 194 ∧ (dbgModule plainStd costly).length = 4502 := by decide +kernel

theorem deep_expr : ∀ k, breaks (dbgExpr std (deep k)) = 9 * k + 2 ∧ (dbgExpr std (deep k)).length = 54 * (k * k) + 85 * k + 15
  | 0 => by
    show breaks (dbgTuple (text "Expr") [dbgList []]) = 2 ∧ (dbgTuple (text "Expr") [dbgList []]).length = 15
    decide +kernel
  | k + 1 => by
    have h := deep_expr k
    have e : breaks (text "Expr") = 0 ∧ (text "Expr").length = 4 ∧ breaks (text "Block") = 0 ∧ (text "Block").length = 5 ∧
      breaks (dbgRetVal []) = 2 ∧ (dbgRetVal []).length = 17 := by decide +kernel
    obtain ⟨e1, e2, e3, e4, e5, e6⟩ := e
    have hs : (k + 1) * (k + 1) = k * k + 2 * k + 1 := by rw [Nat.add_mul, Nat.mul_add]; omega
    rw [hs]
    show breaks (dbgTuple (text "Expr") [dbgList [dbgTuple (text "Block") [dbgRetVal [], dbgExpr std (deep k)]]]) = _ ∧
      (dbgTuple (text "Expr") [dbgList [dbgTuple (text "Block") [dbgRetVal [], dbgExpr std (deep k)]]]).length = _
    simp only [Printed.breaks_tuple, Printed.length_tuple, Printed.breaks_items, Printed.length_items, Printed.wide_eq, total, e1, e2, e3, e4, e5, e6, List.cons_ne_nil, if_false]
    omega

/-- The length of the text of `k` blocks inside of each other, exactly: the factor 54 in `C87_lower_partial` is the best possible. -/
theorem C87_deep_partial (k : Nat) : (dbgModule std (deepModule k)).length = 54 * (k * k) + 193 * k + 416 := by
  have h := deep_expr (std := std) k
  have e : breaks (text "Func") = 0 ∧ (text "Func").length = 4 ∧ breaks (text "ty") = 0 ∧ (text "ty").length = 2 ∧
    breaks (text "locals") = 0 ∧ (text "locals").length = 6 ∧ breaks (text "body") = 0 ∧ (text "body").length = 4 ∧
    breaks (dbgIdx "Type" 0) = 2 ∧ (dbgIdx "Type" 0).length = 14 ∧ breaks (dbgVals []) = 0 ∧ (dbgVals []).length = 2 := by decide +kernel
  obtain ⟨e1, e2, e3, e4, e5, e6, e7, e8, e9, e10, e11, e12⟩ := e
  have h1 : breaks (dbgFunc std ⟨0, [], deep k⟩) = 9 * k + 8 ∧ (dbgFunc std ⟨0, [], deep k⟩).length = 54 * (k * k) + 121 * k + 91 := by
    simp only [dbgFunc, Printed.breaks_struct, Printed.length_struct, total, e1, e2, e3, e4, e5, e6, e7, e8, e9, e10, e11, e12]
    omega
  have h2 : breaks (dbgList [dbgFunc std ⟨0, [], deep k⟩]) = 9 * k + 10 ∧ (dbgList [dbgFunc std ⟨0, [], deep k⟩]).length = 54 * (k * k) + 157 * k + 132 := by
    simp only [Printed.breaks_items, Printed.length_items, Printed.wide_eq, total, List.cons_ne_nil, if_false]
    omega
  have e : breaks (text "Module") = 0 ∧ (text "Module").length = 6 ∧ breaks (text "types") = 0 ∧ (text "types").length = 5 ∧
    breaks (text "funcs") = 0 ∧ (text "funcs").length = 5 ∧ breaks (text "tables") = 0 ∧ (text "tables").length = 6 ∧
    breaks (text "mems") = 0 ∧ (text "mems").length = 4 ∧ breaks (text "globals") = 0 ∧ (text "globals").length = 7 ∧
    breaks (text "elem") = 0 ∧ (text "elem").length = 4 ∧ breaks (text "data") = 0 ∧ (text "data").length = 4 ∧
    breaks (text "start") = 0 ∧ (text "start").length = 5 ∧ breaks (text "imports") = 0 ∧ (text "imports").length = 7 ∧
    breaks (text "exports") = 0 ∧ (text "exports").length = 7 ∧ breaks (dbgList [dbgFuncTy ⟨[], []⟩]) = 5 ∧ (dbgList [dbgFuncTy ⟨[], []⟩]).length = 62 ∧
    breaks (dbgList []) = 0 ∧ (dbgList []).length = 2 ∧ breaks (dbgOption none) = 0 ∧ (dbgOption none).length = 4 := by decide +kernel
  obtain ⟨e1, e2, e3, e4, e5, e6, e7, e8, e9, e10, e11, e12, e13, e14, e15, e16, e17, e18, e19, e20, e21, e22, e23, e24, e25, e26, e27, e28⟩ := e
  simp only [dbgModule, deepModule, List.map_cons, List.map_nil, Option.map_none, Printed.length_struct, total, e2, e3, e4, e5, e6, e7, e8, e9, e10, e11, e12, e13, e14, e15, e16, e17, e18, e19, e20, e21, e22, e23, e24, e25,
    e26, e27, e28]
  omega

end Whasm
