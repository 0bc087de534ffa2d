import Verif.Lemmas.Native
import Verif.Lemmas.Encode
import Verif.Props.Encode
import Verif.Props.Exact

/-!
# C71: the native stack

`parseModuleOn k` and `validateModuleOn k` are `Module::parse` and `Module::validate` with a native stack that has room for `k` blocks inside of
each other (`Model/Native.lean`); `.panic` is the abort of the process. The property is that some stack of a usual size is enough for all inputs. It is
false: `C71_negation`. What is proved is when exactly the process is aborted.
-/

namespace Whasm
open Spec

/-- One function of type `[] → []` with `k` blocks inside of each other. -/
def deepModule (k : Nat) : Module := { types := [⟨[], []⟩], funcs := [⟨0, [], deep k⟩] }

/-- Two functions, three blocks inside of each other in the second. -/
def threeDeep : List Byte :=
  [0x00, 0x61, 0x73, 0x6D, 0x01, 0x00, 0x00, 0x00, 0x01, 0x04, 0x01, 0x60, 0x00, 0x00, 0x03, 0x03, 0x02, 0x00, 0x00, 0x0A, 0x15, 0x02,
    0x02, 0x00, 0x0B, 0x10, 0x00, 0x02, 0x40, 0x03, 0x40, 0x41, 0x01, 0x04, 0x40, 0x01, 0x05, 0x01, 0x0B, 0x0B, 0x0B, 0x0B]

/-- **C71, parsing, partial.** A sequence that can be parsed, with any stack: if the stack has room for the expressions of the module then the module is the
result, otherwise the process is aborted. So the memory needed depends on the depth only, not on the number of instructions, functions or sections.
Missing for C71: a depth that is enough for all modules, see `C71_negation`. -/
theorem C71_exact_partial {s r : List Byte} {m : Module} (h : parseModule s = (.ok m, r)) (k : Nat) :
    (NestsAtMost k m → parseModuleOn k s = (.ok m, r)) ∧ (¬ NestsAtMost k m → (parseModuleOn k s).1 = .error .panic) := by
  rcases lim_module k s with ⟨h1, h2⟩ | ⟨h1, h2⟩
  · exact ⟨fun hn => absurd hn (h2 _ _ h), fun _ => h1⟩
  · exact ⟨fun _ => h1.trans h, fun hn => absurd (h2 _ _ h) hn⟩

example : ∃ m, parseModule threeDeep = (.ok m, []) ∧ parseModuleOn 3 threeDeep = (.ok m, []) ∧ (parseModuleOn 2 threeDeep).1 = .error .panic := by
  have h : (parseModule threeDeep).1.toOption.isSome = true ∧ (parseModule threeDeep).2 = [] := by decide +kernel
  rcases hp : parseModule threeDeep with ⟨e | m, r⟩
  · rw [hp] at h; cases h.1
  · rw [hp] at h
    obtain rfl : r = [] := h.2
    refine ⟨m, rfl, ?_, by decide +kernel⟩
    rw [← hp]
    decide +kernel

/-- **C71, no third way, partial.** On any input and with any stack, the process is aborted or the outcome is that with an unlimited stack: a small stack never
changes a result. -/
theorem C71_same_partial (k : Nat) (s : List Byte) : (parseModuleOn k s).1 = .error .panic ∨ parseModuleOn k s = parseModule s :=
  (lim_module k s).imp (·.1) (·.1)

/-- A small stack can also abort the process on an input that is rejected otherwise. -/
example : (parseExprOn 1 [0x02, 0x40, 0x03, 0x40, 0x0B]).1 = .error .panic ∧ (parseExpr [0x02, 0x40, 0x03, 0x40, 0x0B]).1 = .error .unexpectedEndOfFile := by
  decide +kernel

/-- **C71, short inputs, partial.** Room for half as many blocks as the input has bytes is enough, whether or not the input can be parsed. -/
theorem C71_short_partial {k : Nat} {s : List Byte} (h : s.length ≤ 2 * k) : parseModuleOn k s = parseModule s := by
  obtain ⟨h1, h2, h3, h4⟩ := same_contents (same_expr k)
  exact same_module (same_section (same_sized h1) (same_sized h2) (same_sized h3) (same_sized h4)) s h

example : parseModuleOn 21 threeDeep = parseModule threeDeep := C71_short_partial (by decide)

/-- Half is needed: here the process is aborted with room for one block less. -/
example : (parseExprOn 2 [0x02, 0x40, 0x02, 0x40, 0x02, 0x40]).1 = .error .panic ∧
    parseExprOn 3 [0x02, 0x40, 0x02, 0x40, 0x02, 0x40] = parseExpr [0x02, 0x40, 0x02, 0x40, 0x02, 0x40] := by decide +kernel

/-- **C71, all inputs, partial.** Room for 2^31 blocks is enough for inputs of any length. -/
theorem C71_enough_partial {k : Nat} (h : 2 ^ 31 ≤ k) : parseModuleOn k = parseModule := by
  obtain ⟨h1, h2, h3, h4⟩ := same_contents ((same_expr k).mono (k := 2 ^ 32 - 1) (by omega))
  funext s
  have e {α : Type} {q p : P α} (h : AgreeTo (2 ^ 32 - 1) q p) : AgreeTo s.length (parseSized q) (parseSized p) := by
    rw [same_window h]; exact same_refl _ _
  exact same_module (same_section (e h1) (e h2) (e h3) (e h4)) s (Nat.le_refl _)

example : parseModuleOn (2 ^ 31) threeDeep = parseModule threeDeep := by rw [C71_enough_partial (Nat.le_refl _)]

/-- **C71, validation, partial.** An accepted module, with any stack: if the stack has room for the bodies of its functions then the outcome is the same,
otherwise the process is aborted. Other expressions do not matter. -/
theorem C71_validate_partial {m : Module} {r : ModuleResult} (h : validateModule m = .ok r) (k : Nat) :
    ((∀ f ∈ m.funcs, depthL f.body ≤ k) → validateModuleOn k m = .ok r) ∧
      ((∃ f ∈ m.funcs, k < depthL f.body) → validateModuleOn k m = .error .panic) := by
  have hl : LimV (do contextFrom m; validateModuleBodyOn k m) (do contextFrom m; validateModuleBody m) _ := LimV.after fun _ => limV_module k m
  refine ⟨fun hb => ?_, fun ⟨f, hf, hd⟩ => ?_⟩
  · unfold validateModuleOn
    rw [hl.1 hb]
    exact h
  · unfold validateModuleOn
    rcases hl.2 (fun hb => by have := hb f hf; omega) {} with h1 | ⟨_, e, h2⟩
    · rw [h1]
    · unfold validateModule at h
      rw [h2] at h
      cases h

example : validateModuleOn 3 (deepModule 3) = .ok ⟨[], []⟩ ∧ validateModuleOn 2 (deepModule 3) = .error .panic := by decide +kernel

/-- **C71, validation, no third way, partial.** For any module and with any stack, the process is aborted or the outcome is that with an unlimited stack. -/
theorem C71_validate_same_partial (k : Nat) (m : Module) : validateModuleOn k m = .error .panic ∨ validateModuleOn k m = validateModule m := by
  have hl : LimV (do contextFrom m; validateModuleBodyOn k m) (do contextFrom m; validateModuleBody m) _ := LimV.after fun _ => limV_module k m
  unfold validateModuleOn validateModule
  by_cases hb : ∀ f ∈ m.funcs, depthL f.body ≤ k
  · rw [hl.1 hb]; exact .inr rfl
  · rcases hl.2 hb {} with h1 | ⟨h1, -⟩
    · rw [h1]; exact .inl rfl
    · rw [h1]; exact .inr rfl

/-- The error comes first. -/
example : validateModuleOn 0 { types := [⟨[], []⟩], funcs := [⟨0, [], [.drop, .block [] []]⟩] } = .error .invalid := by decide +kernel

/-- **C71, one after the other, partial.** If parsing has room enough for an input, then so has validation for its module. -/
theorem C71_both_partial {s r : List Byte} {m : Module} {k : Nat} (h : parseModuleOn k s = (.ok m, r)) : validateModuleOn k m = validateModule m := by
  have hm : parseModule s = (.ok m, r) := by
    rcases C71_same_partial k s with h1 | h1
    · rw [h] at h1; cases h1
    · exact h1.symm.trans h
  have hn : NestsAtMost k m := by
    refine Classical.byContradiction fun hn => ?_
    have := (C71_exact_partial hm k).2 hn
    rw [h] at this
    cases this
  have hl : LimV (do contextFrom m; validateModuleBodyOn k m) (do contextFrom m; validateModuleBody m) _ := LimV.after fun _ => limV_module k m
  unfold validateModuleOn validateModule
  rw [hl.1 hn.funcs]
  rfl

example : ∃ m r, parseModuleOn 3 threeDeep = (.ok m, []) ∧ validateModuleOn 3 m = .ok r := by
  refine ⟨{ types := [⟨[], []⟩], funcs := [⟨0, [], []⟩, ⟨0, [], [.block [] [.loop [] [.constI32 1, .ifElse [] [.nop] [.nop]]]]⟩] }, ⟨[], []⟩, ?_⟩
  decide +kernel

/-! ## Deep modules -/

theorem depth_deep : ∀ k, depthL (deep k) = k
  | 0 => rfl
  | k + 1 => by simp [deep, depthL, depthI, depth_deep k]; omega

theorem length_deep : ∀ k, (encInstrs (deep k)).length = 3 * k
  | 0 => rfl
  | k + 1 => by
    have := length_deep k
    simp [deep, encInstrs, encInstr, encRetVal, this]
    omega

theorem occurs_deep {i : Instr} : ∀ k, Occurs i (deep k) → ∃ b, i = .block [] b
  | 0, h => by cases h <;> contradiction
  | k + 1, h => by
    cases h with
    | here h => obtain rfl := List.mem_singleton.mp h; exact ⟨_, rfl⟩
    | block h1 h2 =>
      cases List.mem_singleton.mp h1
      exact occurs_deep k h2
    | loop h1 h2 => cases List.mem_singleton.mp h1
    | thn h1 h2 => cases List.mem_singleton.mp h1
    | els h1 h2 => cases List.mem_singleton.mp h1

theorem length_deepCode {k : Nat} (h : k ≤ 2 ^ 30) : (contents (deepModule k)).code.length ≤ 3 * k + 9 ∧ (contents (deepModule k)).code.length < 2 ^ 32 := by
  have h1 : (encFunc ([], deep k)).length = 3 * k + 2 := by
    have h0 : encVec encRun (runs []) = [0] := by decide +kernel
    simp only [encFunc, h0, encExpr, List.length_append, length_deep, List.length_cons, List.length_nil]
    omega
  have h2 := encU_five (n := (encFunc ([], deep k)).length) (by omega)
  have h3 : (contents (deepModule k)).code = encU 1 ++ encSized (encFunc ([], deep k)) := by
    simp [contents, deepModule, encVec]
  have h4 : (encU 1).length = 1 := by decide +kernel
  rw [h3]
  simp only [encSized, List.length_append]
  omega

theorem encodable_deep {D : Dialect} (hD : D.locals 0) {k : Nat} (h : k ≤ 2 ^ 30) : Encodable D (deepModule k) where
  imports := by intro i hi; cases hi
  exports := by intro i hi; cases hi
  exprs := by
    intro e he i hi
    have : e = deep k := by simpa [exprsOf, deepModule] using he
    subst this
    obtain ⟨b, rfl⟩ := occurs_deep k hi
    exact Nat.zero_le 1
  locals := by
    intro f hf
    obtain rfl := List.mem_singleton.mp hf
    exact hD
  types_size := by
    show (encVec encFuncTy [⟨[], []⟩]).length < _
    decide +kernel
  imports_size := encVec_nil _
  tys_size := by
    show (encVec encIdx [0]).length < _
    decide +kernel
  tables_size := encVec_nil _
  mems_size := encVec_nil _
  globals_size := encVec_nil _
  exports_size := encVec_nil _
  elem_size := encVec_nil _
  code_size := (length_deepCode h).2
  data_size := encVec_nil _

theorem length_deepModule {k : Nat} (h : k ≤ 2 ^ 30) : (encModule (deepModule k)).length ≤ 3 * k + 33 := by
  obtain ⟨h1, h2⟩ := length_deepCode h
  have h3 := encU_five h2
  have h4 : (encSection 0x01 (deepModule k).types (contents (deepModule k)).types).length = 6 := by
    show (encSection 0x01 [(⟨[], []⟩ : FuncTy)] (encVec encFuncTy [⟨[], []⟩])).length = 6
    decide +kernel
  have h5 : (encSection 0x03 (deepModule k).funcs (contents (deepModule k)).tys).length = 4 := by
    show (0x03 :: encSized (encVec encIdx [0])).length = 4
    decide +kernel
  have h6 : encModule (deepModule k) = [0x00, 0x61, 0x73, 0x6D, 0x01, 0x00, 0x00, 0x00] ++
      encSection 0x01 (deepModule k).types (contents (deepModule k)).types ++ encSection 0x03 (deepModule k).funcs (contents (deepModule k)).tys ++
      0x0A :: encSized (contents (deepModule k)).code := by
    simp [encModule, encSection, encStart, deepModule]
  rw [h6]
  simp only [List.length_append, List.length_cons, List.length_nil, h4, h5, encSized]
  omega

theorem deep_w3c (k : Nat) : Valid .w3c (deepModule k) := by
  refine (C48_exact (C29_deep_valid k) ?_).mpr ⟨?_, fun g hg => (by cases hg), by simp [tableSpace, importedTables], by simp [memSpace, importedMems]⟩
  · intro f hf hj
    obtain rfl := List.mem_singleton.mp hf
    obtain ⟨b, hb⟩ := occurs_deep _ hj
    cases hb
  · intro f hf j hj
    obtain rfl := List.mem_singleton.mp hf
    obtain ⟨b, rfl⟩ := occurs_deep _ hj
    trivial

/-- **C71 does not hold.** For any stack that has room for less than 2^30 blocks there is an input of three bytes per block, plus at most 36, on which the process is
aborted while parsing, although it is the encoding of a valid module; and given that module, validation aborts the process as well. -/
theorem C71_negation {k : Nat} (h : k < 2 ^ 30) : ∃ s m, s.length ≤ 3 * k + 36 ∧ GModule .w3c s m ∧ Valid .w3c m ∧
    parseModule s = (.ok m, []) ∧ (∃ r, validateModule m = .ok r) ∧ (parseModuleOn k s).1 = .error .panic ∧ validateModuleOn k m = .error .panic := by
  have hm : (⟨0, [], deep (k + 1)⟩ : Func) ∈ (deepModule (k + 1)).funcs := by simp [deepModule]
  have hd := depth_deep (k + 1)
  have hp := C27_roundtrip (encodable_deep (D := .code) (k := k + 1) (by simp [Dialect.code]) (by omega))
  have hv := C29_deep_valid (k + 1)
  refine ⟨encModule (deepModule (k + 1)), deepModule (k + 1), ?_, ?_, ?_, hp, ⟨_, hv⟩, ?_, ?_⟩
  · have := length_deepModule (k := k + 1) (by omega)
    omega
  · exact (C27_w3c _).2 (encodable_deep (by simp [Dialect.w3c]) (by omega))
  · exact deep_w3c _
  · exact (C71_exact_partial hp k).2 fun hn => by
      have : depthL (deep (k + 1)) ≤ k := hn.funcs _ hm
      omega
  · exact (C71_validate_partial hv k).2 ⟨_, hm, by show k < depthL (deep (k + 1)); omega⟩

end Whasm
