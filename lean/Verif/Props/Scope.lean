import Verif.Lemmas.Scope
import Verif.Props.Native
import Verif.Props.Validity
import Verif.Props.Message

/-!
# C88: whoever can parse a file can also do the rest

The native stack has a number of bytes, and one level of blocks takes `F.parse` bytes in the parser, `F.validate` in validation, `F.drop` in destructors and `F.print` in `derive(Debug)`
(`Model/Scope.lean`). Destructors run on all paths, also when the parser gives up with an error inside of blocks. The theorems say that nothing but parsing can exhaust the stack, if
one level takes nowhere more bytes than in the parser, and only then.
-/

namespace Whasm
open Spec Scope

variable {F : Frames} {S : Nat}

/-- **C88, destructors in the parser.** With destructors, the parser does on every input the same as without: the same result, error or abort. -/
theorem C88_parse (h : F.drop ≤ F.parse) : Scope.parseModule F S = parseModuleOn (S / F.parse) := by
  funext s
  rcases (rel_module F S s).1 with h1 | ⟨h1, -⟩
  · exact h1
  · exact absurd h h1

/-- The same with destructors of any size, for inputs that are modules: nothing recursive is dropped then. -/
theorem C88_success {s r : List Byte} {m : Module} : Scope.parseModule F S s = (.ok m, r) ↔ parseModuleOn (S / F.parse) s = (.ok m, r) := by
  rcases (rel_module F S s).1 with h1 | ⟨-, ⟨e, h1⟩, h2⟩
  · rw [h1]
  · constructor
    · intro h; rw [h] at h2; cases h2
    · intro h; rw [h] at h1; cases h1

/-- An expression with two blocks inside of each other, then a byte that is no instruction: the first block is dropped two levels further out. -/
example : (Scope.parseExpr ⟨8, 1, 8, 1, by decide, by decide⟩ 16 [0x02, 0x40, 0x02, 0x40, 0x0B, 0xFF]).1 = .error (.invalidVariantId 0xFF "instr::Instr") ∧
    (Scope.parseExpr ⟨8, 1, 9, 1, by decide, by decide⟩ 16 [0x02, 0x40, 0x02, 0x40, 0x0B, 0xFF]).1 = .error .panic ∧
    (parseExprOn 2 [0x02, 0x40, 0x02, 0x40, 0x0B, 0xFF]).1 = .error (.invalidVariantId 0xFF "instr::Instr") := by decide +kernel

/-- What has been parsed with some stack is nested less deeply than there is room. -/
theorem parsed_small {s r : List Byte} {m : Module} (h : Scope.parseModule F S s = (.ok m, r)) : NestsAtMost (S / F.parse) m :=
  (rel_module F S s).2 m r (C88_success.mp h)

theorem walk_of_small {c : Nat} {m : Module} (hc : c ≤ F.parse) (h : NestsAtMost (S / F.parse) m) : walkModule c m S = true := by
  have key : ∀ d, d ≤ S / F.parse → c * d ≤ S := fun d hd => Nat.le_trans (Nat.mul_le_mul hc hd) (Nat.mul_div_le _ _)
  exact walk_module.mpr ⟨fun x hx => key _ (h.funcs x hx), fun x hx => key _ (h.globals x hx), fun x hx => key _ (h.elem x hx), fun x hx => key _ (h.data x hx)⟩

/-- **C88, the rest.** A module that has been parsed can be dropped, printed and validated with the same stack. -/
theorem C88_rest {s r : List Byte} {m : Module} (h : Scope.parseModule F S s = (.ok m, r)) :
    (F.drop ≤ F.parse → walkModule F.drop m S = true) ∧ (F.print ≤ F.parse → walkModule F.print m S = true) ∧
    (F.validate ≤ F.parse → validateModuleOn (S / F.validate) m = validateModule m) := by
  have hn := parsed_small h
  refine ⟨fun hc => walk_of_small hc hn, fun hc => walk_of_small hc hn, fun hc => ?_⟩
  have hp : parseModuleOn (S / F.parse) s = (.ok m, r) := C88_success.mp h
  have hle : S / F.parse ≤ S / F.validate := Nat.div_le_div_left hc F.validate_pos
  have hl : LimV (do contextFrom m; validateModuleBodyOn (S / F.validate) m) (do contextFrom m; validateModuleBody m) _ := LimV.after fun _ => limV_module _ m
  unfold validateModuleOn validateModule
  rw [hl.1 fun f hf => Nat.le_trans (hn.funcs f hf) hle]
  rfl

/-- The run of the tool if parsing, validation, printing and dropping fit. -/
theorem run_fits {args : List String} {fs : String → FileResult} {config : Config} {b : List Byte} (hc : configNew args = some config) (hb : fs config.filename = .contents b)
    (hp : Scope.parseModule F S b = parseModule b)
    (hv : ∀ m r, parseModule b = (.ok m, r) → validateModuleOn (S / F.validate) m = validateModule m)
    (hw : ∀ m r x, parseModule b = (.ok m, r) → validateModule m = .ok x → (config.print = true → walkModule F.print m S = true) ∧ walkModule F.drop m S = true) :
    Scope.mainRun F S args fs = some (mainRun args fs) := by
  unfold Scope.mainRun mainRun
  simp only [hc, hb, hp]
  rcases hm : parseModule b with ⟨e | m, r⟩
  · have := (C15_module b).1
    rw [hm] at this
    cases e <;> first | rfl | exact absurd rfl this
  · simp only
    rw [hv m r hm]
    rcases hx : validateModule m with e | x
    · have := C32_no_panic m
      rw [hx] at this
      cases e <;> first | rfl | exact absurd rfl this
    · obtain ⟨h1, h2⟩ := hw m r x hm hx
      simp only [h2]
      cases hpr : config.print with
      | false => rfl
      | true => rw [h1 hpr]; rfl

/-- **C88, the tool.** If one level takes nowhere more stack than in the parser, then for all arguments and files the tool is aborted or does what it does with an unlimited stack; and it is aborted only if the
parser alone is, on the contents of the file given. -/
theorem C88_tool (hd : F.drop ≤ F.parse) (hp : F.print ≤ F.parse) (hv : F.validate ≤ F.parse) (args : List String) (fs : String → FileResult) :
    Scope.mainRun F S args fs = some (mainRun args fs) ∨
    Scope.mainRun F S args fs = none ∧ ∃ config b, configNew args = some config ∧ fs config.filename = .contents b ∧ (parseModuleOn (S / F.parse) b).1 = .error .panic := by
  cases hc : configNew args with
  | none => left; unfold Scope.mainRun; rw [hc]
  | some config =>
    cases hb : fs config.filename with
    | cannotOpen e => left; unfold Scope.mainRun; simp only [hc, hb]
    | cannotRead e => left; unfold Scope.mainRun; simp only [hc, hb]
    | contents b =>
      by_cases h : (parseModuleOn (S / F.parse) b).1 = .error .panic
      · refine .inr ⟨?_, config, b, rfl, hb, h⟩
        unfold Scope.mainRun
        simp only [hc, hb, C88_parse hd, h]
      · left
        have hs : Scope.parseModule F S b = parseModule b := by
          rw [C88_parse hd]
          exact (C71_same_partial _ b).resolve_left h
        refine run_fits hc hb hs (fun m r hm => ?_) fun m r x hm _ => ?_
        · exact (C88_rest (hs.trans hm)).2.2 hv
        · exact ⟨fun _ => (C88_rest (hs.trans hm)).2.1 hp, (C88_rest (hs.trans hm)).1 hd⟩

theorem mul_le_iff {a k S : Nat} (ha : 0 < a) : k ≤ S / a ↔ a * k ≤ S := by
  rw [Nat.le_div_iff_mul_le ha, Nat.mul_comm]

/-- The constant expressions of an accepted module have no blocks. -/
theorem accepted_flat {m : Module} {x : ModuleResult} (h : validateModule m = .ok x) :
    (∀ g ∈ m.globals, depthL g.init = 0) ∧ (∀ e ∈ m.elem, depthL e.offset = 0) ∧ ∀ d ∈ m.data, depthL d.offset = 0 := by
  have key : ∀ {gs : List GlobalTy} {e : Expr} {t : Val}, SingleConst gs e t → depthL e = 0 := by
    intro gs e t h
    cases h <;> rfl
  obtain ⟨h1, h2, h3⟩ := C40_module h
  exact ⟨fun g hg => key (h1 g hg), fun g hg => key (h2 g hg), fun g hg => key (h3 g hg)⟩

/-- **C88, exactly.** A file with an accepted module, with any bytes per level: the tool is aborted if a function body is nested so deeply that parsing, validating, dropping or (if asked for) printing
it does not fit, and otherwise does what it does with an unlimited stack. -/
theorem C88_exact {args : List String} {fs : String → FileResult} {config : Config} {b r : List Byte} {m : Module} {x : ModuleResult}
    (hc : configNew args = some config) (hb : fs config.filename = .contents b) (hm : parseModule b = (.ok m, r)) (hx : validateModule m = .ok x) :
    Scope.mainRun F S args fs =
      if ∀ f ∈ m.funcs, max (max F.parse F.validate) (max F.drop (if config.print then F.print else 0)) * depthL f.body ≤ S then some (mainRun args fs) else none := by
  obtain ⟨z1, z2, z3⟩ := accepted_flat hx
  have hN : ∀ k, NestsAtMost k m ↔ ∀ f ∈ m.funcs, depthL f.body ≤ k := fun k =>
    ⟨fun h => h.funcs, fun h => ⟨h, fun g hg => by rw [z1 g hg]; omega, fun g hg => by rw [z2 g hg]; omega, fun g hg => by rw [z3 g hg]; omega⟩⟩
  have hW : ∀ c, walkModule c m S = true ↔ ∀ f ∈ m.funcs, c * depthL f.body ≤ S := fun c => by
    rw [walk_module]
    exact ⟨fun h => h.1, fun h => ⟨h, fun g hg => by rw [z1 g hg]; omega, fun g hg => by rw [z2 g hg]; omega, fun g hg => by rw [z3 g hg]; omega⟩⟩
  have hmax : (∀ f ∈ m.funcs, max (max F.parse F.validate) (max F.drop (if config.print then F.print else 0)) * depthL f.body ≤ S) ↔
      (∀ f ∈ m.funcs, F.parse * depthL f.body ≤ S) ∧ (∀ f ∈ m.funcs, F.validate * depthL f.body ≤ S) ∧ (∀ f ∈ m.funcs, F.drop * depthL f.body ≤ S) ∧
      (config.print = true → ∀ f ∈ m.funcs, F.print * depthL f.body ≤ S) := by
    have key : ∀ {a b d : Nat}, max a b * d ≤ S ↔ a * d ≤ S ∧ b * d ≤ S := fun {a b d} => by
      rw [Nat.mul_comm, mul_max, Nat.mul_comm d, Nat.mul_comm d]
    simp only [key]
    cases config.print <;> simp +contextual [forall_and, and_assoc]
  by_cases h1 : ∀ f ∈ m.funcs, F.parse * depthL f.body ≤ S
  · have hn : NestsAtMost (S / F.parse) m := (hN _).mpr fun f hf => (mul_le_iff F.parse_pos).mpr (h1 f hf)
    have hp : Scope.parseModule F S b = (.ok m, r) := C88_success.mpr ((C71_exact_partial hm _).1 hn)
    by_cases h2 : ∀ f ∈ m.funcs, F.validate * depthL f.body ≤ S
    · have hv := (C71_validate_partial hx (S / F.validate)).1 fun f hf => (mul_le_iff F.validate_pos).mpr (h2 f hf)
      by_cases h3 : config.print = true → ∀ f ∈ m.funcs, F.print * depthL f.body ≤ S
      · by_cases h4 : ∀ f ∈ m.funcs, F.drop * depthL f.body ≤ S
        · rw [if_pos (hmax.mpr ⟨h1, h2, h4, h3⟩)]
          refine run_fits hc hb (hp.trans hm.symm) (fun m' r' h => ?_) fun m' r' x' h _ => ?_
          · rw [hm] at h; cases h; rw [hv, hx]
          · rw [hm] at h; cases h; exact ⟨fun hpr => (hW _).mpr (h3 hpr), (hW _).mpr h4⟩
        · rw [if_neg fun h => h4 (hmax.mp h).2.2.1]
          have h5 : walkModule F.drop m S = false := by
            rw [Bool.eq_false_iff]; exact fun h => h4 ((hW _).mp h)
          unfold Scope.mainRun
          simp only [hc, hb, hp, hv, h5]
          split <;> rfl
      · rw [if_neg fun h => h3 (hmax.mp h).2.2.2]
        have hpr : config.print = true := Classical.byContradiction fun h => h3 fun hh => absurd hh h
        have h5 : walkModule F.print m S = false := by
          rw [Bool.eq_false_iff]; exact fun h => h3 fun _ => (hW _).mp h
        unfold Scope.mainRun
        simp only [hc, hb, hp, hv, hpr, h5]
        rfl
    · rw [if_neg fun h => h2 (hmax.mp h).2.1]
      have hv := (C71_validate_partial hx (S / F.validate)).2 (Classical.byContradiction fun hn => h2 fun f hf =>
        (mul_le_iff F.validate_pos).mp (Nat.le_of_not_lt fun hlt => hn ⟨f, hf, hlt⟩))
      unfold Scope.mainRun
      simp only [hc, hb, hp, hv]
  · rw [if_neg fun h => h1 (hmax.mp h).1]
    have hn : ¬ NestsAtMost (S / F.parse) m := fun hn => h1 fun f hf => (mul_le_iff F.parse_pos).mp (hn.funcs f hf)
    have h2 := (C71_exact_partial hm _).2 hn
    have h3 : (Scope.parseModule F S b).1 = .error .panic := by
      rcases (rel_module F S b).1 with h | ⟨-, -, h⟩
      · rw [h]; exact h2
      · exact h
    unfold Scope.mainRun
    simp only [hc, hb, h3]

/-- **C88, the condition is needed.** If one level takes more stack somewhere else than in the parser, there is a stack and a file with a valid module that can be parsed while the tool is aborted. -/
theorem C88_needed (h : F.parse < max F.validate (max F.drop F.print)) : ∃ S s m r, GModule .w3c s m ∧ Valid .w3c m ∧ Scope.parseModule F S s = (.ok m, r) ∧
    Scope.mainRun F S ["whasm", "-p", "a.wasm"] (fun _ => .contents s) = none := by
  have hp := C27_roundtrip (encodable_deep (D := .code) (k := 1) (by simp [Dialect.code]) (by omega))
  have hv := C29_deep_valid 1
  refine ⟨F.parse, encModule (deepModule 1), deepModule 1, [], (C27_w3c _).2 (encodable_deep (by simp [Dialect.w3c]) (by omega)), deep_w3c _, ?_, ?_⟩
  · refine C88_success.mpr ((C71_exact_partial hp _).1 ?_)
    rw [Nat.div_self F.parse_pos]
    exact ⟨by simp [deepModule, depth_deep], by simp [deepModule], by simp [deepModule], by simp [deepModule]⟩
  · have hc : configNew ["whasm", "-p", "a.wasm"] = some ⟨"a.wasm", true⟩ := by decide +kernel
    rw [C88_exact hc rfl hp hv, if_neg]
    intro hh
    have := hh ⟨0, [], deep 1⟩ (by simp [deepModule])
    simp only [depth_deep, Nat.mul_one, if_true] at this
    omega

/-- The exit code of the tool for the file `threeDeep`, with 100, 60, 40 and `p` bytes per level. -/
def threeRun (p room : Nat) (args : List String) : Option Nat :=
  (Scope.mainRun ⟨100, 60, 40, p, by decide, by decide⟩ room args fun _ => .contents threeDeep).map (·.exit)

-- three blocks inside of each other: aborted with 299 bytes; with 300 bytes only if printing takes more than parsing, and the module is to be printed
example : threeRun 100 300 ["whasm", "-p", "a.wasm"] = some 0 ∧ threeRun 100 299 ["whasm", "-p", "a.wasm"] = none ∧
    threeRun 101 300 ["whasm", "-p", "a.wasm"] = none ∧ threeRun 101 300 ["whasm", "a.wasm"] = some 0 := by decide +kernel

end Whasm
