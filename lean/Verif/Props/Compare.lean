import Verif.Lemmas.Compare
import Verif.Props.Scope
import Verif.Props.Equality

/-!
# C92: comparing two modules on a native stack

`Model/Compare.lean` is the derived `==` with `room` bytes of native stack, `cost` of them for each level of blocks that is entered. `Spec/Compare.lean` says which levels have to be entered
to find the first difference.
-/

namespace Whasm
open Spec

variable {F : Scope.Frames} {c S : Nat} {m n : Module}

/-- **C92, exactly.** `m == n` is aborted if, up to the first difference, blocks have to be entered that do not fit, and otherwise has its result. -/
theorem C92_exact (c S : Nat) (m n : Module) : ((∃ k, EntersModule k m n ∧ S < c * k) → Compare.moduleEq c m n S = none) ∧
    ((∀ k, EntersModule k m n → c * k ≤ S) → Compare.moduleEq c m n S = some (moduleEq m n)) :=
  ⟨(Compare.runs_module c S m n).1, fun h => (Compare.runs_module c S m n).2 fun ⟨k, hk, hd⟩ => absurd (h k hk) (Nat.not_le.mpr hd)⟩

/-- A function with blocks inside of each other, one for each item, and the constant inside. -/
def tower : List RetVal → I32 → Module
  | ts, v => { types := [⟨[], []⟩], funcs := [⟨0, [], ts.foldr (fun t e => [.block t e]) [.constI32 v, .drop]⟩] }

-- three blocks, ten bytes each; the difference is inside, in the type of the second block, in the number of functions
example : Compare.moduleEq 10 (tower [[], [], []] 1) (tower [[], [], []] 2) 30 = some false ∧
    Compare.moduleEq 10 (tower [[], [], []] 1) (tower [[], [], []] 2) 29 = none ∧
    Compare.moduleEq 10 (tower [[], [], []] 1) (tower [[], [.i32], []] 1) 10 = some false ∧
    Compare.moduleEq 10 (tower [[], [], []] 1) (tower [[], [.i32], []] 1) 9 = none ∧
    Compare.moduleEq 10 (tower [[], [], []] 1) {} 0 = some false := by decide +kernel

/-- **C92, what has been parsed.** If one level takes no more stack in `==` than in the parser, then a module that has been parsed can be compared with any other, on either side, with the same stack. -/
theorem C92_parsed {s r : List Byte} (hc : c ≤ F.parse) (h : Scope.parseModule F S s = (.ok m, r)) (n : Module) :
    Compare.moduleEq c m n S = some (moduleEq m n) ∧ Compare.moduleEq c n m S = some (moduleEq n m) := by
  have hn := parsed_small h
  have key : ∀ k, k ≤ S / F.parse → c * k ≤ S := fun k hk => Nat.le_trans (Nat.mul_le_mul hc hk) (Nat.mul_div_le _ _)
  exact ⟨(C92_exact c S m n).2 fun k hk => key k (Compare.entersModule_depth hk hn),
    (C92_exact c S n m).2 fun k hk => key k (Compare.entersModule_depth (Compare.entersModule_symm hk) hn)⟩

/-- **C92, equal modules.** Modules that are equal are looked into completely: the comparison is aborted exactly if there is an expression nested too deeply. -/
theorem C92_equal (h : moduleEq m n = true) : Compare.moduleEq c m n S = if ∀ e ∈ exprsOf m, c * depthL e ≤ S then some true else none := by
  have hs := Compare.same_module (c := c) (room := S) ((C53_meaning m n).mp h)
  have hw : Scope.walkModule c m S = true ↔ ∀ e ∈ exprsOf m, c * depthL e ≤ S := by
    rw [Scope.walk_module]
    constructor
    · rintro ⟨h1, h2, h3, h4⟩ e he
      simp only [exprsOf, List.mem_append, List.mem_map] at he
      rcases he with ((⟨f, hf, rfl⟩ | ⟨f, hf, rfl⟩) | ⟨f, hf, rfl⟩) | ⟨f, hf, rfl⟩
      · exact h1 f hf
      · exact h2 f hf
      · exact h3 f hf
      · exact h4 f hf
    · intro h
      refine ⟨fun f hf => h _ ?_, fun f hf => h _ ?_, fun f hf => h _ ?_, fun f hf => h _ ?_⟩ <;> simp only [exprsOf, List.mem_append, List.mem_map]
      · exact .inl (.inl (.inl ⟨f, hf, rfl⟩))
      · exact .inl (.inl (.inr ⟨f, hf, rfl⟩))
      · exact .inl (.inr ⟨f, hf, rfl⟩)
      · exact .inr ⟨f, hf, rfl⟩
  split
  · next hd =>
    rw [(Compare.runs_module c S m n).2 fun hk => by rw [hw.mpr hd] at hs; exact absurd (hs.mp hk) (by decide), h]
  · next hd =>
    exact (Compare.runs_module c S m n).1 (hs.mpr (Bool.eq_false_iff.mpr fun hh => hd (hw.mp hh)))

example : Compare.moduleEq 10 (tower [[], [], []] 1) (tower [[], [], []] 1) 30 = some true ∧
    Compare.moduleEq 10 (tower [[], [], []] 1) (tower [[], [], []] 1) 29 = none := by decide +kernel

/-- **C92, the order does not matter**, also for whether the comparison is aborted. -/
theorem C92_symmetric : Compare.moduleEq c m n S = Compare.moduleEq c n m S := by
  have hv : moduleEq m n = moduleEq n m := Bool.eq_iff_iff.mpr ⟨C53_symmetric, C53_symmetric⟩
  by_cases h : ∃ k, EntersModule k m n ∧ S < c * k
  · obtain ⟨k, hk, hd⟩ := h
    rw [(C92_exact c S m n).1 ⟨k, hk, hd⟩, (C92_exact c S n m).1 ⟨k, Compare.entersModule_symm hk, hd⟩]
  · have h' : ∀ k, EntersModule k m n → c * k ≤ S := fun k hk => Nat.le_of_not_lt fun hd => h ⟨k, hk, hd⟩
    rw [(C92_exact c S m n).2 h', (C92_exact c S n m).2 fun k hk => h' k (Compare.entersModule_symm hk), hv]

/-- **C92, the condition is needed.** If one level takes more stack in `==` than in the parser, there is a stack and a valid module that can be parsed, but not compared with itself. -/
theorem C92_needed (h : F.parse < c) : ∃ S s m r, GModule .w3c s m ∧ Valid .w3c m ∧ Scope.parseModule F S s = (.ok m, r) ∧ Compare.moduleEq c m m S = none := by
  have hp := C27_roundtrip (encodable_deep (D := .code) (k := 1) (by simp [Dialect.code]) (by omega))
  refine ⟨F.parse, encModule (deepModule 1), deepModule 1, [], (C27_w3c _).2 (encodable_deep (by simp [Dialect.w3c]) (by omega)), deep_w3c _, ?_, ?_⟩
  · refine C88_success.mpr ((C71_exact_partial hp _).1 ?_)
    rw [Nat.div_self F.parse_pos]
    exact ⟨by simp [deepModule, depth_deep], by simp [deepModule], by simp [deepModule], by simp [deepModule]⟩
  · rw [C92_equal (by decide +kernel), if_neg]
    intro hh
    have := hh (deep 1) (by simp [exprsOf, deepModule])
    rw [depth_deep] at this
    omega

-- the file with three blocks inside of each other, compared with itself on the stack it has been parsed on
example : (match Scope.parseModule ⟨100, 60, 40, 100, by decide, by decide⟩ 300 threeDeep with
    | (.ok m, _) => [Compare.moduleEq 100 m m 300, Compare.moduleEq 101 m m 300, Compare.moduleEq 100 m {} 300]
    | _ => []) = [some true, none, some false] := by decide +kernel

end Whasm
