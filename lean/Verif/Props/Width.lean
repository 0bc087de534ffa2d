import Verif.Lemmas.Width
import Verif.Props.Deep
import Verif.Props.Memory
import Verif.Props.Target

/-!
# C57 for whole modules: the width of `usize` in validation

`Width.validateModule w build` is `Module::validate` with `usize` of `w` bits (`Model/Width.lean`).
-/

namespace Whasm
open Spec Run

/-- **C57, modules, partial.** With more than 32 bits, the width does not matter for any module, in debug and in release builds. -/
theorem C57_module_partial {w : Nat} (h : 32 < w) (build : Build) (m : Module) : Width.validateModule w build m = validateModule m := width_module h m

theorem parsed_shallow {s r : List Byte} {m : Module} (h : parseModule s = (.ok m, r)) : ∀ f ∈ m.funcs, depthL f.body + 1 < 2 ^ 32 := by
  have h1 : NestsAtMost (2 ^ 31) m := Classical.byContradiction fun hn => by
    have h2 := (C71_exact_partial h (2 ^ 31)).2 hn
    rw [C71_enough_partial (Nat.le_refl _), h] at h2
    cases h2
  intro f hf
  have := h1.funcs f hf
  omega

/-- **C57, modules on 32-bit targets, partial.** Any module with less than `2^32 - 1` blocks inside of each other: validation panics iff it gets to a branch to the label 0xFFFFFFFF, in debug and in
release builds, and otherwise tells what it tells on other targets. Missing for C57: the modules with such a branch, see `C57_module_negation`. -/
theorem C57_module32_partial {m : Module} (hm : NoMarks m) (hd : ∀ f ∈ m.funcs, depthL f.body + 1 < 2 ^ 32) (build : Build) :
    (Width.validateModule 32 build m = .error .panic ↔ BranchesToLast m) ∧ (¬ BranchesToLast m → Width.validateModule 32 build m = validateModule m) := by
  rcases width_either (build := build) (plain_of_noMarks hm) hd with ⟨h1, h2⟩ | ⟨h1, h2⟩
  · exact ⟨⟨fun _ => h1, fun _ => h2⟩, fun h => absurd h1 h⟩
  · exact ⟨⟨fun h => absurd (h2.symm.trans h) (validate_no_panic m), fun h => absurd h h1⟩, fun _ => h2⟩

/-- **C57, parsed modules on 32-bit targets, partial.** A module that was parsed has few enough blocks, however long the input is. -/
theorem C57_parsed32_partial {s r : List Byte} {m : Module} (h : parseModule s = (.ok m, r)) (build : Build) :
    (Width.validateModule 32 build m = .error .panic ↔ BranchesToLast m) ∧ (¬ BranchesToLast m → Width.validateModule 32 build m = validateModule m) :=
  C57_module32_partial (parsed_noMarks h) (parsed_shallow h) build

mutual

theorem hitI_stuck : ∀ (i : Instr) (C : Env) (s : Loc), C.labels.length + depthI i < 2 ^ 32 → hitI C i s → evalInstr C i s = none
  | .block r b, C, s, hd, h => by
    unfold hitI at h
    simp only [depthI] at hd
    simp only [evalInstr, hitL_stuck b _ _ (by simp only [List.length_cons]; omega) h, Option.bind_none]
  | .loop r b, C, s, hd, h => by
    unfold hitI at h
    simp only [depthI] at hd
    simp only [evalInstr, hitL_stuck b _ _ (by simp only [List.length_cons]; omega) h, Option.bind_none]
  | .ifElse r a b, C, s, hd, h => by
    unfold hitI at h
    simp only [depthI] at hd
    obtain ⟨s1, h1, h | ⟨s2, h2, h3, h⟩⟩ := h
    · simp only [evalInstr, h1, Option.bind_some, hitL_stuck a _ _ (by simp only [List.length_cons]; omega) h, Option.bind_none]
    · simp only [evalInstr, h1, h2, h3, Option.bind_some, hitL_stuck b _ _ (by simp only [List.length_cons]; omega) h, Option.bind_none]
  | .br l, C, s, hd, h | .brIf l, C, s, hd, h => by
    unfold hitI at h
    cases h
    simp only [evalInstr]
    rw [List.getElem?_eq_none (Nat.le_trans (by omega) (by decide : 2 ^ 32 - 1 ≤ (0xFFFFFFFF : Idx).toNat))]
    rfl
  | .brTable ls l, C, s, hd, h => by
    unfold hitI at h
    have hn : C.labels[(0xFFFFFFFF : Idx).toNat]? = none := List.getElem?_eq_none (Nat.le_trans (by omega) (by decide : 2 ^ 32 - 1 ≤ (0xFFFFFFFF : Idx).toNat))
    generalize he : Instr.brTable ls l = j at h
    cases h with
    | br => cases he
    | brIf => cases he
    | byDefault => cases he; simp only [evalInstr, hn, Option.bind_none]
    | inTable b hl ha =>
      cases he
      simp only [evalInstr, hl, Option.bind_some]
      rw [if_neg]
      intro hx
      have := hx 0xFFFFFFFF (List.mem_append_right _ List.mem_cons_self)
      rw [hn] at this
      cases this
  | .unreachable, _, _, _, h | .nop, _, _, _, h | .elseMark, _, _, _, h | .endMark, _, _, _, h | .ret, _, _, _, h | .call _, _, _, _, h | .callIndirect _ _, _, _, _, h | .drop, _, _, _, h
  | .select, _, _, _, h | .localGet _, _, _, _, h | .localSet _, _, _, _, h | .localTee _, _, _, _, h | .globalGet _, _, _, _, h | .globalSet _, _, _, _, h | .load _ _ _, _, _, _, h
  | .store _ _ _, _, _, _, h | .memSize _, _, _, _, h | .memGrow _, _, _, _, h | .constI32 _, _, _, _, h | .constI64 _, _, _, _, h | .constF32 _, _, _, _, h | .constF64 _, _, _, _, h
  | .num _, _, _, _, h => by unfold hitI at h; cases h

theorem hitL_stuck : ∀ (e : List Instr) (C : Env) (s : Loc), C.labels.length + depthL e < 2 ^ 32 → hitL C e s → evalExpr C e s = none
  | [], _, _, _, h => by unfold hitL at h; exact h.elim
  | i :: is, C, s, hd, h => by
    unfold hitL at h
    simp only [depthL] at hd
    rcases h with h | ⟨s', h1, h⟩
    · simp only [evalExpr, hitI_stuck i C s (by omega) h, Option.bind_none]
    · simp only [evalExpr, h1, Option.bind_some, hitL_stuck is C s' (by omega) h]

end

/-- **C57, accepted modules, partial.** A valid module has no such branch: it is accepted with `usize` of any number of bits from 32 on, with the same imports and exports. -/
theorem C57_valid_partial {m : Module} (hv : Valid .code m) (hd : ∀ f ∈ m.funcs, depthL f.body + 1 < 2 ^ 32) :
    ¬ BranchesToLast m ∧ ∀ w build, 32 ≤ w → Width.validateModule w build m = .ok (externals m) := by
  have hp : Plain m := valid_plain hv
  have hok : validateModule m = .ok (externals m) := (validate_ok_iff hp).mpr ⟨hv, rfl⟩
  have hn : ¬ BranchesToLast m := by
    rintro ⟨_, _, _, before, f, after, h4, _, p, b', i, L, h1, ⟨t, h2, h3⟩, h5, h6⟩
    have hf : f ∈ m.funcs := h4 ▸ List.mem_append_right _ List.mem_cons_self
    obtain ⟨t', ht', hx⟩ := hv.funcs f hf
    have h2' : m.types[f.ty.toNat]? = some t := h2
    obtain rfl : t = t' := Option.some.inj (h2'.symm.trans ht')
    obtain ⟨s, hs, _⟩ := complete_expr (C := bodyEnv .code m t f.locals) h3 (s := ([], false)) (r := []) (.inr rfl)
    have hhit : hitL (bodyEnv .code m t f.locals) f.body ([], false) := hit_of_place h1 hs h5 h6
    obtain ⟨s', hs', _⟩ := complete_expr (C := bodyEnv .code m t f.locals) hx (s := ([], false)) (r := []) (.inr rfl)
    rw [hitL_stuck f.body _ _ (by have := hd f hf; simp only [bodyEnv, Rules.code]; show 0 + _ < _; omega) hhit] at hs'
    cases hs'
  refine ⟨hn, fun w build hw => ?_⟩
  rcases Nat.lt_or_ge 32 w with h | h
  · rw [C57_module_partial h, hok]
  · obtain rfl : w = 32 := Nat.le_antisymm h hw
    rcases width_either (build := build) hp hd with ⟨h1, _⟩ | ⟨_, h2⟩
    · exact absurd h1 hn
    · rw [h2, hok]

/-- Two functions; the second has the branch in the `else` branch of an `if`, as the third label of a `br_table`. -/
def lastLabel : Module where
  types := [⟨[], []⟩]
  funcs := [⟨0, [], [.block [] [.br 0]]⟩, ⟨0, [], [.block [] [.constI32 0, .ifElse [] [] [.constI32 0, .brTable [0, 1, 0xFFFFFFFF, 5] 1, .drop], .drop]]⟩]

/-- The same with a label before that does not exist, and with a default label that does not exist. -/
def notReached (ls : List Idx) (l : Idx) : Module where
  types := [⟨[], []⟩]
  funcs := [⟨0, [], [.block [] [.constI32 0, .ifElse [] [] [.constI32 0, .brTable ls l]]]⟩]

example : (∀ b ∈ [Build.debug, .release], Width.validateModule 32 b lastLabel = .error .panic ∧ Width.validateModule 64 b lastLabel = .error .invalid ∧
    Width.validateModule 32 b (notReached [0, 2, 0xFFFFFFFF] 1) = .error .invalid ∧ Width.validateModule 32 b (notReached [0, 0xFFFFFFFF] 2) = .error .invalid ∧
    Width.validateModule 32 b (notReached [0, 1, 0xFFFFFFFF] 1) = .error .panic ∧ Width.validateModule 32 b (notReached [0, 1] 1) = .ok ⟨[], []⟩) := by
  decide +kernel

example : BranchesToLast lastLabel ∧ ¬ BranchesToLast (notReached [0, 2, 0xFFFFFFFF] 1) := by
  have hm : NoMarks lastLabel := by
    intro f hf
    refine plain_iff.mp ?_
    simp only [lastLabel, List.mem_cons, List.not_mem_nil, or_false] at hf
    rcases hf with rfl | rfl <;> simp [plainL, plainI]
  have hm' : NoMarks (notReached [0, 2, 0xFFFFFFFF] 1) := by
    intro f hf
    refine plain_iff.mp ?_
    simp only [notReached, List.mem_cons, List.not_mem_nil, or_false] at hf
    subst hf
    simp [plainL, plainI]
  exact ⟨(C57_module32_partial hm (by decide) .debug).1.mp (by decide +kernel), fun h => by
    have h1 : Width.validateModule 32 .debug (notReached [0, 2, 0xFFFFFFFF] 1) = .error .invalid := by decide +kernel
    rw [(C57_module32_partial hm' (by decide) .debug).1.mpr h] at h1
    cases h1⟩

/-- One function with the body `br 0xFFFFFFFF`. -/
def lastLabelBytes : List Byte := preamble ++ [0x01, 0x04, 0x01, 0x60, 0x00, 0x00] ++ [0x03, 0x02, 0x01, 0x00] ++
  [0x0A, 0x0A, 0x01, 0x08, 0x00, 0x0C, 0xFF, 0xFF, 0xFF, 0xFF, 0x0F, 0x0B]

/-- **C57 is false of the code: modules.** 30 bytes that are parsed on 32-bit and on 64-bit targets; then validation panics on 32-bit targets, in debug and in release builds, where on 64-bit targets it
is an error. -/
theorem C57_module_negation : ∃ m, parseModule lastLabelBytes = (.ok m, []) ∧ (Memory.parseModule (targetRoom 32 sizes32) lastLabelBytes).out = (.ok m, []) ∧
    BranchesToLast m ∧ ¬ Valid .w3c m ∧ ∀ build, Width.validateModule 32 build m = .error .panic ∧ Width.validateModule 64 build m = .error .invalid := by
  let m : Module := { types := [⟨[], []⟩], funcs := [⟨0, [], [.br 0xFFFFFFFF]⟩] }
  have h1 : parseModule lastLabelBytes = (.ok m, []) := by decide +kernel
  have h2 : ∀ build, Width.validateModule 32 build m = .error .panic := fun b => by cases b <;> decide +kernel
  refine ⟨m, h1, by decide +kernel, (C57_parsed32_partial h1 .debug).1.mp (h2 _), ?_, fun b => ⟨h2 b, by cases b <;> decide +kernel⟩⟩
  rintro ⟨_, hf⟩
  obtain ⟨t, ht, hx⟩ := hf _ (List.mem_singleton.mpr rfl)
  cases ht
  obtain ⟨s, hs, _⟩ := complete_expr hx (s := ([], false)) (r := []) (.inr rfl)
  have : evalExpr (bodyEnv .w3c m ⟨[], []⟩ []) [.br 0xFFFFFFFF] ([], false) = none := by decide +kernel
  rw [this] at hs
  cases hs

end Whasm
