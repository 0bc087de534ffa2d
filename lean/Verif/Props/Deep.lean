import Verif.Lemmas.Deep
import Verif.Props.Open

/-!
# C94: which modules exhaust the native stack in validation

C71 says when validation is aborted on a module that is accepted otherwise. Here the same for all modules: validation with room for `k` blocks is aborted exactly if it gets into more than `k` blocks before it
finds an error (`Spec/Deep.lean`). Together with C93 this says for all files when the tool is aborted, also if one level takes more bytes in validation or in printing than in the parser.
-/

namespace Whasm
open Spec Scope Run

/-- **C94, expressions.** In any context in which validation with an unlimited stack does not panic, validation with room for `k` blocks is aborted exactly if it gets to a place inside of more than `k` blocks. -/
theorem C94_expr {e : List Instr} {c : Ctx} (hn : validateExpr e c ≠ .error .panic) (k : Nat) :
    validateExprOn e k c = .error .panic ↔ ∃ p x, SameBefore p e e ∧ k < p.depth ∧ arrive p e c = .ok ((), x) :=
  exprOn_panic hn

/-- The error comes before the second block, so there is no need for a second level. -/
example : validateExprOn [.block [] [.drop, .block [] []]] 1 { frames := [⟨[], [], 0, false⟩] } = .error .invalid ∧
    validateExprOn [.block [] [.block [] [], .drop]] 1 { frames := [⟨[], [], 0, false⟩] } = .error .panic ∧
    validateExprOn [.block [] [.block [] [], .drop]] 2 { frames := [⟨[], [], 0, false⟩] } = .error .invalid := by decide +kernel

/-- **C94, modules.** -/
theorem C94_module {m : Module} (hm : NoMarks m) (k : Nat) : validateModuleOn k m = .error .panic ↔ TooDeep k m := tooDeep_iff (plain_of_noMarks hm)

/-- **C94, otherwise.** Validation tells whether the module is valid. -/
theorem C94_otherwise {m : Module} (hm : NoMarks m) {k : Nat} (h : ¬ TooDeep k m) :
    (Valid .code m → validateModuleOn k m = .ok (externals m)) ∧ (¬ Valid .code m → validateModuleOn k m = .error .invalid) := by
  rw [(C71_validate_same_partial k m).resolve_left fun h1 => h ((C94_module hm k).mp h1)]
  exact validate_iff m (plain_of_noMarks hm)

/-- A function that is valid, and one with an `if` in a `block` and a `loop` behind the error. -/
def wrongInside : Module where
  types := [⟨[], []⟩]
  funcs := [⟨0, [], [.block [] []]⟩, ⟨0, [], [.block [] [.constI32 0, .ifElse [] [.nop] [.nop, .drop, .loop [] []]]]⟩]

/-- Validation gets into two blocks, not into three. -/
example : validateModuleOn 1 wrongInside = .error .panic ∧ validateModuleOn 2 wrongInside = .error .invalid := by decide +kernel

example : TooDeep 1 wrongInside ∧ ¬ TooDeep 2 wrongInside := by
  have hm : NoMarks wrongInside := by
    intro f hf
    refine plain_iff.mp ?_
    simp only [wrongInside, List.mem_cons, List.not_mem_nil, or_false] at hf
    rcases hf with rfl | rfl <;> simp [plainL, plainI]
  exact ⟨(C94_module hm 1).mp (by decide +kernel), fun h => by
    have h1 : validateModuleOn 2 wrongInside = .error .invalid := by decide +kernel
    rw [(C94_module hm 2).mpr h] at h1
    cases h1⟩

/-- **C94, valid modules.** If all is valid then all blocks count. -/
theorem C94_valid {m : Module} (hv : Valid .code m) (k : Nat) : TooDeep k m ↔ ∃ f ∈ m.funcs, k < depthL f.body := by
  have hp : Plain m := valid_plain hv
  have ha := (validate_ok_iff hp).mpr ⟨hv, rfl⟩
  obtain ⟨h1, h2⟩ := C71_validate_partial ha k
  rw [← tooDeep_iff hp]
  refine ⟨fun h => Classical.byContradiction fun hn => ?_, h2⟩
  rw [h1 fun f hf => Nat.le_of_not_lt fun hlt => hn ⟨f, hf, hlt⟩] at h
  cases h

example : TooDeep 2 (deepModule 3) ∧ ¬ TooDeep 3 (deepModule 3) := by
  have hv : Valid .code (deepModule 3) := ((validate_ok_iff (m := deepModule 3) (fun f hf => by
    simp only [deepModule, List.mem_singleton] at hf
    subst hf
    simp [deep, plainL, plainI])).mp (by decide +kernel : validateModule (deepModule 3) = .ok ⟨[], []⟩)).1
  rw [C94_valid hv, C94_valid hv]
  simp [deepModule, depth_deep]

/-- **C94, more room.** What does not exhaust a stack does not exhaust a larger one; and a stack for as many blocks as a body has inside of each other is large enough. -/
theorem C94_more {m : Module} {k : Nat} (h : TooDeep k m) : (∀ n, n ≤ k → TooDeep n m) ∧ ∃ f ∈ m.funcs, k < depthL f.body := by
  obtain ⟨h1, h2, h3, before, f, after, h4, h5, p, b', h6, h7, h8⟩ := h
  refine ⟨fun n hn => ⟨h1, h2, h3, before, f, after, h4, h5, p, b', Nat.lt_of_le_of_lt hn h6, h7, h8⟩, f, ?_, Nat.lt_of_lt_of_le h6 (depth_le h7)⟩
  rw [h4]
  exact List.mem_append_right _ List.mem_cons_self

variable {F : Frames} {S : Nat}

/-- **C94, the tool.** For all arguments and files, with any bytes per level, if only destructors take no more than the parser: the tool is aborted exactly if
* the file begins like a module with more open blocks than the parser has room for;
* or it has a module, and validation gets into more blocks than it has room for;
* or it has a valid module that is to be printed, and a function with more blocks inside of each other than there is room for in printing.
Otherwise it does what it does with an unlimited stack. -/
theorem C94_tool (hd : F.drop ≤ F.parse) (args : List String) (fs : String → FileResult) :
    (Scope.mainRun F S args fs = none ↔ ∃ config b, configNew args = some config ∧ fs config.filename = .contents b ∧
      ((∃ read rest, b = read ++ rest ∧ InModule (S / F.parse + 1) read) ∨
        ∃ m, GModule .code b m ∧ (TooDeep (S / F.validate) m ∨ Valid .code m ∧ config.print = true ∧ ∃ f ∈ m.funcs, S < F.print * depthL f.body))) ∧
    (Scope.mainRun F S args fs ≠ none → Scope.mainRun F S args fs = some (mainRun args fs)) := by
  cases hc : configNew args with
  | none =>
    have h : Scope.mainRun F S args fs = some (mainRun args fs) := by unfold Scope.mainRun; rw [hc]
    refine ⟨⟨fun h1 => ?_, ?_⟩, fun _ => h⟩
    · rw [h] at h1; cases h1
    · rintro ⟨_, _, h1, _⟩; cases h1
  | some config =>
    cases hb : fs config.filename with
    | cannotOpen e =>
      have h : Scope.mainRun F S args fs = some (mainRun args fs) := by unfold Scope.mainRun; simp only [hc, hb]
      refine ⟨⟨fun h1 => ?_, ?_⟩, fun _ => h⟩
      · rw [h] at h1; cases h1
      · rintro ⟨_, _, h1, h2, _⟩; cases h1; rw [hb] at h2; cases h2
    | cannotRead e =>
      have h : Scope.mainRun F S args fs = some (mainRun args fs) := by unfold Scope.mainRun; simp only [hc, hb]
      refine ⟨⟨fun h1 => ?_, ?_⟩, fun _ => h⟩
      · rw [h] at h1; cases h1
      · rintro ⟨_, _, h1, h2, _⟩; cases h1; rw [hb] at h2; cases h2
    | contents b =>
      have red : (∃ config' b', some config = some config' ∧ fs config'.filename = .contents b' ∧
          ((∃ read rest, b' = read ++ rest ∧ InModule (S / F.parse + 1) read) ∨
            ∃ m, GModule .code b' m ∧ (TooDeep (S / F.validate) m ∨ Valid .code m ∧ config'.print = true ∧ ∃ f ∈ m.funcs, S < F.print * depthL f.body))) ↔
          ((parseModuleOn (S / F.parse) b).1 = .error .panic ∨
            ∃ m, GModule .code b m ∧ (TooDeep (S / F.validate) m ∨ Valid .code m ∧ config.print = true ∧ ∃ f ∈ m.funcs, S < F.print * depthL f.body)) := by
        rw [C93_module]
        constructor
        · rintro ⟨_, b', h1, h2, h3⟩
          cases h1
          rw [hb] at h2
          cases h2
          exact h3
        · exact fun h => ⟨config, b, rfl, hb, h⟩
      rw [red]
      by_cases h : (parseModuleOn (S / F.parse) b).1 = .error .panic
      · have h1 : Scope.mainRun F S args fs = none := by
          unfold Scope.mainRun
          simp only [hc, hb, C88_parse hd, h]
        exact ⟨⟨fun _ => .inl h, fun _ => h1⟩, fun h2 => absurd h1 h2⟩
      have hs : Scope.parseModule F S b = parseModule b := by
        rw [C88_parse hd]
        exact (C71_same_partial _ b).resolve_left h
      have gram : ∀ m, GModule .code b m ↔ parseModule b = (.ok m, []) := fun m => ⟨fun h => (parseModule_iff b m []).mpr ⟨rfl, h⟩, fun h => ((parseModule_iff b m []).mp h).2⟩
      rcases hm : parseModule b with ⟨e | m, r⟩
      · have h1 := run_fits (F := F) (S := S) hc hb hs (fun m r h => by rw [hm] at h; cases h) fun m r x h _ => by rw [hm] at h; cases h
        refine ⟨⟨fun h2 => ?_, ?_⟩, fun _ => h1⟩
        · rw [h1] at h2; cases h2
        · rintro (h2 | ⟨m, h2, _⟩)
          · exact absurd h2 h
          · rw [gram, hm] at h2; cases h2
      · have hnm := parsed_noMarks hm
        have hp := plain_of_noMarks hnm
        have gram' : ∀ m', GModule .code b m' → m' = m := fun m' h => by
          rw [gram, hm] at h; cases h; rfl
        have hg : GModule .code b m := ((parseModule_iff b m r).mp hm).2
        by_cases hv : validateModuleOn (S / F.validate) m = .error .panic
        · have h1 : Scope.mainRun F S args fs = none := by
            unfold Scope.mainRun
            simp only [hc, hb, hs, hm, hv]
          exact ⟨⟨fun _ => .inr ⟨m, hg, .inl ((C94_module hnm _).mp hv)⟩, fun _ => h1⟩, fun h2 => absurd h1 h2⟩
        have hnd : ¬ TooDeep (S / F.validate) m := fun h => hv ((C94_module hnm _).mpr h)
        have hvs : validateModuleOn (S / F.validate) m = validateModule m := (C71_validate_same_partial _ m).resolve_left hv
        cases hx : validateModule m with
        | error e =>
          have hnv : ¬ Valid .code m := fun h => by
            rw [(validate_iff m hp).1 h] at hx; cases hx
          have h1 := run_fits (F := F) (S := S) hc hb hs (fun m' r' h => by rw [hm] at h; cases h; exact hvs) fun m' r' x h h' => by
            rw [hm] at h; cases h; rw [hx] at h'; cases h'
          refine ⟨⟨fun h2 => ?_, ?_⟩, fun _ => h1⟩
          · rw [h1] at h2; cases h2
          · rintro (h2 | ⟨m', h2, h3⟩)
            · exact absurd h2 h
            · cases gram' m' h2
              rcases h3 with h3 | ⟨h3, _⟩
              · exact absurd h3 hnd
              · exact absurd h3 hnv
        | ok x =>
          have hval : Valid .code m := ((validate_ok_iff hp).mp hx).1
          obtain ⟨z1, z2, z3⟩ := accepted_flat hx
          have hW : walkModule F.print m S = true ↔ ∀ f ∈ m.funcs, F.print * depthL f.body ≤ S := by
            rw [walk_module]
            exact ⟨fun h => h.1, fun h => ⟨h, fun g hg => by rw [z1 g hg]; omega, fun g hg => by rw [z2 g hg]; omega, fun g hg => by rw [z3 g hg]; omega⟩⟩
          by_cases hq : config.print = true ∧ ∃ f ∈ m.funcs, S < F.print * depthL f.body
          · have h1 : Scope.mainRun F S args fs = none := by
              have h5 : walkModule F.print m S = false := by
                rw [Bool.eq_false_iff]
                intro h5
                obtain ⟨f, hf, hlt⟩ := hq.2
                exact absurd (hW.mp h5 f hf) (Nat.not_le_of_lt hlt)
              unfold Scope.mainRun
              simp only [hc, hb, hs, hm, hvs, hx, hq.1, h5]
              rfl
            exact ⟨⟨fun _ => .inr ⟨m, hg, .inr ⟨hval, hq⟩⟩, fun _ => h1⟩, fun h2 => absurd h1 h2⟩
          · have h1 := run_fits (F := F) (S := S) hc hb hs (fun m' r' h => by rw [hm] at h; cases h; exact hvs) fun m' r' x h h' => by
              rw [hm] at h; cases h
              refine ⟨fun hpr => hW.mpr fun f hf => Nat.le_of_not_lt fun hlt => hq ⟨hpr, f, hf, hlt⟩, (C88_rest (hs.trans hm)).1 hd⟩
            refine ⟨⟨fun h2 => ?_, ?_⟩, fun _ => h1⟩
            · rw [h1] at h2; cases h2
            · rintro (h2 | ⟨m', h2, h3⟩)
              · exact absurd h2 h
              · cases gram' m' h2
                rcases h3 with h3 | ⟨_, h3⟩
                · exact absurd h3 hnd
                · exact absurd h3 hq

/-- One level takes 8 bytes in validation, 9 in printing and 1 elsewhere. A stack of 15 bytes is enough for parsing the file, not for finding the error in it; 16 bytes are. -/
example : (Scope.mainRun ⟨1, 8, 1, 9, by decide, by decide⟩ 15 ["whasm", "f"] (fun _ => .contents (encModule wrongInside))).isNone = true ∧
    (Scope.mainRun ⟨1, 8, 1, 9, by decide, by decide⟩ 16 ["whasm", "f"] (fun _ => .contents (encModule wrongInside))).map (·.exit) = some 1 := by decide +kernel

/-- And a valid module with two blocks inside of each other, with 17 bytes: it can be validated and not be printed. -/
example : (Scope.mainRun ⟨1, 8, 1, 9, by decide, by decide⟩ 17 ["whasm", "-p", "f"] (fun _ => .contents (encModule (deepModule 2)))).isNone = true ∧
    (Scope.mainRun ⟨1, 8, 1, 9, by decide, by decide⟩ 17 ["whasm", "f"] (fun _ => .contents (encModule (deepModule 2)))).map (·.exit) = some 0 := by decide +kernel

end Whasm
