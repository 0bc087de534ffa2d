import Verif.Lemmas.Open
import Verif.Props.Scope

/-!
# C93: which inputs exhaust the native stack

C71 says when the process is aborted on an input that is a module. Here the same for all inputs: the parser with room for `k` blocks is aborted exactly if the input begins like a module in which
`k + 1` blocks inside of each other are open (`Spec/Open.lean`), whatever the rest of the input is.
-/

namespace Whasm
open Spec Scope

/-- **C93, expressions.** -/
theorem C93_expr (k : Nat) (s : List Byte) : (parseExprOn k s).1 = .error .panic ↔ ∃ read rest, s = read ++ rest ∧ Opens (k + 1) read :=
  ⟨exhausts_expr k s, fun ⟨read, rest, hs, h⟩ => hs ▸ exhaustsAt_expr k read rest h⟩

/-- `nop`, an `if` with a `block` that is closed, then `else` and in it a `loop`: two blocks are open. -/
example : Opens 2 [0x01, 0x04, 0x40, 0x02, 0x40, 0x0B, 0x05, 0x03, 0x7F] :=
  .second (b := [0x01]) (b1 := [0x40]) (b2 := [0x02, 0x40, 0x0B]) (read := [0x03, 0x7F]) (.cons .nop .nil) .empty
    (.cons (b := [0x02, 0x40, 0x0B]) (.block (b1 := [0x40]) (b2 := []) .empty .nil) .nil)
    (.block (b := []) (b1 := [0x7F]) (read := []) .nil (by decide) (.val .i32) .none)

/-- So there must be room for two blocks, even though what follows makes no sense. -/
example : (parseExprOn 1 [0x01, 0x04, 0x40, 0x02, 0x40, 0x0B, 0x05, 0x03, 0x7F, 0xFF]).1 = .error .panic ∧
    (parseExprOn 2 [0x01, 0x04, 0x40, 0x02, 0x40, 0x0B, 0x05, 0x03, 0x7F, 0xFF]).1 = .error (.invalidVariantId 0xFF "instr::Instr") := by decide +kernel

/-- **C93, modules.** The parser is aborted exactly if the input begins with sections that are complete, followed by part of one in which more blocks get open than there is room for. -/
theorem C93_module (k : Nat) (s : List Byte) : (parseModuleOn k s).1 = .error .panic ↔ ∃ read rest, s = read ++ rest ∧ InModule (k + 1) read :=
  ⟨exhausts_module k s, fun ⟨read, rest, hs, h⟩ => hs ▸ exhaustsAt_module k read rest h⟩

/-- A global section that is announced to have 32 bytes, of which there are eight. -/
def cutGlobal : List Byte := preamble ++ [0x06, 0x20, 0x01, 0x7F, 0x00, 0x02, 0x40, 0x03, 0x40]

example : (parseModuleOn 1 cutGlobal).1 = .error .panic ∧ parseModuleOn 2 cutGlobal = (.error .unexpectedEndOfFile, []) := by decide +kernel

/-- The same section with room for one block only by its size: the second block is outside of it. -/
example : (parseModuleOn 1 (preamble ++ [0x06, 0x06, 0x01, 0x7F, 0x00, 0x02, 0x40, 0x03, 0x40])).1 = .error .unexpectedEndOfFile := by decide +kernel

/-- **C93, all other inputs.** If so many blocks never get open then the outcome is that with an unlimited stack. -/
theorem C93_otherwise {k : Nat} {s : List Byte} (h : ¬ ∃ read rest, s = read ++ rest ∧ InModule (k + 1) read) : parseModuleOn k s = parseModule s :=
  (C71_same_partial k s).resolve_left fun hp => h ((C93_module k s).mp hp)

/-- **C93, more input.** Bytes appended to an input do not prevent the abort. -/
theorem C93_append {k : Nat} {s : List Byte} (h : (parseModuleOn k s).1 = .error .panic) (t : List Byte) : (parseModuleOn k (s ++ t)).1 = .error .panic := by
  obtain ⟨read, rest, rfl, h1⟩ := (C93_module k s).mp h
  exact (C93_module k _).mpr ⟨read, rest ++ t, by simp, h1⟩

example : (parseModuleOn 1 (cutGlobal ++ [0x0B, 0x0B, 0x0B])).1 = .error .panic := C93_append (by decide +kernel) _

/-- **C93, in a module.** For a module, to begin like one with `k + 1` open blocks is to have an expression with more than `k` blocks inside of each other. -/
theorem C93_nesting {s : List Byte} {m : Module} (h : GModule .code s m) (k : Nat) : (∃ read rest, s = read ++ rest ∧ InModule (k + 1) read) ↔ ¬ NestsAtMost k m := by
  have hp : parseModule s = (.ok m, []) := (parseModule_iff _ _ _).mpr ⟨rfl, h⟩
  rw [← C93_module]
  constructor
  · intro h1 hn
    rw [(C71_exact_partial hp k).1 hn] at h1
    cases h1
  · exact (C71_exact_partial hp k).2

example : ∃ m, parseModule threeDeep = (.ok m, []) ∧ (∃ read rest, threeDeep = read ++ rest ∧ InModule 3 read) ∧ ¬ ∃ read rest, threeDeep = read ++ rest ∧ InModule 4 read := by
  have h : (parseModule threeDeep).1.isOk = true ∧ (parseModule threeDeep).2 = [] := by decide +kernel
  rcases hp : parseModule threeDeep with ⟨e | m, r⟩ <;> rw [hp] at h
  · cases h.1
  · obtain rfl : r = [] := h.2
    refine ⟨m, rfl, (C93_module 2 _).mp (by decide +kernel), fun h => ?_⟩
    have h1 := (C93_module 3 _).mpr h
    have h2 : (parseModuleOn 3 threeDeep).1.isOk = true := by decide +kernel
    rw [h1] at h2
    cases h2

variable {F : Frames} {S : Nat}

/-- **C93, the tool.** If one level takes nowhere more stack than in the parser: the run of the tool is aborted exactly if the file given begins like a module in which one block more is open than the stack
has room for, and otherwise the run is that with an unlimited stack. -/
theorem C93_tool (hd : F.drop ≤ F.parse) (hp : F.print ≤ F.parse) (hv : F.validate ≤ F.parse) (args : List String) (fs : String → FileResult) :
    (Scope.mainRun F S args fs = none ↔
      ∃ config b, configNew args = some config ∧ fs config.filename = .contents b ∧ ∃ read rest, b = read ++ rest ∧ InModule (S / F.parse + 1) read) ∧
    (Scope.mainRun F S args fs ≠ none → Scope.mainRun F S args fs = some (mainRun args fs)) := by
  refine ⟨⟨fun h => ?_, ?_⟩, fun h => (C88_tool hd hp hv args fs).resolve_right fun h1 => h h1.1⟩
  · rcases C88_tool (S := S) hd hp hv args fs with h1 | ⟨_, config, b, hc, hb, h1⟩
    · rw [h] at h1; cases h1
    · exact ⟨config, b, hc, hb, (C93_module _ b).mp h1⟩
  · rintro ⟨config, b, hc, hb, h⟩
    unfold Scope.mainRun
    simp only [hc, hb, C88_parse hd, (C93_module _ b).mpr h]

/-- With room for one block, the tool is aborted on the file with the section that is cut off; with room for two it reports the end of the file. -/
example : Scope.mainRun ⟨8, 1, 8, 1, by decide, by decide⟩ 8 ["whasm", "f"] (fun _ => .contents cutGlobal) = none ∧
    Scope.mainRun ⟨8, 1, 8, 1, by decide, by decide⟩ 16 ["whasm", "f"] (fun _ => .contents cutGlobal) = some (mainRun ["whasm", "f"] fun _ => .contents cutGlobal) := by
  constructor
  · exact ((C93_tool (by decide) (by decide) (by decide) _ _).1).mpr ⟨_, cutGlobal, rfl, rfl, (C93_module 1 _).mp (by decide +kernel)⟩
  · refine (C93_tool (by decide) (by decide) (by decide) _ _).2 fun h => ?_
    obtain ⟨_, b, _, hb, h⟩ := ((C93_tool (by decide) (by decide) (by decide) _ _).1).mp h
    cases hb
    have h1 := (C93_module 2 cutGlobal).mpr h
    have h2 : (parseModuleOn 2 cutGlobal).1 = .error .unexpectedEndOfFile := by decide +kernel
    rw [h2] at h1
    cases h1

/-- **C93, bytes.** Every block takes two bytes: an input that aborts a parser with room for `k` blocks has at least 14 bytes and two more for each of them. -/
theorem C93_bytes {k : Nat} {s : List Byte} (h : (parseModuleOn k s).1 = .error .panic) : 2 * k + 14 ≤ s.length := by
  obtain ⟨read, rest, rfl, h1⟩ := (C93_module k s).mp h
  have hu : ∀ {b : List Byte} {x : U32}, Dialect.code.u32 b x → 1 ≤ b.length := fun {b x} h => by
    cases b with
    | nil => have := parses_u32.complete h []; cases this
    | cons => simp
  have hi : ∀ {b : List Byte}, Behind Dialect.code.u32 (Opens (k + 1)) b → 2 * k + 3 ≤ b.length := by
    rintro _ ⟨h1, h2⟩
    have := hu h1
    have := opens_length h2
    simp only [List.length_append]; omega
  have key : ∀ {id : Nat} {b : List Byte}, InContent (k + 1) id b → 2 * k + 4 ≤ b.length := by
    intro id b h
    unfold InContent at h
    split at h
    · obtain ⟨h1, _, _, ⟨⟨h2, _⟩, h3⟩⟩ := h
      have := hu h1
      have := opens_length h3
      cases h2 <;> simp only [List.length_append, List.length_singleton] <;> omega
    · obtain ⟨h1, _, _, h2⟩ := h
      have := hu h1
      have := hi h2
      simp only [List.length_append]; omega
    · obtain ⟨h1, _, _, ⟨h2, _, ⟨⟨h3, _, _⟩, h4⟩⟩⟩ := h
      have := hu h1
      have := hu h2
      have := hu h3
      have := opens_length h4
      simp only [List.length_append]; omega
    · obtain ⟨h1, _, _, h2⟩ := h
      have := hu h1
      have := hi h2
      simp only [List.length_append]; omega
    · exact h.elim
  obtain ⟨_, _, ⟨h2, _, h3⟩⟩ := h1
  have := hu h2
  have := key h3
  simp only [List.length_append, List.length_cons, show preamble.length = 8 from rfl]
  omega

/-- There are inputs with no more bytes than that. -/
example : (parseModuleOn 2 (preamble ++ [0x0B, 0x08, 0x01, 0x00, 0x02, 0x40, 0x02, 0x40, 0x02, 0x40])).1 = .error .panic ∧
    (preamble ++ [0x0B, 0x08, 0x01, 0x00, 0x02, 0x40, 0x02, 0x40, 0x02, 0x40] : List Byte).length = 2 * 2 + 14 := by decide +kernel

end Whasm
