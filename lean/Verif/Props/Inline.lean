import Verif.Lemmas.Reflow
import Verif.Lemmas.Inline
import Verif.Props.Printed

/-!
# Property C103: the text of a module on one line

`{:?}` and `{:#?}` show the same: each text can be computed from the other, without knowing what it shows. But the text on one line is proportional to what there is to show,
however deep the blocks are.
-/

namespace Whasm
open Spec

variable {std : StdText} {n : Nat}

/-- **C103, to many lines.** What `--print` prints is the text on one line with line breaks at brackets and commas outside of quotes. -/
theorem C103_spread (hF : NumText std) (m : Module) : spread (lineModule std m) = dbgModule std m := by
  have := (Reflow.both_module hF m).flow 0 []
  rw [List.append_nil, Shown.shift_zero] at this
  exact this.trans (List.append_nil _)

/-- **C103, to one line.** And the other way round. -/
theorem C103_joined (hF : NumText std) (m : Module) : joined (dbgModule std m) = lineModule std m := by
  have := (Reflow.both_module hF m).back 0 []
  rw [List.append_nil, Shown.shift_zero] at this
  exact this.trans (List.append_nil _)

/-- **C103, one line.** There is no line break in the text, whatever the names in the module are, and it is never longer than the other. -/
theorem C103_line (hF : NumText std) (m : Module) : '\n' ∉ lineModule std m ∧ (lineModule std m).length ≤ (dbgModule std m).length :=
  ⟨(Reflow.both_module hF m).line, (Reflow.both_module hF m).short⟩

/-- **C103, instructions.** The same of a body by itself, at any depth and with anything after it. -/
theorem C103_expr (hF : NumText std) (e : Expr) (rest : List Char) (d : Nat) :
    reflow .out d (lineExpr std e ++ rest) = Show.expr std e d ++ reflow .out d rest ∧ unflow .line (Show.expr std e d ++ rest) = lineExpr std e ++ unflow .line rest := by
  have nl : ∀ {w : List Char}, (∀ c ∈ w, c ∉ "\"()[]{}, \n".toList) → '\n' ∉ w := fun h => Reflow.nl_word h
  have h := Shown.is_expr (std := std) (fun v => nl (hF.word32 v).2) (fun v => nl (hF.word64 v).2) e d
  have hb := Reflow.both_expr hF e
  rw [← h]
  exact ⟨hb.flow d rest, hb.back d rest⟩

/-- **C103, information.** Two modules have the same text on one line exactly if they have the same text on many. -/
theorem C103_same (hF : NumText std) (m m' : Module) : lineModule std m = lineModule std m' ↔ dbgModule std m = dbgModule std m' :=
  ⟨fun h => by rw [← C103_spread hF, h, C103_spread hF], fun h => by rw [← C103_joined hF, h, C103_joined hF]⟩

/-- **C103, exact.** Two modules have the same text on one line exactly if they differ at most in which NaN their constants are. -/
theorem C103_exact (hF : NumText std) (hs : StdOk std) {m m' : Module} (hm : NamesUtf8 m) (hm' : NamesUtf8 m') :
    lineModule std m = lineModule std m' ↔ blindModule m = blindModule m' :=
  (C103_same hF m m').trans (C64_exact hs hm hm')

/-- **C103, the tool.** What a run of the tool that shows a module writes, on one line, is the text of the module on one line. -/
theorem C103_tool (hF : NumText std) {args : List String} {fs : String → FileResult} {m : Module} (h : (mainRun args fs).module = some m) :
    joined ((mainRun args fs).stdout std) = lineModule std m := by
  rcases run_shape (std := std) args fs with ⟨hl, _⟩ | ⟨hn, _⟩
  · have h1 : (mainRun args fs).stdout std = dbgModule std m ++ ['\n'] := by
      rw [Run.stdout, hl, h]; rfl
    have h2 := (Reflow.both_module hF m).back 0 ['\n']
    rw [Shown.shift_zero] at h2
    rw [h1]
    refine h2.trans ?_
    simp [unflow]
  · rw [hn] at h; cases h

/-- **C103, length.** The length of the text on one line is proportional to the number of parts of the module; there is no such bound for the text on many lines (C87). -/
theorem C103_length (hF : FloatText n std) (m : Module) : (lineModule std m).length ≤ (170 + n) * parts m + 130 := Inline.module_le hF m

/-- **C103, what is read.** Whatever can be parsed, from `k` bytes, with `l` local variables in all functions together. -/
theorem C103_bytes (hF : FloatText n std) {s rest : List Byte} {m : Module} (h : parseModule s = (.ok m, rest)) :
    (lineModule std m).length ≤ (170 + n) * (2 * s.length + localsOf m) + 130 := by
  have hb := bulk_le_length (flats_of_encodable ((C27_exact m).mp ⟨s, rest, h⟩))
  have hp := Printed.payload_length m
  have hs := C27_shortest h
  have hk : parts m ≤ 2 * s.length + localsOf m := by unfold parts; omega
  exact Nat.le_trans (C103_length hF m) (Nat.add_le_add_right (Nat.mul_le_mul_left _ hk) _)

theorem line_deep : ∀ k, (lineExpr std (deep k)).length = 27 * k + 8
  | 0 => by
    show (lineTuple (text "Expr") [lineList []]).length = 8
    decide +kernel
  | k + 1 => by
    have h := line_deep k
    have e : (text "Expr").length = 4 ∧ (text "Block").length = 5 ∧ (lineRetVal []).length = 10 := by decide +kernel
    show (lineTuple (text "Expr") [lineList [lineTuple (text "Block") [lineRetVal [], lineExpr std (deep k)]]]).length = _
    simp only [lineTuple, lineList, lineItems, List.flatMap_cons, List.flatMap_nil, List.length_append, List.length_cons, List.length_nil, h, e]
    omega

/-- **C103, depth.** For `k` blocks inside of each other: 27 characters for each block, where the text on many lines has more than `54 * k * k` (`C87_deep_partial`). -/
theorem C103_deep (k : Nat) : (lineModule std (deepModule k)).length = 27 * k + 205 := by
  have h := line_deep (std := std) k
  have e : (text "Module").length = 6 ∧ (text "types").length = 5 ∧ (text "funcs").length = 5 ∧ (text "tables").length = 6 ∧
    (text "mems").length = 4 ∧ (text "globals").length = 7 ∧ (text "elem").length = 4 ∧ (text "data").length = 4 ∧
    (text "start").length = 5 ∧ (text "imports").length = 7 ∧ (text "exports").length = 7 := by decide +kernel
  have e' : (text "Func").length = 4 ∧ (text "ty").length = 2 ∧ (text "locals").length = 6 ∧ (text "body").length = 4 ∧ (lineIdx "Type" 0).length = 7 ∧
    (lineVals []).length = 2 ∧ (lineFuncTy ⟨[], []⟩).length = 32 ∧ (lineOption none).length = 4 := by decide +kernel
  simp only [lineModule, deepModule, lineFunc, List.map_cons, List.map_nil, Option.map_none, lineStruct, lineList, lineItems, List.flatMap_cons, List.flatMap_nil,
    List.length_append, List.length_cons, List.length_nil, h, e, e']
  omega

/-! ## Examples -/

/-- The text of floats of `plainStd`. -/
theorem plainStd_word : NumText plainStd where
  word32 v := by
    simp only [plainStd]
    split
    · decide
    · exact ⟨Reflow.digits_ne 10 _ _, Reflow.dull_digits (by omega) (by omega) _ _⟩
  word64 v := by
    simp only [plainStd]
    split
    · decide
    · exact ⟨Reflow.digits_ne 10 _ _, Reflow.dull_digits (by omega) (by omega) _ _⟩

/-- A name with a quote, a backslash, a comma, a bracket and a line break in it. -/
example : lineExport plainStd ⟨[0x22, 0x5C, 0x2C, 0x20, 0x5D, 0x0A], .mem 3⟩ = text "Export { name: \"\\\"\\\\, ]\\n\", desc: Mem(Mem(3)) }" ∧
    spread (lineExport plainStd ⟨[0x22, 0x5C, 0x2C, 0x20, 0x5D, 0x0A], .mem 3⟩) = dbgExport plainStd ⟨[0x22, 0x5C, 0x2C, 0x20, 0x5D, 0x0A], .mem 3⟩ := by decide +kernel

example : spread (text "If(RetVal([I32]), Expr([ConstI32(-7)]), Expr([]))") ++ ['\n'] = ["If(", "    RetVal(", "        [", "            I32,", "        ],", "    ),", "    Expr(", "        [",
    "            ConstI32(", "                -7,", "            ),", "        ],", "    ),", "    Expr(", "        [],", "    ),", ")"].flatMap fun l => text l ++ ['\n'] := by
  decide +kernel

/-- The module `costly` of `Props/Metered`: 36 parts, 4502 characters on many lines. -/
example : (lineModule plainStd costly).length = 925 ∧ (spread (lineModule plainStd costly)).length = 4502 := by decide +kernel

end Whasm
