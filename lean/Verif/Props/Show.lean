import Verif.Lemmas.Show
import Verif.Props.Debug

/-!
# Property C90: what the printed text shows
-/

namespace Whasm
open Spec

variable {std : StdText} {n : Nat} {chars : Name → List Char}

/-- **C90, instructions.** The text of a body: every instruction under its name in the specification, with its immediates, at its depth. -/
theorem C90_expr (hF : FloatText n std) (e : Expr) : dbgExpr std e = Show.expr std e 0 := by
  have := Shown.is_expr hF.line32 hF.line64 e 0
  rwa [Shown.shift_zero] at this

/-- **C90, modules.** The text of a module is determined line by line: all items in order, with all fields, numbers in decimal, names by their characters. -/
theorem C90_module (hF : FloatText n std) (hc : ∀ cs : List Char, chars (cs.flatMap String.utf8EncodeChar) = cs) {m : Module} (hm : NamesUtf8 m) :
    dbgModule std m = Show.wholeModule std chars m 0 :=
  Shown.module_eq hF.line32 hF.line64 hc hm

/-- **C90, what is read.** The names in whatever can be parsed are fine. -/
theorem C90_parsed (hF : FloatText n std) (hc : ∀ cs : List Char, chars (cs.flatMap String.utf8EncodeChar) = cs) {b rest : List Byte} {m : Module}
    (h : parseModule b = (.ok m, rest)) : dbgModule std m = Show.wholeModule std chars m 0 :=
  C90_module hF hc (names_parsed h)

/-- **C90, the tool.** When a run of the tool shows a module, this and a line break is all that it writes. -/
theorem C90_tool (hF : FloatText n std) (hc : ∀ cs : List Char, chars (cs.flatMap String.utf8EncodeChar) = cs) {args : List String}
    {fs : String → FileResult} {m : Module} (h : (mainRun args fs).module = some m) :
    (mainRun args fs).stdout std = Show.wholeModule std chars m 0 ++ ['\n'] := by
  rcases run_shape (std := std) args fs with ⟨hl, hp⟩ | ⟨hn, _⟩
  · obtain ⟨b, r, hb⟩ := hp m h
    rw [Run.stdout, hl, h, ← C90_parsed hF hc hb]
    rfl
  · rw [hn] at h; cases h

/-- The characters of a name can be had. -/
example : ∃ chars : Name → List Char, ∀ cs : List Char, chars (cs.flatMap String.utf8EncodeChar) = cs := ⟨nameChars, nameChars_flatMap⟩

/-- Lines, each with its end. -/
def shownLines (ls : List String) : List Char := ls.flatMap fun l => l.toList ++ ['\n']

/-- The loop of a counter, at depth 2. -/
example : (Show.instrs plainStd [.loop [] [.localGet 0, .constI32 (-1), .num .i32Add, .brTable [] 1], .load .i64Load8U 0 16, .memGrow 0]).flatMap (fun l => Show.indent 2 ++ l 2 ++ [',', '\n']) = shownLines [
    "        Loop(",
    "            RetVal(",
    "                [],",
    "            ),",
    "            Expr(",
    "                [",
    "                    LocalGet(",
    "                        Local(",
    "                            0,",
    "                        ),",
    "                    ),",
    "                    ConstI32(",
    "                        -1,",
    "                    ),",
    "                    I32Add,",
    "                    BrTable(",
    "                        [],",
    "                        Label(",
    "                            1,",
    "                        ),",
    "                    ),",
    "                ],",
    "            ),",
    "        ),",
    "        I64Load8U(",
    "            0,",
    "            16,",
    "        ),",
    "        MemGrow(",
    "            Mem(",
    "                0,",
    "            ),",
    "        ),"] := by decide +kernel

/-- A file with a memory of one to three pages that is exported as `é"`. -/
example : ∃ m, (mainRun ["whasm", "-p", "a.wasm"] fun _ => .contents
      [0x00, 0x61, 0x73, 0x6D, 1, 0, 0, 0, 5, 4, 1, 1, 1, 3, 7, 7, 1, 3, 0xC3, 0xA9, 0x22, 2, 0]).module = some m ∧
    Show.wholeModule plainStd nameChars m 0 ++ ['\n'] = shownLines [
      "Module {",
      "    types: [],",
      "    funcs: [],",
      "    tables: [],",
      "    mems: [",
      "        Mem {",
      "            ty: Mem {",
      "                lim: Limits {",
      "                    min: 1,",
      "                    max: Some(",
      "                        3,",
      "                    ),",
      "                },",
      "            },",
      "        },",
      "    ],",
      "    globals: [],",
      "    elem: [],",
      "    data: [],",
      "    start: None,",
      "    imports: [],",
      "    exports: [",
      "        Export {",
      "            name: \"é\\\"\",",
      "            desc: Mem(",
      "                Mem(",
      "                    0,",
      "                ),",
      "            ),",
      "        },",
      "    ],",
      "}"] :=
  ⟨{ mems := [⟨⟨⟨1, some 3⟩⟩⟩], exports := [⟨[0xC3, 0xA9, 0x22], .mem 0⟩] }, by decide +kernel, by decide +kernel⟩

end Whasm
