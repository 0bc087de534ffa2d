import Verif.Model.StdText
import Verif.Spec.Show

/-!
# The two layouts of a text, from one another

Rust writes values either on one line (`{:?}`) or with a line for each item (`{:#?}`). Here are functions on texts, which know nothing of what the text shows.
-/

namespace Whasm.Spec

/-- The text of a float is a word: not empty, and without blanks, line breaks, quotes, commas and brackets. (Rust writes digits, signs, points, `e`, `NaN` and `inf`.) -/
structure NumText (std : StdText) : Prop where
  word32 : ∀ v, std.f32 v ≠ [] ∧ ∀ c ∈ std.f32 v, c ∉ "\"()[]{}, \n".toList
  word64 : ∀ v, std.f64 v ≠ [] ∧ ∀ c ∈ std.f64 v, c ∉ "\"()[]{}, \n".toList

/-- Where one is in a text on one line. -/
inductive Flow where
  /-- Outside of quotes. -/
  | out
  /-- At a character that is dropped. -/
  | skip
  /-- At a character that is kept as it is. -/
  | keep
  /-- Within quotes. -/
  | quote
  /-- Within quotes, after a backslash. -/
  | escape

/-- From one line to many: a line break after each opening bracket and each comma, a comma and a line break before each closing bracket; four columns for each bracket that is
open. Nothing is done within quotes and for `[]`. -/
def reflow : Flow → Nat → List Char → List Char
  | _, _, [] => []
  | .skip, d, _ :: cs => reflow .out d cs
  | .keep, d, c :: cs => c :: reflow .out d cs
  | .escape, d, c :: cs => c :: reflow .quote d cs
  | .quote, d, c :: cs => c :: reflow (if c = '"' then .out else if c = '\\' then .escape else .quote) d cs
  | .out, d, c :: cs =>
    if c = '"' then c :: reflow .quote d cs
    else if c = ',' then [',', '\n'] ++ Show.indent d ++ reflow .skip d cs
    else if c = '{' then ['{', '\n'] ++ Show.indent (d + 1) ++ reflow .skip (d + 1) cs
    else if c = '[' ∧ cs.head? = some ']' then c :: reflow .keep d cs
    else if c = '(' ∨ c = '[' then [c, '\n'] ++ Show.indent (d + 1) ++ reflow .out (d + 1) cs
    else if c = ')' ∨ c = ']' then [',', '\n'] ++ Show.indent (d - 1) ++ [c] ++ reflow .out (d - 1) cs
    else if c = ' ' ∧ cs.head? = some '}' then [',', '\n'] ++ Show.indent (d - 1) ++ reflow .keep (d - 1) cs
    else c :: reflow .out d cs

/-- The text with a line for each item. -/
def spread (t : List Char) : List Char := reflow .out 0 t

/-- Where one is in a text with a line for each item. -/
inductive Margin where
  /-- In a line. -/
  | line
  /-- After a brace. -/
  | brace
  /-- After a comma, which is held back. -/
  | comma
  /-- In the margin, after an opening bracket. -/
  | opened
  /-- In the margin, after a comma that is held back. -/
  | next

/-- From many lines to one: the margins and the commas before closing brackets are dropped. Nothing needs to be known of quotes. -/
def unflow : Margin → List Char → List Char
  | _, [] => []
  | .line, c :: cs => if c = '\n' then unflow .opened cs else if c = ',' then unflow .comma cs else c :: unflow (if c = '{' then .brace else .line) cs
  | .brace, c :: cs =>
    if c = '\n' then ' ' :: unflow .opened cs else if c = ',' then unflow .comma cs else c :: unflow (if c = '{' then .brace else .line) cs
  | .comma, c :: cs =>
    if c = '\n' then unflow .next cs else if c = ',' then ',' :: unflow .comma cs else ',' :: c :: unflow (if c = '{' then .brace else .line) cs
  | .opened, c :: cs => if c = ' ' then unflow .opened cs else c :: unflow .line cs
  | .next, c :: cs =>
    if c = ' ' then unflow .next cs
    else if c = ')' ∨ c = ']' then c :: unflow .line cs
    else if c = '}' then ' ' :: c :: unflow .line cs
    else ',' :: ' ' :: c :: unflow .line cs

/-- The text on one line. -/
def joined (t : List Char) : List Char := unflow .line t

end Whasm.Spec
