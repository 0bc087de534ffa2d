import Verif.Spec.Cli
import Verif.Model.ProcessTypes

/-!
# What a file holds, whatever pieces it comes in
-/

namespace Whasm.Spec
open Process

/-- From the `i`-th answer on, the answers are those for a file that holds these bytes: pieces of any size, interruptions, and in the end nothing more. -/
inductive HoldsFrom (answers : Nat → ReadEvent) : Nat → List Byte → Prop
  | done {i : Nat} : answers i = .bytes [] → HoldsFrom answers i []
  | piece {i : Nat} {b rest : List Byte} : answers i = .bytes b → b ≠ [] → HoldsFrom answers (i + 1) rest → HoldsFrom answers i (b ++ rest)
  | again {i : Nat} {rest : List Byte} : answers i = .interrupted → HoldsFrom answers (i + 1) rest → HoldsFrom answers i rest

/-- The file holds these bytes. -/
def Holds (answers : Nat → ReadEvent) (b : List Byte) : Prop := HoldsFrom answers 0 b

/-- An answer that there will be more. -/
def More : ReadEvent → Prop
  | .bytes b => b ≠ []
  | .interrupted => True
  | .failed _ => False

/-- Reading fails with this error. -/
def Fails (answers : Nat → ReadEvent) (message : List Char) : Prop := ∃ i, answers i = .failed message ∧ ∀ j < i, More (answers j)

/-- The file has no end: a pipe that is never closed, or a device. -/
def Endless (answers : Nat → ReadEvent) : Prop := ∀ i, More (answers i)

/-- The argument that names the file: the last one after the name of the program that is not a flag. -/
def namedFile (argv : List (List Byte)) : Option (List Byte) :=
  (argv.tail.filter fun a => ¬ (a = utf8 "-p".toList ∨ a = utf8 "--print".toList)).getLast?

/-- A flag is given. -/
def flagged (argv : List (List Byte)) : Prop := utf8 "-p".toList ∈ argv.tail ∨ utf8 "--print".toList ∈ argv.tail

end Whasm.Spec
