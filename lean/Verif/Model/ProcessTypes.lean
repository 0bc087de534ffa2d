import Verif.Model.Basic

/-!
# What the operating system does and is asked to do (`Model/Process`)
-/

namespace Whasm.Process

/-- The bytes of a text in UTF-8. -/
def utf8 (cs : List Char) : List Byte := cs.flatMap String.utf8EncodeChar

/-- What a call of `read` gives. No bytes at all are the end of the file. -/
inductive ReadEvent where
  | bytes (b : List Byte)
  | interrupted
  | failed (message : List Char)

/-- The operating system: opening the file with a name gives the text of an error or the answers to the calls of `read` that follow, by their number; standard output takes `room` bytes. -/
structure System where
  file : List Byte → Except (List Char) (Nat → ReadEvent)
  room : Nat

/-- What the process asks of the operating system. -/
inductive Call where
  | openFile (path : List Byte)
  | read
  | write (bytes : List Byte)
  deriving DecidableEq, Repr

end Whasm.Process
