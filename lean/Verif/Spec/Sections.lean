import Verif.Spec.Leb

/-!
# Modules as sequences of sections, whatever they contain
-/

namespace Whasm.Spec

/-- Magic number and version (5.5.15): the first eight bytes of a module. -/
def preamble : List Byte := [0x00, 0x61, 0x73, 0x6D, 0x01, 0x00, 0x00, 0x00]

/-- `RawSecs b secs`: `b` is a sequence of sections `secs`, each given by its number and its content. In `b` a section is its number,
the size of the content in bytes (LEB-128), the content. -/
inductive RawSecs : List Byte → List (Byte × List Byte) → Prop
  | nil : RawSecs [] []
  | cons {id : Byte} {g c bs : List Byte} {secs : List (Byte × List Byte)} :
      Group g → uval g = c.length → RawSecs bs secs → RawSecs (id :: (g ++ (c ++ bs))) ((id, c) :: secs)

/-- The numbers of the sections that are not custom sections, in order. -/
def secIds (secs : List (Byte × List Byte)) : List Nat := (secs.map (·.1.toNat)).filter (· ≠ 0)

end Whasm.Spec
