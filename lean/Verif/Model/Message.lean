import Verif.Model.Cli

/-!
# Messages: `binary/core/error.rs`, `validation/error.rs`, and what `/repo/parser/src/main.rs` writes

A text is represented by the list of its characters.
-/

namespace Whasm

/-- The characters of a text. -/
@[irreducible] def text (s : String) : List Char := s.toList

/-- A decimal digit. -/
def decDigit (n : Nat) : Char := Char.ofNat (48 + n)

/-- `Display` of a `u8`: decimal, without leading zeros. -/
def displayU8 (b : Byte) : List Char :=
  let n := b.toNat
  if n < 10 then [decDigit n]
  else if n < 100 then [decDigit (n / 10), decDigit (n % 10)]
  else [decDigit (n / 100), decDigit (n / 10 % 10), decDigit (n % 10)]

/-- An upper case hexadecimal digit. -/
def hexDigit (n : Nat) : Char := if n < 10 then Char.ofNat (48 + n) else Char.ofNat (55 + n)

/-- `Display` of a `Byte`, `binary/core/byte.rs:60-64`: `"0x{:02X}"`. -/
def displayByte (b : Byte) : List Char := ['0', 'x', hexDigit (b.toNat / 16), hexDigit (b.toNat % 16)]

/-- `Display` of the parse errors, `binary/core/error.rs:8-47`. `panic` and `fuel` are not errors of the crate and have no message. -/
def Error.display : Error → List Char
  | .unexpectedEndOfFile => text "Unexpected end of file."
  | .invalidVariantId id ty => text "Unexpected variant id `" ++ displayU8 id ++ text "` for type `" ++ ty.toList ++ text "`."
  | .outOfRangeSignedInteger => text "Reading out of range signed integer."
  | .outOfRangeUnsignedInteger => text "Reading out of range signed integer."
  | .invalidUtf8Encoding => text "Byte sequence is not a valid utf-8 encoding."
  | .unexpectedOpcode instr => text "Unexpected `" ++ instr.toList ++ text "` opcode."
  | .invalidPreambleMagic => text "Invalid magic number in preamble."
  | .invalidPreambleVersion => text "Invalid version number in preamble."
  | .unexpectedSectionId id => text "Unexpected section id `" ++ displayByte id ++ text "`."
  | .invalidSectionId id => text "Invalid section id `" ++ displayByte id ++ text "`."
  | .sectionSizeMissmatch id => text "The size of section with id `" ++ displayByte id ++ text "` does not match its content."
  | .functionSizeMissmatch => text "The size of the function does not match its content."
  | .sizeMissmatch => text "The size of the element does not match its content."
  | .panic => []
  | .fuel => []

/-- `Display` of the only validation error, `validation/error.rs:5-9`. `panic` is not an error of the crate. -/
def VErr.display : VErr → List Char
  | .invalid => text "Unexpected end of file."
  | .panic => []

/-- What opening and reading a file gives: `File::open` and `read_to_end`, with the text of the `std::io::Error`. -/
inductive FileResult where
  | cannotOpen (message : List Char)
  | cannotRead (message : List Char)
  | contents (buffer : List Byte)

/-- What a run of the tool leaves behind: the lines written to standard output by `println!`, the module pretty-printed after them
(its text is in `Model/Debug`), and the exit code. -/
structure Run where
  lines : List (List Char)
  module : Option Module
  exit : Nat

/-- `main`, `parser/src/main.rs:6-49`, with its messages. With an empty argument vector the second line for bad arguments panics at
`args[0]`, after the first was written. -/
def mainRun (args : List String) (fs : String → FileResult) : Run :=
  match configNew args with
  | none =>
    let line := text "Problem pargin input arguments: " ++ text "Not enough arguments."
    match args with
    | [] => ⟨[line], none, 101⟩
    | bin :: _ => ⟨[line, text "Usage: " ++ bin.toList ++ text " [-p|--print] file.wasm"], none, 1⟩
  | some config =>
    match fs config.filename with
    | .cannotOpen err => ⟨[text "Could not open file \"" ++ config.filename.toList ++ text "\"", err], none, 1⟩
    | .cannotRead err => ⟨[text "Could not read file \"" ++ config.filename.toList ++ text "\"", err], none, 1⟩
    | .contents buffer =>
      match (parseModule buffer).1 with
      | .error err => ⟨[text "Error parsing file \"" ++ config.filename.toList ++ text "\".", err.display], none, 1⟩
      | .ok module =>
        match validateModule module with
        | .error err => ⟨[text "Error validating file \"" ++ config.filename.toList ++ text "\".", err.display], none, 1⟩
        | .ok _ => ⟨[], if config.print then some module else none, 0⟩

end Whasm
