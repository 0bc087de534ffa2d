/-!
# Basic notions of the model: bytes, errors, the parser monad

Rust file and line references are relative to `/repo/whasm/src` unless said otherwise.
-/

namespace Whasm

/-- A byte of the input, Rust `u8` (`binary/core/byte.rs:45`, the proxy `Byte(pub u8)` is identified
with the `u8` it wraps). -/
abbrev Byte := UInt8

/-- Rust `u32`. -/
abbrev U32 := BitVec 32
/-- Rust `i32` (two's complement bit pattern). -/
abbrev I32 := BitVec 32
/-- Rust `i64` (two's complement bit pattern). -/
abbrev I64 := BitVec 64
/-- Rust `f32`, represented by its IEEE-754 bit pattern. -/
abbrev F32 := BitVec 32
/-- Rust `f64`, represented by its IEEE-754 bit pattern. -/
abbrev F64 := BitVec 64

/-- Parse errors, `binary/core/error.rs:8-47`, in the order of the source. The last two constructors
do not exist in Rust:
* `panic` stands for a Rust panic;
* `fuel` is the artefact of modelling a `loop` by recursion on a fuel argument. -/
inductive Error where
  | unexpectedEndOfFile
  | invalidVariantId (id : Byte) (ty : String)
  | outOfRangeSignedInteger
  | outOfRangeUnsignedInteger
  | invalidUtf8Encoding
  | unexpectedOpcode (instr : String)
  | invalidPreambleMagic
  | invalidPreambleVersion
  | unexpectedSectionId (id : Byte)
  | invalidSectionId (id : Byte)
  | sectionSizeMissmatch (id : Byte)
  | functionSizeMissmatch
  | sizeMissmatch
  | panic
  | fuel
  deriving DecidableEq, Repr

/-- A parser: `fn parse<Binary: WasmBinary>(bin: &mut Binary) -> Result<Self>`
(`binary/core/traits.rs:67-69`). The iterator is the list of the bytes it will still yield; the
state of the `&mut` iterator after the call is returned also when the call fails. -/
def P (α : Type) : Type := List Byte → Except Error α × List Byte

namespace P

/-- `Ok(x)`, consuming nothing. -/
protected def pure {α : Type} (x : α) : P α := fun s => (.ok x, s)

/-- The `?` operator: stop at the first error. -/
protected def bind {α β : Type} (p : P α) (f : α → P β) : P β := fun s =>
  match p s with
  | (.ok x, r) => f x r
  | (.error e, r) => (.error e, r)

/-- `return Err(e)`. -/
def fail {α : Type} (e : Error) : P α := fun s => (.error e, s)

instance : Monad P where
  pure := P.pure
  bind := P.bind

end P

/-- `Byte::parse`, `binary/core/byte.rs:47-54`. -/
def parseByte : P Byte := fun s =>
  match s with
  | [] => (.error .unexpectedEndOfFile, [])
  | b :: rest => (.ok b, rest)

/-- `[T; N]::parse` for `N = 0..8`, `binary/core/array.rs:17-113`: `n` consecutive elements. The nine
identical instances are modelled by one function for every `n`; the result is a list of length `n`. Also the
body of the counted loops `for _ in 0..n { result.push(bin.parse()?) }` of `binary/core/vec.rs:59-61`
and `91-93`. -/
def parseN {α : Type} (n : Nat) (p : P α) : P (List α) :=
  match n with
  | 0 => pure []
  | n + 1 => do
    let x ← p
    let xs ← parseN n p
    pure (x :: xs)

end Whasm
