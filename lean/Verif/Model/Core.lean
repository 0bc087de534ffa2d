import Verif.Model.Leb

/-!
# Floats, vectors, sized elements, strings: `binary/core/{float,vec,sized,string}.rs`
-/

namespace Whasm

/-- The bit pattern of which `bytes` is the little-endian memory image. -/
def leBits (N : Nat) : List Byte → BitVec N
  | [] => 0#N
  | b :: bs => BitVec.ofNat N b.toNat ||| (leBits N bs <<< 8)

/-- `parse_float_iee754`, `binary/core/float.rs:43-52`, for a float of `bytes` bytes on a little-endian
host: the bytes read are written one after the other into the memory of the result. -/
def parseFloat (bytes : Nat) : P (BitVec (8 * bytes)) := do
  let bs ← parseN bytes parseByte
  pure (leBits (8 * bytes) bs)

/-- `f32::parse`, `binary/core/float.rs:31-35`. -/
def parseF32 : P F32 := parseFloat 4
/-- `f64::parse`, `binary/core/float.rs:37-41`. -/
def parseF64 : P F64 := parseFloat 8

/-- `Vec<T>::parse`, `binary/core/vec.rs:55-64`. `Vec::with_capacity` is not modelled. -/
def parseVec {α : Type} (p : P α) : P (List α) := do
  let n ← parseU32
  parseN n.toNat p

/-- `UnwrappingVec<T>::parse`, `binary/core/vec.rs:86-96`, `unwrap` being `WasmBinaryParseProxy::unwrap` of `T`. -/
def parseUnwrappingVec {α β : Type} (unwrap : α → β) (p : P α) : P (List β) := do
  let n ← parseU32
  parseN n.toNat (do let x ← p; pure (unwrap x))

/-- The outer loop of `CompactVec<T>::parse`, `binary/core/vec.rs:71-77`. -/
def parseRuns {α : Type} (k : Nat) (p : P α) : P (List α) :=
  match k with
  | 0 => pure []
  | k + 1 => do
    let n ← parseU32
    let val ← p
    let rest ← parseRuns k p
    pure (List.replicate n.toNat val ++ rest)

/-- `CompactVec<T>::parse`, `binary/core/vec.rs:66-80`. -/
def parseCompactVec {α : Type} (p : P α) : P (List α) := do
  let k ← parseU32
  parseRuns k.toNat p

/-- `Sized<T>::parse`, `binary/core/sized.rs:46-60` (the wrapper is removed: `Sized<T>` is `T`). The content
parser sees `bin.take(size)`; `inspect` counts the bytes it pulls. What it leaves of the window stays, with
everything after the window, in the underlying iterator. The `u32` counter cannot overflow as at most `size`
bytes are pulled. -/
def parseSized {α : Type} (p : P α) : P α := do
  let size ← parseU32
  fun s =>
    let window := s.take size.toNat
    let after := s.drop size.toNat
    match p window with
    | (.error e, r) => (.error e, r ++ after)
    | (.ok x, r) =>
      let count := window.length - r.length
      if size.toNat ≠ count then (.error .sizeMissmatch, r ++ after)
      else (.ok x, r ++ after)

/-- `Consume::parse`, `binary/core/sized.rs:84-89`: `bin.count()`. -/
def parseConsume : P Nat := fun s => (.ok s.length, [])

/-- A UTF-8 continuation byte. -/
def isCont (b : Byte) : Bool := 0x80 ≤ b && b ≤ 0xBF

/-- The validity check made by `String::from_utf8` (Rust standard library,
`core::str::validations::run_utf8_validation`): table of well-formed UTF-8 byte sequences. -/
def validUtf8 : List Byte → Bool
  | [] => true
  | b :: rest =>
    if b < 0x80 then validUtf8 rest
    else if 0xC2 ≤ b && b ≤ 0xDF then
      match rest with
      | b1 :: rest => isCont b1 && validUtf8 rest
      | _ => false
    else if 0xE0 ≤ b && b ≤ 0xEF then
      match rest with
      | b1 :: b2 :: rest =>
        ((b == 0xE0 && 0xA0 ≤ b1 && b1 ≤ 0xBF) || (0xE1 ≤ b && b ≤ 0xEC && isCont b1)
          || (b == 0xED && 0x80 ≤ b1 && b1 ≤ 0x9F) || (0xEE ≤ b && isCont b1))
        && isCont b2 && validUtf8 rest
      | _ => false
    else if 0xF0 ≤ b && b ≤ 0xF4 then
      match rest with
      | b1 :: b2 :: b3 :: rest =>
        ((b == 0xF0 && 0x90 ≤ b1 && b1 ≤ 0xBF) || (0xF1 ≤ b && b ≤ 0xF3 && isCont b1)
          || (b == 0xF4 && 0x80 ≤ b1 && b1 ≤ 0x8F))
        && isCont b2 && isCont b3 && validUtf8 rest
      | _ => false
    else false

/-- `String::parse`, `binary/core/string.rs:18-23`. A Rust `String` is represented by its UTF-8 bytes. -/
def parseString : P (List Byte) := do
  let raw ← parseUnwrappingVec (fun b : Byte => b) parseByte
  if validUtf8 raw then pure raw else P.fail .invalidUtf8Encoding

end Whasm
