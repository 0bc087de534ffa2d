import Verif.Model.Basic

/-!
# LEB-128 integers: `binary/core/unsigned.rs`, `binary/core/signed.rs`

Both functions are generic over the integer type `T`; the model is generic in the number of bits `N`
(`size = 8 * size_of::<T>()`), instantiated in Rust at 8, 16, 32 and 64.
The `loop` consumes one byte per iteration and is modelled by structural recursion on the remaining
input, the loop variables being arguments.
-/

namespace Whasm

/-- `x << shift`; Rust panics (debug) or masks the shift amount (release) when it is not smaller than the width;
the model panics. -/
def shl? {N : Nat} (x : BitVec N) (shift : Nat) : Option (BitVec N) :=
  if shift < N then some (x <<< shift) else none

/-- `x >> shift` on an unsigned type (logical shift). -/
def ushr? {N : Nat} (x : BitVec N) (shift : Nat) : Option (BitVec N) :=
  if shift < N then some (x >>> shift) else none

/-- `x >> shift` on a signed type (arithmetic shift). -/
def sshr? {N : Nat} (x : BitVec N) (shift : Nat) : Option (BitVec N) :=
  if shift < N then some (x.sshiftRight shift) else none

/-- The loop of `parse_unsigned_leb_128`, `binary/core/unsigned.rs:68-91`. -/
def unsignedLoop {N : Nat} (shift : Nat) (result : BitVec N) : P (BitVec N)
  | [] => (.error .unexpectedEndOfFile, [])
  | byte :: rest =>
    let val := BitVec.ofNat N (byte &&& 0x7F).toNat
    if shift ≥ N then
      if byte &&& 0x7F ≠ 0 then (.error .outOfRangeUnsignedInteger, rest)
      else if byte &&& 0x80 = 0 then (.ok result, rest)
      else unsignedLoop shift result rest
    else
      match shl? val shift with
      | none => (.error .panic, rest)
      | some shifted =>
        match ushr? shifted shift with
        | none => (.error .panic, rest)
        | some back =>
          if back &&& BitVec.ofNat N 0x7F ≠ val then (.error .outOfRangeUnsignedInteger, rest)
          else
            let result := result ||| shifted
            let shift := shift + 7
            if byte &&& 0x80 = 0 then (.ok result, rest)
            else unsignedLoop shift result rest

/-- `parse_unsigned_leb_128`, `binary/core/unsigned.rs:62-93`. The test `if shift < size` of line 84 is
always true at that point (line 71 handled the other case) and is omitted. -/
def parseUnsigned (N : Nat) : P (BitVec N) := unsignedLoop 0 0#N

/-- The loop of `parse_signed_leb_128` and the final sign extension, `binary/core/signed.rs:70-101`. -/
def signedLoop {N : Nat} (shift : Nat) (result : BitVec N) (positive : Bool) : P (BitVec N)
  | [] => (.error .unexpectedEndOfFile, [])
  | byte :: rest =>
    let val := BitVec.ofNat N (byte &&& 0x7F).toNat
    if shift ≥ N then
      if (byte &&& 0x7F = 0x00 ∧ positive = true) ∨ (byte &&& 0x7F = 0x7F ∧ positive = false) then
        -- `break`; the sign extension after the loop requires `shift < size` and is skipped
        if byte &&& 0x80 = 0 then (.ok result, rest)
        else signedLoop shift result positive rest
      else (.error .outOfRangeSignedInteger, rest)
    else
      match shl? val shift with
      | none => (.error .panic, rest)
      | some shifted =>
        match sshr? shifted shift with
        | none => (.error .panic, rest)
        | some back =>
          if back &&& BitVec.ofNat N 0x7F ≠ val then (.error .outOfRangeSignedInteger, rest)
          else
            let result := result ||| shifted
            let shift := shift + 7
            let positive := decide (byte &&& 0x40 = 0)
            if byte &&& 0x80 = 0 then
              if shift < N ∧ positive = false then
                match shl? (~~~ 0#N) shift with
                | none => (.error .panic, rest)
                | some ext => (.ok (result ||| ext), rest)
              else (.ok result, rest)
            else signedLoop shift result positive rest

/-- `parse_signed_leb_128`, `binary/core/signed.rs:63-101`. -/
def parseSigned (N : Nat) : P (BitVec N) := signedLoop 0 0#N true

/-- `u8::parse`, `binary/core/unsigned.rs` (LEB-128, not a raw byte). -/
def parseU8 : P (BitVec 8) := parseUnsigned 8
/-- `u16::parse`, `binary/core/unsigned.rs`. -/
def parseU16 : P (BitVec 16) := parseUnsigned 16
/-- `u32::parse`, `binary/core/unsigned.rs`; also `idx::*::parse`, `binary/idx.rs` (each index newtype parses
the `u32` it wraps). -/
def parseU32 : P U32 := parseUnsigned 32
/-- `u64::parse`, `binary/core/unsigned.rs`. -/
def parseU64 : P (BitVec 64) := parseUnsigned 64
/-- `i8::parse`, `binary/core/signed.rs`. -/
def parseI8 : P (BitVec 8) := parseSigned 8
/-- `i16::parse`, `binary/core/signed.rs`. -/
def parseI16 : P (BitVec 16) := parseSigned 16
/-- `i32::parse`, `binary/core/signed.rs`. -/
def parseI32 : P I32 := parseSigned 32
/-- `i64::parse`, `binary/core/signed.rs`. -/
def parseI64 : P I64 := parseSigned 64

end Whasm
