import Verif.Model.Core
import Verif.Model.ValidInstr

/-!
# `usize`, memory, byte order: the parts of the crate that depend on the target

The rest of the model has an unbounded `usize`, unlimited memory, and a little-endian host. Here are the two places in the crate where the width
of `usize` shows, `Vec::with_capacity` for vectors read from the input and the arithmetic on labels; and the one place where the order of bytes in
memory shows, the parser of floats.
-/

namespace Whasm

/-- Arithmetic overflow panics in debug builds and wraps around in release builds. -/
inductive Build where
  | debug
  | release
  deriving DecidableEq, Repr

/-- `a + b` for `usize` of `w` bits; `none` is a panic. -/
def addUsize (w : Nat) (build : Build) (a b : Nat) : Option Nat :=
  if a + b < 2 ^ w then some (a + b)
  else match build with
    | .debug => none
    | .release => some ((a + b) % 2 ^ w)

/-- `a - b` for `usize` of `w` bits; `none` is a panic. -/
def subUsize (w : Nat) (build : Build) (a b : Nat) : Option Nat :=
  if b ≤ a then some (a - b)
  else match build with
    | .debug => none
    | .release => some (a + 2 ^ w - b)

/-- `idx::Label::validate`, `validation/idx.rs:70-83`, with `usize` of `w ≥ 32` bits. -/
def validateLabelOn (w : Nat) (build : Build) (i : Idx) : V Frame := fun c =>
  let idx := i.toNat
  let len := c.frames.length
  match addUsize w build idx 1 with
  | none => .error .panic
  | some next =>
    if ¬ (next < len) then .error .invalid
    else
      match (subUsize w build len idx).bind fun k => subUsize w build k 1 with
      | none => .error .panic
      | some k =>
        match c.frames.reverse[k]? with
        | some f => .ok (f, c)
        | none => .error .panic

/-- The number of elements for which memory is reserved at the beginning of `Vec<T>::parse` and `UnwrappingVec<T>::parse`,
`binary/core/vec.rs:57-58` and `88-89`; `none` if reading the count fails. -/
def reserves (s : List Byte) : Option Nat :=
  match parseU32 s with
  | (.ok n, _) => some n.toNat
  | (.error _, _) => none

/-- `Vec::with_capacity(n)` panics if the size in bytes exceeds `isize::MAX` (Rust standard library). -/
def capacityOverflow (w size n : Nat) : Prop := 2 ^ (w - 1) ≤ n * size

instance (w size n : Nat) : Decidable (capacityOverflow w size n) := by unfold capacityOverflow; infer_instance

/-- `Vec<T>::parse`, `binary/core/vec.rs:55-64`, with `usize` of `w` bits and elements of `size` bytes in memory. -/
def parseVecOn {α : Type} (w size : Nat) (p : P α) : P (List α) := do
  let n ← parseU32
  if capacityOverflow w size n.toNat then P.fail .panic
  else parseN n.toNat p

/-- `String::parse`, `binary/core/string.rs:18-23`, likewise: the elements of `UnwrappingVec<Byte>` (`binary/core/vec.rs:86-96`) are `u8`. -/
def parseStringOn (w : Nat) : P (List Byte) := do
  let raw ← parseVecOn w 1 parseByte
  if validUtf8 raw then pure raw else P.fail .invalidUtf8Encoding

/-- In which order the bytes of a number are in memory: least or most significant first. -/
inductive Endian where
  | little
  | big
  deriving DecidableEq, Repr

/-- The loop of `parse_float_iee754`, `binary/core/float.rs:47-50`, `k` rounds before the end: byte number `n` of the memory of `result` is
overwritten by the byte read. -/
def floatLoop (k n : Nat) (memory : List Byte) : P (List Byte) :=
  match k with
  | 0 => pure memory
  | k + 1 => do
    let byte ← parseByte
    floatLoop k (n + 1) (memory.set n byte)

/-- The bit pattern of the number that has these bytes in memory. -/
def loadBits (host : Endian) (N : Nat) (memory : List Byte) : BitVec N :=
  match host with
  | .little => leBits N memory
  | .big => leBits N memory.reverse

/-- `parse_float_iee754`, `binary/core/float.rs:43-52`, for a float of `bytes` bytes on either kind of host. -/
def parseFloatOn (host : Endian) (bytes : Nat) : P (BitVec (8 * bytes)) := do
  let memory ← floatLoop bytes 0 (List.replicate bytes 0)
  pure (loadBits host (8 * bytes) memory)

end Whasm
