import Verif.Model.Target
import Verif.Model.Iter

/-!
# The unsafe code of the crate

`parse_float_iee754` (`binary/core/float.rs:43-52`) writes the bytes read through a raw pointer into the memory of its local variable
`result`. It is the only `unsafe` block of the crate. The models `Model/Core.lean` and `Model/Target.lean` have a list of bytes in its place, on
which nothing can go wrong. Here the function is modelled once more, with a memory that has addresses, pointers, and operations whose
behaviour is undefined unless the conditions stated in the documentation of the standard library hold.

The iterator is code of the user of the crate that runs between the writes; it has access to the same memory.

Simplifications: addresses are natural numbers, that the variable lies below `2 ^ w` is not needed. The rules on aliasing of `&mut` and raw pointers are not
modelled (`result` is used only through the pointer until the loop is over). `next` neither panics nor runs forever.
-/

namespace Whasm.Raw

/-- The memory of the process: the byte at each address; `none` where there is no value (not allocated or not initialised). -/
abbrev RawMem : Type := Nat → Option Byte

/-- Where a local variable is in memory. -/
structure Slot where
  base : Nat
  size : Nat
  deriving DecidableEq

/-- The addresses of a variable. -/
def Slot.Has (s : Slot) (a : Nat) : Prop := s.base ≤ a ∧ a < s.base + s.size

instance (s : Slot) (a : Nat) : Decidable (s.Has a) := inferInstanceAs (Decidable (_ ∧ _))

/-- `*mut u8`: an address, and the variable from which the pointer was made. -/
structure Ptr where
  slot : Slot
  addr : Nat

/-- Why a function does not return `Ok`. -/
inductive Stop where
  /-- `return Err(e)` -/
  | error (e : Error)
  /-- the program has done something of which the behaviour is undefined -/
  | undefined
  deriving DecidableEq

/-- `Iterator::next`. -/
abbrev Next (σ : Type) : Type := σ → RawMem → Option Byte × σ × RawMem

/-- `n as isize` for `n : usize`, both of `w` bits. -/
def asIsize (w n : Nat) : Int := (BitVec.ofNat w n).toInt

/-- `<*mut u8>::offset`: the result must be in the same variable, or directly after it. -/
def Ptr.offset? (p : Ptr) (count : Int) : Option Ptr :=
  if (p.slot.base : Int) ≤ p.addr + count ∧ p.addr + count ≤ (p.slot.base + p.slot.size : Int) then
    some { p with addr := (p.addr + count).toNat }
  else none

/-- `<*mut u8>::write_unaligned`: the pointer must be valid for the write of one byte. -/
def Ptr.write? (p : Ptr) (byte : Byte) (mem : RawMem) : Option RawMem :=
  if p.slot.Has p.addr then some fun a => if a = p.addr then some byte else mem a else none

/-- The value of a variable: all its bytes must have one. -/
def load? (slot : Slot) (mem : RawMem) : Option (List Byte) := (List.range slot.size).mapM fun i => mem (slot.base + i)

/-- `let mut result = T::zero();`, `binary/core/float.rs:45`. The bit pattern of the number zero is zero. -/
def zero (slot : Slot) (mem : RawMem) : RawMem := fun a => if slot.Has a then some 0 else mem a

section
variable {σ : Type}

/-- The iterator does not touch the variable: it is not given a reference to it. -/
def Apart (next : Next σ) (slot : Slot) : Prop := ∀ st mem a, slot.Has a → (next st mem).2.2 a = mem a

/-- An iterator that leaves the memory alone, from one without memory. -/
def quiet (next : Iter.Next σ) : Next σ := fun st mem => ((next st).1, (next st).2, mem)

/-- The loop of `parse_float_iee754`, `binary/core/float.rs:47-50`, with `k` rounds to come, the next one being number `n`. -/
def loop (w : Nat) (next : Next σ) (bytes : Ptr) : Nat → Nat → σ → RawMem → Except Stop Unit × σ × RawMem
  | 0, _, st, mem => (.ok (), st, mem)
  | k + 1, n, st, mem =>
    match next st mem with
    | (none, st, mem) => (.error (.error .unexpectedEndOfFile), st, mem)
    | (some byte, st, mem) =>
      match bytes.offset? (asIsize w n) with
      | none => (.error .undefined, st, mem)
      | some p =>
        match p.write? byte mem with
        | none => (.error .undefined, st, mem)
        | some mem => loop w next bytes k (n + 1) st mem

/-- `parse_float_iee754`, `binary/core/float.rs:43-52`, where `size_of::<T>()` is `size` and the variable `result` is at `slot`, on a target with
addresses of `w` bits. -/
def parseFloat (w : Nat) (host : Endian) (next : Next σ) (size : Nat) (slot : Slot) (st : σ) (mem : RawMem) :
    Except Stop (BitVec (8 * size)) × σ × RawMem :=
  match loop w next ⟨slot, slot.base⟩ size 0 st (zero slot mem) with
  | (.error e, st, mem) => (.error e, st, mem)
  | (.ok (), st, mem) =>
    match load? slot mem with
    | none => (.error .undefined, st, mem)
    | some bytes => (.ok (loadBits host (8 * size) bytes), st, mem)

end

end Whasm.Raw
