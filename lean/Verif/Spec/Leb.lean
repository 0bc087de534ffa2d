import Verif.Model.Basic

/-!
# Specification of LEB-128

Mathematical values of byte groups, as numbers; no machine arithmetic.
-/

namespace Whasm.Spec

/-- A complete LEB-128 group: bytes with the high bit set followed by one byte without. -/
def Group : List Byte → Prop
  | [] => False
  | [b] => b.toNat < 128
  | b :: c :: bs => 128 ≤ b.toNat ∧ Group (c :: bs)

instance decidableGroup : (bs : List Byte) → Decidable (Group bs)
  | [] => isFalse id
  | [b] => inferInstanceAs (Decidable (b.toNat < 128))
  | b :: c :: bs =>
    have := decidableGroup (c :: bs)
    inferInstanceAs (Decidable (128 ≤ b.toNat ∧ Group (c :: bs)))

/-- Unsigned value: the seven low bits of each byte, least significant group first. -/
def uval : List Byte → Nat
  | [] => 0
  | b :: bs => b.toNat % 128 + 128 * uval bs

/-- Signed value: as `uval`, but the last byte counts as a signed seven-bit number. -/
def sval : List Byte → Int
  | [] => 0
  | [b] => if b.toNat % 128 < 64 then (b.toNat % 128 : Nat) else (b.toNat % 128 : Nat) - 128
  | b :: c :: bs => (b.toNat % 128 : Nat) + 128 * sval (c :: bs)

/-- A stream that ends before its LEB-128 group is complete. -/
def Unterminated (bs : List Byte) : Prop := ∀ b ∈ bs, 128 ≤ b.toNat

/-- The grammar `uN` of the WebAssembly 1.0 document, section 5.2.2. -/
inductive UN : Nat → List Byte → Nat → Prop
  | last {N : Nat} {n : Byte} : n.toNat < 2 ^ 7 → n.toNat < 2 ^ N → UN N [n] n.toNat
  | more {N : Nat} {n : Byte} {bs : List Byte} {m : Nat} :
      n.toNat ≥ 2 ^ 7 → N > 7 → UN (N - 7) bs m → UN N (n :: bs) (2 ^ 7 * m + (n.toNat - 2 ^ 7))

/-- The grammar `sN` of the WebAssembly 1.0 document, section 5.2.2. -/
inductive SN : Nat → List Byte → Int → Prop
  | pos {N : Nat} {n : Byte} : n.toNat < 2 ^ 6 → n.toNat < 2 ^ (N - 1) → SN N [n] n.toNat
  | neg {N : Nat} {n : Byte} : 2 ^ 6 ≤ n.toNat → n.toNat < 2 ^ 7 →
      (n.toNat : Int) ≥ 2 ^ 7 - 2 ^ (N - 1) → SN N [n] ((n.toNat : Int) - 2 ^ 7)
  | more {N : Nat} {n : Byte} {bs : List Byte} {m : Int} :
      n.toNat ≥ 2 ^ 7 → N > 7 → SN (N - 7) bs m → SN N (n :: bs) (2 ^ 7 * m + ((n.toNat : Int) - 2 ^ 7))

/-- Minimal unsigned LEB-128 encoding of a natural number. -/
def encU (n : Nat) : List Byte :=
  if n < 128 then [UInt8.ofNat n] else UInt8.ofNat (n % 128 + 128) :: encU (n / 128)

/-- Minimal signed LEB-128 encoding of an integer. -/
def encS (i : Int) : List Byte :=
  if -64 ≤ i ∧ i < 64 then [UInt8.ofNat (i % 128).toNat]
  else UInt8.ofNat ((i % 128).toNat + 128) :: encS (i / 128)
termination_by i.natAbs
decreasing_by omega

/-- `pad fill bs k`: the encoding `bs` made `k` bytes longer: its last byte gets its high bit set and `k`
bytes carrying the seven bits `fill` follow, of which all but the last have the high bit set. -/
def pad (fill : Nat) : List Byte → Nat → List Byte
  | bs, 0 => bs
  | bs, k + 1 => bs.dropLast ++ [UInt8.ofNat ((bs.getLastD 0).toNat % 128 + 128)]
      ++ List.replicate k (UInt8.ofNat (fill + 128)) ++ [UInt8.ofNat fill]

end Whasm.Spec
