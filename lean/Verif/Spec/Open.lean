import Verif.Spec.Fault

/-!
# Blocks that are open while a module is read

`Opens k read`: after the bytes `read` of an expression, `k` blocks inside of each other are open. What follows these bytes is left open, they need not belong to a module. The bytes
before the last of the blocks follow the grammar.
-/

namespace Whasm.Spec

/-- After `read`, that many blocks have been opened and none of them has been closed; the last byte is the type of the innermost one, or its `else`. -/
inductive Opens : Nat → List Byte → Prop
  | none : Opens 0 []
  /-- Complete instructions, then a `block`, a `loop` or the first branch of an `if`. -/
  | block {k : Nat} {b b1 read : List Byte} {c : Byte} {is : List Instr} {t : RetVal} : GInstrs .code b is → c ∈ blockOpcodes → GRetVal b1 t → Opens k read →
      Opens (k + 1) (b ++ c :: b1 ++ read)
  /-- The second branch of an `if`. -/
  | second {k : Nat} {b b1 b2 read : List Byte} {is js : List Instr} {t : RetVal} : GInstrs .code b is → GRetVal b1 t → GInstrs .code b2 js → Opens k read →
      Opens (k + 1) (b ++ 0x04 :: b1 ++ b2 ++ [0x05] ++ read)

/-- After a complete `G`. -/
inductive Behind {α : Type} (G : List Byte → α → Prop) (A : List Byte → Prop) : List Byte → Prop
  | mk {b read : List Byte} {x : α} : G b x → A read → Behind G A (b ++ read)

/-- In an element of a vector, after complete ones. -/
inductive InVec {α : Type} (G : List Byte → α → Prop) (A : List Byte → Prop) : List Byte → Prop
  | mk {n bs read : List Byte} {len : U32} {xs : List α} : Dialect.code.u32 n len → GSeq G bs xs → xs.length < len.toNat → A read → InVec G A (n ++ bs ++ read)

/-- In something of a given size, which is not exceeded. -/
inductive InSized (A : List Byte → Prop) : List Byte → Prop
  | mk {n part : List Byte} {len : U32} : Dialect.code.u32 n len → part.length ≤ len.toNat → A part → InSized A (n ++ part)

/-- In the content of the sections with expressions, by their number. -/
def InContent (k : Nat) : Nat → List Byte → Prop
  | 6 => InVec (GGlobal .code) (Behind GGlobalTy (Opens k))
  | 9 => InVec (GElem .code) (Behind Dialect.code.u32 (Opens k))
  | 10 => InVec (GSized .code (GFunc .code)) (InSized (Behind (GVec .code (GLocals .code)) (Opens k)))
  | 11 => InVec (GData .code) (Behind Dialect.code.u32 (Opens k))
  | _ => fun _ => False

/-- In a module: complete sections, then the number of one that may come next, then part of it. -/
inductive InModule (k : Nat) : List Byte → Prop
  | mk {b read : List Byte} {secs : List (Byte × List Byte)} {id : Byte} : Complete b secs → (∀ j ∈ secIds secs, j < id.toNat) → InSized (InContent k id.toNat) read →
      InModule k (preamble ++ b ++ id :: read)

end Whasm.Spec
