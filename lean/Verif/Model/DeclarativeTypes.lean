import Verif.Model.Structure

/-!
# The data types of `grammar/section.rs` and `grammar/core/error.rs`

Where the types of `grammar/**` are those of `structure/**` with other names, the latter are used.
-/

namespace Whasm.Decl

/-- `Function`, `grammar/section.rs:137-142`. -/
structure Body where
  locals : List Val
  code : Expr

/-- `Section`, `grammar/section.rs:4-19`, each with the fields of its struct. -/
inductive Sec where
  | custom (name : Name) (payload : List Byte)
  | types (x : List FuncTy)
  | imports (x : List Import)
  | funcs (x : List Idx)
  | tables (x : List Table)
  | mems (x : List Mem)
  | globals (x : List Global)
  | exports (x : List Export)
  | start (x : Start)
  | elems (x : List Elem)
  | code (x : List Body)
  | data (x : List Data)

/-- How deserialization can fail: the variants of `Error`, `grammar/core/error.rs:26-70`, and the `FromUtf8Error` of `grammar/core/string.rs:23`, all in a
`Box<dyn Error>`. A panic is told apart. Simplification: the fields that the derive macro fills in (the names of types, the texts of the values compared) are left
out, except for the byte that is no discriminant; the field of `UnexpectedInstruction` is always `"Else"`. `other` and `fuel` do not exist in Rust. -/
inductive DErr where
  | invalidEnumDiscriminant (discriminant : Byte)
  | outOfRangeSignedInteger
  | outOfRangeUnsignedInteger
  | unexpectedEndOfStream
  | remainingBytesInStream
  | unexpectedInstruction
  | unsatisfiedMatch
  | fromUtf8
  | panic
  | other
  | fuel
  deriving DecidableEq, Repr

end Whasm.Decl
