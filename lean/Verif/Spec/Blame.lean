import Verif.Spec.Grammar
import Verif.Spec.Sections

/-!
# What a parse error says about the bytes read

`Blame K read rest e`: after the bytes `read` of a section, with `rest` still unread, the error `e` is a true statement about the end of
`read`. What comes before is arbitrary.
-/

namespace Whasm.Spec

/-- No element of `G` begins with `b`. -/
def Excludes {α : Type} (G : List Byte → α → Prop) (b : List Byte) : Prop := ∀ more x, ¬ G (b ++ more) x

/-- `b` is the first byte that is at fault: an element of `G` may begin with `enc`, and goes on after it, but none begins with `enc` and `b`. -/
def FirstBad {α : Type} (G : List Byte → α → Prop) (enc : List Byte) (b : Byte) : Prop :=
  (∃ more x, more ≠ [] ∧ G (enc ++ more) x) ∧ Excludes G (enc ++ [b])

/-- The parts of the grammar that begin with a byte that tells which alternative follows, by the names in the messages. -/
inductive Unknown (b : Byte) : String → Prop
  | limits : Excludes (GLimits .code) [b] → Unknown b "ty::Limits"
  | val : Excludes GVal [b] → Unknown b "ty::Val"
  | elem : Excludes GElemTy [b] → Unknown b "ty::Elem"
  | func : Excludes (GFuncTy .code) [b] → Unknown b "ty::Func"
  | mt : Excludes GMut [b] → Unknown b "ty::Mut"
  | import : Excludes (GImportDesc .code) [b] → Unknown b "module::desc::Import"
  | export : Excludes (GExportDesc .code) [b] → Unknown b "module::desc::Export"
  | instr : Excludes (GInstr .code) [b] → Unknown b "instr::Instr"

/-- What may stand in the sections by their number, and, as number 12, in a body of the code section. -/
def Content : Nat → List Byte → Prop
  | 0, b => GCustom .code b ()
  | 1, b => ∃ xs, GVec .code (GFuncTy .code) b xs
  | 2, b => ∃ xs, GVec .code (GImport .code) b xs
  | 3, b => ∃ xs, GVec .code Dialect.code.u32 b xs
  | 4, b => ∃ xs, GVec .code (GTable .code) b xs
  | 5, b => ∃ xs, GVec .code (GMem .code) b xs
  | 6, b => ∃ xs, GVec .code (GGlobal .code) b xs
  | 7, b => ∃ xs, GVec .code (GExport .code) b xs
  | 8, b => ∃ x, GStart .code b x
  | 9, b => ∃ xs, GVec .code (GElem .code) b xs
  | 10, b => ∃ xs, GVec .code (GSized .code (GFunc .code)) b xs
  | 11, b => ∃ xs, GVec .code (GData .code) b xs
  | 12, b => ∃ x, GFunc .code b x
  | _, _ => False

/-- The kinds of parts with a size of their own within the content of section `id`: the bodies of the code section. -/
def Parts (id k : Nat) : Prop := id = 10 ∧ k = 12

/-- The statement made by a parse error within the content of a section; `K` holds the kinds of parts with a size of their own. -/
inductive Blame (K : Nat → Prop) : List Byte → List Byte → Error → Prop
  /-- The input has ended. -/
  | endOfInput (read : List Byte) : Blame K read [] .unexpectedEndOfFile
  /-- A part of which the size in bytes is given before it has ended, and neither it nor its beginning is a complete content. -/
  | endOfPart {pre size part rest : List Byte} {k : Nat} {n : U32} : K k → Dialect.code.u32 size n → n.toNat = part.length →
      (∀ b more, part = b ++ more → ¬ Content k b) → Blame K (pre ++ size ++ part) rest .unexpectedEndOfFile
  /-- A content is complete before the size given before it is reached. -/
  | size {pre size part rest : List Byte} {k : Nat} {n : U32} : K k → Dialect.code.u32 size n → part.length < n.toNat → Content k part →
      Blame K (pre ++ size ++ part) rest .sizeMissmatch
  /-- The last byte does not tell an alternative of the type named. -/
  | variant {pre rest : List Byte} {b : Byte} {ty : String} : Unknown b ty → Blame K (pre ++ [b]) rest (.invalidVariantId b ty)
  /-- With the last byte an integer without sign gets too large. -/
  | unsigned {pre enc rest : List Byte} {b : Byte} : FirstBad Dialect.code.u32 enc b →
      Blame K (pre ++ enc ++ [b]) rest .outOfRangeUnsignedInteger
  /-- With the last byte an integer with sign of 32 bits gets too large or too small. -/
  | signed32 {pre enc rest : List Byte} {b : Byte} : FirstBad Dialect.code.s32 enc b →
      Blame K (pre ++ enc ++ [b]) rest .outOfRangeSignedInteger
  /-- The same for 64 bits. -/
  | signed64 {pre enc rest : List Byte} {b : Byte} : FirstBad Dialect.code.s64 enc b →
      Blame K (pre ++ enc ++ [b]) rest .outOfRangeSignedInteger
  /-- A name, preceded by its length, is not UTF-8. -/
  | name {pre size raw rest : List Byte} {n : U32} : Dialect.code.u32 size n → n.toNat = raw.length → ¬ IsUtf8 raw →
      Blame K (pre ++ size ++ raw) rest .invalidUtf8Encoding
  /-- An expression is ended by an `else` in place of an `end`. -/
  | strayElse {pre enc rest : List Byte} {is : Expr} : GExpr .code (enc ++ [0x0B]) is → Excludes (GExpr .code) (enc ++ [0x05]) →
      Blame K (pre ++ enc ++ [0x05]) rest (.unexpectedOpcode "Else")
  /-- The second branch of an `if` is ended by an `else` in place of an `end`. -/
  | secondElse {pre enc rest : List Byte} {ret : RetVal} {is js : Expr} : GInstr .code (0x04 :: enc ++ [0x0B]) (.ifElse ret is js) →
      Excludes (GInstr .code) (0x04 :: enc ++ [0x05]) → Blame K (pre ++ 0x04 :: enc ++ [0x05]) rest (.unexpectedOpcode "Unknown")

/-- The statement made by a parse error within something that is preceded by its size; `k` is the kind of its content. -/
inductive SizedBlame (K : Nat → Prop) (k : Nat) : List Byte → List Byte → Error → Prop
  /-- The input has ended. -/
  | endOfInput (read : List Byte) : SizedBlame K k read [] .unexpectedEndOfFile
  /-- With the last byte the size gets too large. -/
  | unsigned {enc rest : List Byte} {b : Byte} : FirstBad Dialect.code.u32 enc b → SizedBlame K k (enc ++ [b]) rest .outOfRangeUnsignedInteger
  /-- The part has ended, and neither it nor its beginning is a complete content. -/
  | endOfPart {size part rest : List Byte} {n : U32} : Dialect.code.u32 size n → n.toNat = part.length →
      (∀ b more, part = b ++ more → ¬ Content k b) → SizedBlame K k (size ++ part) rest .unexpectedEndOfFile
  /-- The content is complete before the size is reached. -/
  | size {size part rest : List Byte} {n : U32} : Dialect.code.u32 size n → part.length < n.toNat → Content k part →
      SizedBlame K k (size ++ part) rest .sizeMissmatch
  /-- The content is at fault, before or where the size is reached. -/
  | content {size read rest : List Byte} {n : U32} {e : Error} : Dialect.code.u32 size n → read.length ≤ n.toNat → Blame K read rest e →
      SizedBlame K k (size ++ read) rest e

/-! ## Modules -/

/-- The first four bytes of a module. -/
def magic : List Byte := [0x00, 0x61, 0x73, 0x6D]

/-- `b` is, after the preamble, a complete module with the sections `secs`. -/
def Complete (b : List Byte) (secs : List (Byte × List Byte)) : Prop := RawSecs b secs ∧ ∃ m, GModule .code (preamble ++ b) m

/-- The type indices in the function section, of which the absence stands for none. -/
def Announced (secs : List (Byte × List Byte)) (tys : List Idx) : Prop :=
  (tys = [] ∧ ∀ c, (0x03, c) ∉ secs) ∨ ∃ c, (0x03, c) ∈ secs ∧ GVec .code Dialect.code.u32 c tys

/-- The statement made by a parse error of a module: all sections before the one at fault are complete and form a module. -/
inductive ModuleBlame : List Byte → List Byte → Error → Prop
  /-- The input has ended within the magic number. -/
  | shortMagic {read : List Byte} : read.length < 4 → ModuleBlame read [] .unexpectedEndOfFile
  /-- The input has ended within the version. -/
  | shortVersion {v : List Byte} : v.length < 4 → ModuleBlame (magic ++ v) [] .unexpectedEndOfFile
  | magic {read rest : List Byte} : read.length = 4 → read ≠ magic → ModuleBlame read rest .invalidPreambleMagic
  | version {v rest : List Byte} : v.length = 4 → magic ++ v ≠ preamble → ModuleBlame (magic ++ v) rest .invalidPreambleVersion
  /-- There is no section with this number. -/
  | sectionId {b rest : List Byte} {secs : List (Byte × List Byte)} {id : Byte} : Complete b secs → 11 < id.toNat →
      ModuleBlame (preamble ++ b ++ [id]) rest (.invalidSectionId id)
  /-- This section, or one that belongs after it, is there already. -/
  | sectionOrder {b rest : List Byte} {secs : List (Byte × List Byte)} {id : Byte} {k : Nat} : Complete b secs → id ≠ 0x00 →
      k ∈ secIds secs → id.toNat ≤ k → ModuleBlame (preamble ++ b ++ [id]) rest (.unexpectedSectionId id)
  /-- The section is in its place, its size or its content is at fault. -/
  | content {b read rest : List Byte} {secs : List (Byte × List Byte)} {id : Byte} {e : Error} : Complete b secs → id.toNat ≤ 11 →
      (id ≠ 0x00 → ∀ k ∈ secIds secs, k < id.toNat) → SizedBlame (Parts id.toNat) id.toNat read rest e →
      ModuleBlame (preamble ++ b ++ id :: read) rest e

/-- A complete module, then a code section that is complete, too, but the number of bodies in it is not the number of type indices in the
function section. -/
inductive BodyCount : List Byte → Prop
  | mk {b sec : List Byte} {secs : List (Byte × List Byte)} {tys : List Idx} {codes : List (List Val × Expr)} :
      Complete b secs → (∀ k ∈ secIds secs, k < 10) → Announced secs tys → GSection .code 0x0A (GVec .code (GSized .code (GFunc .code))) sec codes →
      codes.length ≠ tys.length → BodyCount (preamble ++ b ++ sec)

end Whasm.Spec
