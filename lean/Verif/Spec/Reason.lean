import Verif.Model.Basic
import Verif.Model.DeclarativeTypes

/-!
# The same reason in two languages

`whasm::binary::Error` (`binary/core/error.rs`) and `whasm::grammar::Error` (`grammar/core/error.rs`) have names of their own for the ways in which an
input can fail to be what is expected.
-/

namespace Whasm.Spec

/-- The two errors stand for the same failure. The errors about the order and the number of sections have no counterpart in the grammar. -/
inductive SameReason : Error → Decl.DErr → Prop
  | endOfInput : SameReason .unexpectedEndOfFile .unexpectedEndOfStream
  | variant (b : Byte) (ty : String) : SameReason (.invalidVariantId b ty) (.invalidEnumDiscriminant b)
  | sectionId (b : Byte) : SameReason (.invalidSectionId b) (.invalidEnumDiscriminant b)
  | signed : SameReason .outOfRangeSignedInteger .outOfRangeSignedInteger
  | unsigned : SameReason .outOfRangeUnsignedInteger .outOfRangeUnsignedInteger
  | utf8 : SameReason .invalidUtf8Encoding .fromUtf8
  | marker (i : String) : SameReason (.unexpectedOpcode i) .unexpectedInstruction
  | magic : SameReason .invalidPreambleMagic .unsatisfiedMatch
  | version : SameReason .invalidPreambleVersion .unsatisfiedMatch
  | size : SameReason .sizeMissmatch .remainingBytesInStream

end Whasm.Spec
