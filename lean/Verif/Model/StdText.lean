import Verif.Model.Structure

/-!
# Parameters of the printed text (`Model/Debug`)
-/

namespace Whasm

/-- The parts of the standard library left open. -/
structure StdText where
  /-- `Debug` of an `f32`. -/
  f32 : F32 → List Char
  /-- `Debug` of an `f64`. -/
  f64 : F64 → List Char
  /-- Characters written as `\u{…}`: those not printable and those extending graphemes. -/
  special : Char → Bool

end Whasm
