import Verif.Spec.Cost
import Verif.Model.StdText

/-!
# What there is to print of a module
-/

namespace Whasm.Spec

/-- Bytes of names. -/
def nameBytes (m : Module) : Nat := total (fun i : Import => i.module.length + i.name.length) m.imports + total (fun e : Export => e.name.length) m.exports

/-- Bytes of data segments. -/
def dataBytes (m : Module) : Nat := total (fun d : Data => d.init.length) m.data

/-- Number of parts of a module, with the bytes of names and data segments. -/
def parts (m : Module) : Nat := bulk m + nameBytes m + dataBytes m

/-- The text of a float is one line of at most `n` characters. (Rust writes at most 24: the sign, 17 digits, the point, and an exponent.) -/
structure FloatText (n : Nat) (std : StdText) : Prop where
  short32 : ∀ v, (std.f32 v).length ≤ n
  short64 : ∀ v, (std.f64 v).length ≤ n
  line32 : ∀ v, '\n' ∉ std.f32 v
  line64 : ∀ v, '\n' ∉ std.f64 v

/-- Line breaks in a text. -/
def breaks (t : List Char) : Nat := t.count '\n'

end Whasm.Spec
