import Verif.Model.Structure
import Verif.Spec.Grammar

/-!
# Occurrence of an instruction in an expression, misplaced `else`
-/

namespace Whasm.Spec

/-- `j` occurs in `e`, at any nesting depth. -/
inductive Occurs (j : Instr) : List Instr → Prop
  | here {e : List Instr} : j ∈ e → Occurs j e
  | block {e : List Instr} {t : RetVal} {body : List Instr} : Instr.block t body ∈ e → Occurs j body → Occurs j e
  | loop {e : List Instr} {t : RetVal} {body : List Instr} : Instr.loop t body ∈ e → Occurs j body → Occurs j e
  | thn {e : List Instr} {t : RetVal} {thn els : List Instr} : Instr.ifElse t thn els ∈ e → Occurs j thn → Occurs j e
  | els {e : List Instr} {t : RetVal} {thn els : List Instr} : Instr.ifElse t thn els ∈ e → Occurs j els → Occurs j e

/-- The block types of an instruction. -/
def blockTypes : Instr → List RetVal
  | .block t _ => [t]
  | .loop t _ => [t]
  | .ifElse t _ _ => [t]
  | _ => []

/-- The expressions contained in a module. -/
def exprsOf (m : Module) : List Expr :=
  m.funcs.map (·.body) ++ m.globals.map (·.init) ++ m.elem.map (·.offset) ++ m.data.map (·.offset)

/-- An incomplete instruction that ends with a misplaced `else` (0x05). The string is the name reported for it. -/
inductive BadInstr (D : Dialect) : List Byte → String → Prop
  /-- `else` after the body of a block -/
  | block {b1 b2 : List Byte} {t : RetVal} {is : List Instr} : GRetVal b1 t → GInstrs D b2 is →
      BadInstr D (0x02 :: b1 ++ b2 ++ [0x05]) "Else"
  /-- `else` after the body of a loop -/
  | loop {b1 b2 : List Byte} {t : RetVal} {is : List Instr} : GRetVal b1 t → GInstrs D b2 is →
      BadInstr D (0x03 :: b1 ++ b2 ++ [0x05]) "Else"
  /-- `else` after the `else` part of an `if` -/
  | second {b1 b2 b3 : List Byte} {t : RetVal} {is js : List Instr} : GRetVal b1 t → GInstrs D b2 is → GInstrs D b3 js →
      BadInstr D (0x04 :: b1 ++ b2 ++ [0x05] ++ b3 ++ [0x05]) "Unknown"
  /-- `else` somewhere inside a block -/
  | inBlock {b1 b2 b : List Byte} {t : RetVal} {is : List Instr} {n : String} : GRetVal b1 t → GInstrs D b2 is → BadInstr D b n →
      BadInstr D (0x02 :: b1 ++ b2 ++ b) n
  /-- `else` somewhere inside a loop -/
  | inLoop {b1 b2 b : List Byte} {t : RetVal} {is : List Instr} {n : String} : GRetVal b1 t → GInstrs D b2 is → BadInstr D b n →
      BadInstr D (0x03 :: b1 ++ b2 ++ b) n
  /-- `else` somewhere inside the first part of an `if` -/
  | inThen {b1 b2 b : List Byte} {t : RetVal} {is : List Instr} {n : String} : GRetVal b1 t → GInstrs D b2 is → BadInstr D b n →
      BadInstr D (0x04 :: b1 ++ b2 ++ b) n
  /-- `else` somewhere inside the second part of an `if` -/
  | inElse {b1 b2 b3 b : List Byte} {t : RetVal} {is js : List Instr} {n : String} : GRetVal b1 t → GInstrs D b2 is →
      GInstrs D b3 js → BadInstr D b n → BadInstr D (0x04 :: b1 ++ b2 ++ [0x05] ++ b3 ++ b) n

/-- An incomplete expression that ends with a misplaced `else`. -/
inductive BadExpr (D : Dialect) : List Byte → String → Prop
  | here {b : List Byte} {is : List Instr} : GInstrs D b is → BadExpr D (b ++ [0x05]) "Else"
  | inside {b1 b2 : List Byte} {is : List Instr} {n : String} : GInstrs D b1 is → BadInstr D b2 n → BadExpr D (b1 ++ b2) n

end Whasm.Spec
