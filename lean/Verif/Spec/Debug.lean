import Verif.Model.StdText
import Verif.Spec.Float
import Verif.Spec.Grammar

/-!
# What can be read off the printed text
-/

namespace Whasm.Spec

/-- What is required of the parts of the standard library that are left open: the text of a float contains no comma, and two floats have the
same text exactly if they are the same or both a NaN. (Rust prints the shortest decimal that reads back as the same float, signs of zeros
included, `inf`, `-inf`, and `NaN` whatever the sign and the payload.) -/
structure StdOk (std : StdText) : Prop where
  comma32 : ∀ v, ',' ∉ std.f32 v
  comma64 : ∀ v, ',' ∉ std.f64 v
  same32 : ∀ v w, std.f32 v = std.f32 w ↔ v = w ∨ (datum32 v = .nan ∧ datum32 w = .nan)
  same64 : ∀ v w, std.f64 v = std.f64 w ↔ v = w ∨ (datum64 v = .nan ∧ datum64 w = .nan)

mutual

/-- Every NaN constant is replaced by the canonical NaN. -/
def blind : Instr → Instr
  | .constF32 v => .constF32 (if datum32 v = .nan then 0x7FC00000 else v)
  | .constF64 v => .constF64 (if datum64 v = .nan then 0x7FF8000000000000 else v)
  | .block t b => .block t (blindL b)
  | .loop t b => .loop t (blindL b)
  | .ifElse t a b => .ifElse t (blindL a) (blindL b)
  | .constI32 v => .constI32 v
  | .constI64 v => .constI64 v
  | .load op a b => .load op a b
  | .store op a b => .store op a b
  | .unreachable => .unreachable
  | .nop => .nop
  | .br l => .br l
  | .brIf l => .brIf l
  | .brTable ls l => .brTable ls l
  | .ret => .ret
  | .call x => .call x
  | .callIndirect x y => .callIndirect x y
  | .drop => .drop
  | .select => .select
  | .localGet x => .localGet x
  | .localSet x => .localSet x
  | .localTee x => .localTee x
  | .globalGet x => .globalGet x
  | .globalSet x => .globalSet x
  | .memSize x => .memSize x
  | .memGrow x => .memGrow x
  | .num op => .num op
  | .elseMark => .elseMark
  | .endMark => .endMark

def blindL : List Instr → List Instr
  | [] => []
  | i :: is => blind i :: blindL is

end

/-- The same in all expressions of a module. -/
def blindModule (m : Module) : Module :=
  { m with
    funcs := m.funcs.map fun f => { f with body := blindL f.body }
    globals := m.globals.map fun g => { g with init := blindL g.init }
    elem := m.elem.map fun e => { e with offset := blindL e.offset }
    data := m.data.map fun d => { d with offset := blindL d.offset } }

/-- All names are UTF-8, as the type `String` guarantees. -/
def NamesUtf8 (m : Module) : Prop := (∀ i ∈ m.imports, IsUtf8 i.module ∧ IsUtf8 i.name) ∧ ∀ e ∈ m.exports, IsUtf8 e.name

end Whasm.Spec
