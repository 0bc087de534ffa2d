import Verif.Spec.Occurs

/-!
# How large a module is
-/

namespace Whasm.Spec

mutual
/-- Number of instructions, of labels in `br_table` and of values in block types. -/
def bulkI : Instr → Nat
  | .block t b => 1 + t.length + bulkL b
  | .loop t b => 1 + t.length + bulkL b
  | .ifElse t a b => 1 + t.length + bulkL a + bulkL b
  | .brTable ls _ => 1 + ls.length
  | _ => 1
def bulkL : List Instr → Nat
  | [] => 0
  | i :: is => bulkI i + bulkL is
end

/-- Sum of the values of `f`. -/
def total {α : Type} (f : α → Nat) : List α → Nat
  | [] => 0
  | x :: xs => f x + total f xs

/-- Number of parts of a module: definitions, parameters, results, locals, instructions and elements. Names and the bytes of data segments do not count. -/
def bulk (m : Module) : Nat :=
  total (fun t => 1 + t.params.length + t.results.length) m.types + total (fun f => 1 + f.locals.length + bulkL f.body) m.funcs +
  m.tables.length + m.mems.length + total (fun g => 1 + bulkL g.init) m.globals + total (fun e => 1 + bulkL e.offset + e.init.length) m.elem +
  total (fun d => 1 + bulkL d.offset) m.data + m.start.toList.length + m.imports.length + m.exports.length

/-- Local variables of all functions. They are written down as runs, so a few bytes can stand for many. -/
def localsOf (m : Module) : Nat := total (fun f => f.locals.length) m.funcs

/-- Parameters of the type of a function, and its local variables. -/
def slots (types : List FuncTy) (f : Func) : Nat := (match types[f.ty.toNat]? with | some t => t.params.length | none => 0) + f.locals.length

/-- The block types in a module have at most `r` results. -/
def BlockResults (r : Nat) (m : Module) : Prop := ∀ e ∈ exprsOf m, ∀ j, Occurs j e → ∀ t ∈ blockTypes j, t.length ≤ r

end Whasm.Spec
