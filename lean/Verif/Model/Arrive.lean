import Verif.Model.ValidModule
import Verif.Model.Place

/-!
# Validation up to a place in the code

`Instr::validate` and `Expr::validate` (`validation/instr.rs:5-14, 42-80`) as in `Model/ValidInstr.lean`, but stopped on arrival at a place: what the context is at that moment.
-/

namespace Whasm
open Run (Place)

/-- `Expr::validate` up to a place: the arms of `Block`, `Loop` and `If` in `validation/instr.rs:51-71` as far as the place. -/
def arrive : Place → List Instr → V Unit
  | .here n, is => validateExpr (is.take n)
  | .inside n p, is =>
    match is[n]? with
    | some (.block r b) => do
      validateExpr (is.take n)
      let ret ← validateRetVal r
      pushFrame ret ret
      arrive p b
    | some (.loop r b) => do
      validateExpr (is.take n)
      let ret ← validateRetVal r
      pushFrame [] ret
      arrive p b
    | some (.ifElse r a _) => do
      validateExpr (is.take n)
      let ret ← validateRetVal r
      popOperands [.i32]
      pushFrame ret ret
      arrive p a
    | _ => V.fail .invalid
  | .inElse n p, is =>
    match is[n]? with
    | some (.ifElse r a b) => do
      validateExpr (is.take n)
      let ret ← validateRetVal r
      popOperands [.i32]
      pushFrame ret ret
      validateExpr a
      validateElse
      arrive p b
    | _ => V.fail .invalid

/-- `module::Func::validate`, `validation/module.rs:95-104`, up to a place in the body. -/
def arriveFunc (f : Func) (p : Place) : V Unit := do
  let ty ← validateTypeIdx f.ty
  let ret := ty.results
  (fun c => .ok ((), { c with ret := some ret, locals := ty.params ++ f.locals }) : V Unit)
  pushFrame ret ret
  arrive p f.body

end Whasm
