import Verif.Model.Structure

/-!
# Data of validation: the error, the context and the result

`validation/error.rs`, `validation/stacks.rs:4-30`, `validation/context.rs:4-15`, `validation/module.rs:8-11`. Apart from the functions on them, so that `Spec/` can use the data alone.
-/

namespace Whasm

/-- `validation::Error`, `validation/error.rs`: the only error, `UnexpectedEndOfFile`, is `invalid`.
`panic` stands for a Rust panic. -/
inductive VErr where
  | invalid
  | panic
  deriving DecidableEq, Repr

/-- `stacks::Operand`, `validation/stacks.rs:4-9`. -/
inductive Operand where
  | unknown
  | val (v : Val)
  deriving DecidableEq, Repr

/-- `stacks::Frame`, `validation/stacks.rs:17-24`. -/
structure Frame where
  label : List Val
  out : List Val
  height : Nat
  unreachable : Bool
  deriving DecidableEq, Repr

/-- `Context`, `validation/context.rs:4-15`, with `stacks: Stacks` (`validation/stacks.rs:26-30`) inlined. The two
stacks are Rust `Vec`s whose last element is the top; here the *head* of the list is the top.
The field `labels` is never used by the Rust code and is omitted. -/
structure Ctx where
  types : List FuncTy := []
  funcs : List FuncTy := []
  tables : List TableTy := []
  mems : List MemTy := []
  globals : List GlobalTy := []
  locals : List Val := []
  ret : Option (List Val) := none
  operands : List Operand := []
  frames : List Frame := []

/-- `result::External`, `validation/module.rs:13-18`. -/
inductive External where
  | func (ty : FuncTy)
  | table (ty : TableTy)
  | mem (ty : MemTy)
  | global (ty : GlobalTy)
  deriving DecidableEq, Repr

/-- `result::Module`, `validation/module.rs:8-11`. -/
structure ModuleResult where
  imports : List External
  exports : List External
  deriving DecidableEq, Repr

end Whasm
