/-!
# The vectors of the crate
-/

namespace Whasm

/-- The element types of the vectors that the parser makes: `u8` (strings and `module::Data::init`), `ty::Val` (parameters, results and block types; `local` is for local variables, which get into their vector by `push`),
the index types of `structure/idx.rs:1-20` (labels, the function section, `module::Elem::init`), `instr::Instr`, and the fields of `module::Module`,
`structure/module.rs:5-16`. -/
inductive Kind where
  | byte
  | val
  | local
  | idx
  | instr
  | functype
  | func
  | table
  | mem
  | global
  | elem
  | data
  | import
  | export
  deriving DecidableEq, Repr

/-- The vectors that validation makes: those of the context (`validation/context.rs:5-15`) with its stacks (`validation/stacks.rs:26-30`), the two of the result (`validation/module.rs:8-11`;
`externals` is for both), and the names of the exports (`validation/module.rs:75-77`). -/
inductive Entry where
  | types
  | funcs
  | tables
  | mems
  | globals
  | locals
  | operands
  | frames
  | externals
  | names
  deriving DecidableEq, Repr

end Whasm
