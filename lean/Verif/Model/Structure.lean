import Verif.Model.Basic

/-!
# Abstract syntax: `structure/{ty,idx,instr,module}.rs`
-/

namespace Whasm

/-- `ty::Val`, `structure/ty.rs:7-14`. -/
inductive Val where
  | i32 | i64 | f32 | f64
  deriving DecidableEq, Repr

/-- `ty::Limits`, `structure/ty.rs:1-5`. -/
structure Limits where
  min : U32
  max : Option U32
  deriving DecidableEq, Repr

/-- `ty::Elem`, `structure/ty.rs:16-19`. -/
inductive ElemTy where
  | funcRef
  deriving DecidableEq, Repr

/-- `ty::RetVal`, `structure/ty.rs:21-22` (newtype around `Vec<Val>`). -/
abbrev RetVal := List Val

/-- `ty::Func`, `structure/ty.rs:24-28`. -/
structure FuncTy where
  params : List Val
  results : List Val
  deriving DecidableEq, Repr

/-- `ty::Table`, `structure/ty.rs:30-34`. -/
structure TableTy where
  lim : Limits
  elem : ElemTy
  deriving DecidableEq, Repr

/-- `ty::Mem`, `structure/ty.rs:36-39`. -/
structure MemTy where
  lim : Limits
  deriving DecidableEq, Repr

/-- `ty::Mut`, `structure/ty.rs:41-42`. -/
inductive Mut where
  | const | var
  deriving DecidableEq, Repr

/-- `ty::Global`, `structure/ty.rs:44-48`. -/
structure GlobalTy where
  mt : Mut
  val : Val
  deriving DecidableEq, Repr

/-- `idx::Type`, ..., `idx::Label`, `structure/idx.rs`: the seven newtypes around `u32` are not distinguished. -/
abbrev Idx := U32

/-- The 14 load instructions, opcodes 0x28 to 0x35, `structure/instr.rs:39-52` (grouped). -/
inductive LoadOp where
  | i32Load | i64Load | f32Load | f64Load | i32Load8S | i32Load8U | i32Load16S | i32Load16U
  | i64Load8S | i64Load8U | i64Load16S | i64Load16U | i64Load32S | i64Load32U
  deriving DecidableEq, Repr

/-- The 9 store instructions, opcodes 0x36 to 0x3E, `structure/instr.rs:54-62` (grouped). -/
inductive StoreOp where
  | i32Store | i64Store | f32Store | f64Store | i32Store8 | i32Store16 | i64Store8 | i64Store16
  | i64Store32
  deriving DecidableEq, Repr

/-- The 123 numeric instructions without immediate, opcodes 0x45 to 0xBF, `structure/instr.rs:72-202`
(grouped). -/
inductive NumOp where
  | i32Eqz | i32Eq | i32Ne | i32LtS | i32LtU | i32GtS | i32GtU | i32LeS | i32LeU | i32GeS
  | i32GeU | i64Eqz | i64Eq | i64Ne | i64LtS | i64LtU | i64GtS | i64GtU | i64LeS | i64LeU
  | i64GeS | i64GeU | f32Eq | f32Ne | f32Lt | f32Gt | f32Le | f32Ge | f64Eq | f64Ne | f64Lt
  | f64Gt | f64Le | f64Ge | i32Clz | i32Ctz | i32Popcnt | i32Add | i32Sub | i32Mul | i32DivS
  | i32DivU | i32RemS | i32RemU | i32And | i32Or | i32Xor | i32Shl | i32ShrS | i32ShrU
  | i32Rotl | i32Rotr | i64Clz | i64Ctz | i64Popcnt | i64Add | i64Sub | i64Mul | i64DivS
  | i64DivU | i64RemS | i64RemU | i64And | i64Or | i64Xor | i64Shl | i64ShrS | i64ShrU
  | i64Rotl | i64Rotr | f32Abs | f32Neg | f32Ceil | f32Floor | f32Trunc | f32Nearest | f32Sqrt
  | f32Add | f32Sub | f32Mul | f32Div | f32Min | f32Max | f32Copysign | f64Abs | f64Neg
  | f64Ceil | f64Floor | f64Trunc | f64Nearest | f64Sqrt | f64Add | f64Sub | f64Mul | f64Div
  | f64Min | f64Max | f64Copysign | i32WrapI64 | i32TruncF32S | i32TruncF32U | i32TruncF64S
  | i32TruncF64U | i64ExtendI32S | i64ExtendI32U | i64TruncF32S | i64TruncF32U | i64TruncF64S
  | i64TruncF64U | f32ConvertI32S | f32ConvertI32U | f32ConvertI64S | f32ConvertI64U
  | f32DemoteF64 | f64ConvertI32S | f64ConvertI32U | f64ConvertI64S | f64ConvertI64U
  | f64PromoteF32 | i32ReinterpretF32 | i64ReinterpretF64 | f32ReinterpretI32
  | f64ReinterpretI64
  deriving DecidableEq, Repr

/-- `instr::Instr`, `structure/instr.rs:9-204`. `instr::Expr` and `instr::ConstExpr` (lines 3-7) are
newtypes around `Vec<Instr>` and are represented by `List Instr`. Loads, stores and the numeric instructions
without immediate are grouped: `load op a b` is the variant named `op` with its two `u32` fields in order. -/
inductive Instr where
  | unreachable
  | nop
  | block (ret : RetVal) (body : List Instr)
  | loop (ret : RetVal) (body : List Instr)
  | ifElse (ret : RetVal) (thn els : List Instr)
  | elseMark
  | endMark
  | br (l : Idx)
  | brIf (l : Idx)
  | brTable (ls : List Idx) (l : Idx)
  | ret
  | call (f : Idx)
  | callIndirect (ty : Idx) (table : Idx)
  | drop
  | select
  | localGet (i : Idx)
  | localSet (i : Idx)
  | localTee (i : Idx)
  | globalGet (i : Idx)
  | globalSet (i : Idx)
  | load (op : LoadOp) (a b : U32)
  | store (op : StoreOp) (a b : U32)
  | memSize (m : Idx)
  | memGrow (m : Idx)
  | constI32 (v : I32)
  | constI64 (v : I64)
  | constF32 (v : F32)
  | constF64 (v : F64)
  | num (op : NumOp)
  deriving Repr

/-- `instr::Expr`, `structure/instr.rs:3-4`. -/
abbrev Expr := List Instr
/-- `instr::ConstExpr`, `structure/instr.rs:6-7`. -/
abbrev ConstExpr := List Instr

/-- Rust `String`, represented by its UTF-8 bytes. -/
abbrev Name := List Byte

/-- `module::Func`, `structure/module.rs:18-23`. -/
structure Func where
  ty : Idx
  locals : List Val
  body : Expr

/-- `module::Table`, `structure/module.rs:25-28`. -/
structure Table where
  ty : TableTy

/-- `module::Mem`, `structure/module.rs:30-33`. -/
structure Mem where
  ty : MemTy

/-- `module::Global`, `structure/module.rs:35-39`. -/
structure Global where
  ty : GlobalTy
  init : ConstExpr

/-- `module::Elem`, `structure/module.rs:41-46`. -/
structure Elem where
  table : Idx
  offset : ConstExpr
  init : List Idx

/-- `module::Data`, `structure/module.rs:48-53`. -/
structure Data where
  mem : Idx
  offset : ConstExpr
  init : List Byte

/-- `module::Start`, `structure/module.rs:55-58`. -/
structure Start where
  func : Idx

/-- `module::desc::Import`, `structure/module.rs:63-69`. -/
inductive ImportDesc where
  | func (ty : Idx)
  | table (ty : TableTy)
  | mem (ty : MemTy)
  | global (ty : GlobalTy)

/-- `module::desc::Export`, `structure/module.rs:71-77`. -/
inductive ExportDesc where
  | func (i : Idx)
  | table (i : Idx)
  | mem (i : Idx)
  | global (i : Idx)

/-- `module::Import`, `structure/module.rs:80-85`. -/
structure Import where
  module : Name
  name : Name
  desc : ImportDesc

/-- `module::Export`, `structure/module.rs:87-91`. -/
structure Export where
  name : Name
  desc : ExportDesc

/-- `module::Module`, `structure/module.rs:3-16`; the field defaults are `#[derive(Default)]`. -/
structure Module where
  types : List FuncTy := []
  funcs : List Func := []
  tables : List Table := []
  mems : List Mem := []
  globals : List Global := []
  elem : List Elem := []
  data : List Data := []
  start : Option Start := none
  imports : List Import := []
  exports : List Export := []

end Whasm
