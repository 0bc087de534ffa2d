import Verif.Model.Core
import Verif.Model.Structure

/-!
# Types and instructions: `binary/ty.rs`, `binary/idx.rs`, `binary/instr.rs`
-/

namespace Whasm

/-- `ty::Limits::parse`, `binary/ty.rs:6-21`. -/
def parseLimits : P Limits := do
  let byte ← parseByte
  match byte.toNat with
  | 0x00 => do
    let min ← parseU32
    pure { min := min, max := none }
  | 0x01 => do
    let min ← parseU32
    let max ← parseU32
    pure { min := min, max := some max }
  | _ => P.fail (.invalidVariantId byte "ty::Limits")

/-- `ty::Val::parse`, `binary/ty.rs:23-34`. -/
def parseVal : P Val := do
  let byte ← parseByte
  match byte.toNat with
  | 0x7F => pure .i32
  | 0x7E => pure .i64
  | 0x7D => pure .f32
  | 0x7C => pure .f64
  | _ => P.fail (.invalidVariantId byte "ty::Val")

/-- `ty::Elem::parse`, `binary/ty.rs:36-44`. -/
def parseElemTy : P ElemTy := do
  let byte ← parseByte
  match byte.toNat with
  | 0x70 => pure .funcRef
  | _ => P.fail (.invalidVariantId byte "ty::Elem")

/-- `ty::RetVal::parse`, `binary/ty.rs:46-58`: the byte is re-parsed as a `Val` from a one-element iterator. -/
def parseRetVal : P RetVal := do
  let byte ← parseByte
  match byte.toNat with
  | 0x40 => pure []
  | _ =>
    match parseVal [byte] with
    | (.ok v, _) => pure [v]
    | (.error e, _) => P.fail e

/-- `ty::Func::parse`, `binary/ty.rs:60-71`. -/
def parseFuncTy : P FuncTy := do
  let byte ← parseByte
  match byte.toNat with
  | 0x60 => do
    let params ← parseVec parseVal
    let results ← parseVec parseVal
    pure { params := params, results := results }
  | _ => P.fail (.invalidVariantId byte "ty::Func")

/-- `ty::Table::parse`, `binary/ty.rs:73-80`: struct fields are evaluated in the order written (`elem` first). -/
def parseTableTy : P TableTy := do
  let elem ← parseElemTy
  let lim ← parseLimits
  pure { elem := elem, lim := lim }

/-- `ty::Mem::parse`, `binary/ty.rs:82-88`. -/
def parseMemTy : P MemTy := do
  let lim ← parseLimits
  pure { lim := lim }

/-- `ty::Mut::parse`, `binary/ty.rs:90-99`. -/
def parseMut : P Mut := do
  let byte ← parseByte
  match byte.toNat with
  | 0x00 => pure .const
  | 0x01 => pure .var
  | _ => P.fail (.invalidVariantId byte "ty::Mut")

/-- `ty::Global::parse`, `binary/ty.rs:101-108`. -/
def parseGlobalTy : P GlobalTy := do
  let val ← parseVal
  let mt ← parseMut
  pure { val := val, mt := mt }

/-- `idx::*::parse`, `binary/idx.rs`. -/
def parseIdx : P Idx := parseU32

/-- The match arms 0x28 to 0x35 of `Instr::parse`, `binary/instr.rs:55-68`. -/
def loadTable : List (Nat × LoadOp) :=
  [(0x28, .i32Load), (0x29, .i64Load), (0x2A, .f32Load), (0x2B, .f64Load), (0x2C, .i32Load8S),
   (0x2D, .i32Load8U), (0x2E, .i32Load16S), (0x2F, .i32Load16U), (0x30, .i64Load8S),
   (0x31, .i64Load8U), (0x32, .i64Load16S), (0x33, .i64Load16U), (0x34, .i64Load32S),
   (0x35, .i64Load32U)]

/-- The match arms 0x36 to 0x3E of `Instr::parse`, `binary/instr.rs:70-78`. -/
def storeTable : List (Nat × StoreOp) :=
  [(0x36, .i32Store), (0x37, .i64Store), (0x38, .f32Store), (0x39, .f64Store),
   (0x3A, .i32Store8), (0x3B, .i32Store16), (0x3C, .i64Store8), (0x3D, .i64Store16),
   (0x3E, .i64Store32)]

/-- The match arms 0x45 to 0xBF of `Instr::parse`, `binary/instr.rs:88-218`. -/
def numTable : List (Nat × NumOp) :=
  [(0x45, .i32Eqz), (0x46, .i32Eq), (0x47, .i32Ne), (0x48, .i32LtS), (0x49, .i32LtU),
   (0x4A, .i32GtS), (0x4B, .i32GtU), (0x4C, .i32LeS), (0x4D, .i32LeU), (0x4E, .i32GeS),
   (0x4F, .i32GeU), (0x50, .i64Eqz), (0x51, .i64Eq), (0x52, .i64Ne), (0x53, .i64LtS),
   (0x54, .i64LtU), (0x55, .i64GtS), (0x56, .i64GtU), (0x57, .i64LeS), (0x58, .i64LeU),
   (0x59, .i64GeS), (0x5A, .i64GeU), (0x5B, .f32Eq), (0x5C, .f32Ne), (0x5D, .f32Lt),
   (0x5E, .f32Gt), (0x5F, .f32Le), (0x60, .f32Ge), (0x61, .f64Eq), (0x62, .f64Ne),
   (0x63, .f64Lt), (0x64, .f64Gt), (0x65, .f64Le), (0x66, .f64Ge), (0x67, .i32Clz),
   (0x68, .i32Ctz), (0x69, .i32Popcnt), (0x6A, .i32Add), (0x6B, .i32Sub), (0x6C, .i32Mul),
   (0x6D, .i32DivS), (0x6E, .i32DivU), (0x6F, .i32RemS), (0x70, .i32RemU), (0x71, .i32And),
   (0x72, .i32Or), (0x73, .i32Xor), (0x74, .i32Shl), (0x75, .i32ShrS), (0x76, .i32ShrU),
   (0x77, .i32Rotl), (0x78, .i32Rotr), (0x79, .i64Clz), (0x7A, .i64Ctz), (0x7B, .i64Popcnt),
   (0x7C, .i64Add), (0x7D, .i64Sub), (0x7E, .i64Mul), (0x7F, .i64DivS), (0x80, .i64DivU),
   (0x81, .i64RemS), (0x82, .i64RemU), (0x83, .i64And), (0x84, .i64Or), (0x85, .i64Xor),
   (0x86, .i64Shl), (0x87, .i64ShrS), (0x88, .i64ShrU), (0x89, .i64Rotl), (0x8A, .i64Rotr),
   (0x8B, .f32Abs), (0x8C, .f32Neg), (0x8D, .f32Ceil), (0x8E, .f32Floor), (0x8F, .f32Trunc),
   (0x90, .f32Nearest), (0x91, .f32Sqrt), (0x92, .f32Add), (0x93, .f32Sub), (0x94, .f32Mul),
   (0x95, .f32Div), (0x96, .f32Min), (0x97, .f32Max), (0x98, .f32Copysign), (0x99, .f64Abs),
   (0x9A, .f64Neg), (0x9B, .f64Ceil), (0x9C, .f64Floor), (0x9D, .f64Trunc), (0x9E, .f64Nearest),
   (0x9F, .f64Sqrt), (0xA0, .f64Add), (0xA1, .f64Sub), (0xA2, .f64Mul), (0xA3, .f64Div),
   (0xA4, .f64Min), (0xA5, .f64Max), (0xA6, .f64Copysign), (0xA7, .i32WrapI64),
   (0xA8, .i32TruncF32S), (0xA9, .i32TruncF32U), (0xAA, .i32TruncF64S), (0xAB, .i32TruncF64U),
   (0xAC, .i64ExtendI32S), (0xAD, .i64ExtendI32U), (0xAE, .i64TruncF32S), (0xAF, .i64TruncF32U),
   (0xB0, .i64TruncF64S), (0xB1, .i64TruncF64U), (0xB2, .f32ConvertI32S),
   (0xB3, .f32ConvertI32U), (0xB4, .f32ConvertI64S), (0xB5, .f32ConvertI64U),
   (0xB6, .f32DemoteF64), (0xB7, .f64ConvertI32S), (0xB8, .f64ConvertI32U),
   (0xB9, .f64ConvertI64S), (0xBA, .f64ConvertI64U), (0xBB, .f64PromoteF32),
   (0xBC, .i32ReinterpretF32), (0xBD, .i64ReinterpretF64), (0xBE, .f32ReinterpretI32),
   (0xBF, .f64ReinterpretI64)]

/-- `SubExpr`, `binary/instr.rs:225`: the instructions read and the `End` or `Else` that stopped the loop. -/
structure SubExpr where
  body : Expr
  next : Instr

/-- `Expr::parse`, `binary/instr.rs:6-14`, given the parser of `SubExpr`. -/
def exprOf (sub : P SubExpr) : P Expr := do
  let se ← sub
  match se.next with
  | .endMark => pure se.body
  | .elseMark => P.fail (.unexpectedOpcode "Else")
  | _ => P.fail (.unexpectedOpcode "Unknown")

/-- `next == Instr::Else` (derived `PartialEq`, `binary/instr.rs:256`). -/
def Instr.isElse : Instr → Bool
  | .elseMark => true
  | _ => false

/-- `next == Instr::End` (derived `PartialEq`, `binary/instr.rs:264`). -/
def Instr.isEnd : Instr → Bool
  | .endMark => true
  | _ => false

/-- `if next == Instr::Else { SubExpr::parse } else { (empty, next) }`, `binary/instr.rs:256-262`. -/
def elsePart (sub : P SubExpr) (s1 : SubExpr) : P (Expr × Instr) :=
  if s1.next.isElse then do
    let s2 ← sub
    pure (s2.body, s2.next)
  else pure ([], s1.next)

/-- `IfInstr::parse` and its conversion into `Instr::If`, `binary/instr.rs:243-274`. -/
def ifOf (sub : P SubExpr) : P Instr := do
  let ret ← parseRetVal
  let s1 ← sub
  let bn ← elsePart sub s1
  if bn.2.isEnd then pure (.ifElse ret s1.body bn.1)
  else P.fail (.unexpectedOpcode "Unknown")

/-- The three grouped ranges of opcodes and the rejection of all the others,
`binary/instr.rs:55-78, 88-220`. -/
def instrTail (byte : Byte) : P Instr :=
  match loadTable.lookup byte.toNat with
  | some op => do
    let a ← parseU32
    let b ← parseU32
    pure (.load op a b)
  | none =>
    match storeTable.lookup byte.toNat with
    | some op => do
      let a ← parseU32
      let b ← parseU32
      pure (.store op a b)
    | none =>
      match numTable.lookup byte.toNat with
      | some op => pure (.num op)
      | none => P.fail (.invalidVariantId byte "instr::Instr")

/-- The `match` of `Instr::parse` on the opcode, `binary/instr.rs:26-221`, given the parser `sub` of the
nested `SubExpr`s. -/
def instrAt (sub : P SubExpr) (byte : Byte) : P Instr :=
  match byte.toNat with
  | 0x00 => pure .unreachable
  | 0x01 => pure .nop
  | 0x02 => do
    let ret ← parseRetVal
    let body ← exprOf sub
    pure (.block ret body)
  | 0x03 => do
    let ret ← parseRetVal
    let body ← exprOf sub
    pure (.loop ret body)
  | 0x04 => ifOf sub
  | 0x05 => pure .elseMark
  | 0x0B => pure .endMark
  | 0x0C => do let l ← parseIdx; pure (.br l)
  | 0x0D => do let l ← parseIdx; pure (.brIf l)
  | 0x0E => do
    let ls ← parseVec parseIdx
    let l ← parseIdx
    pure (.brTable ls l)
  | 0x0F => pure .ret
  | 0x10 => do let f ← parseIdx; pure (.call f)
  | 0x11 => do
    let ty ← parseIdx
    let table ← parseIdx
    pure (.callIndirect ty table)
  | 0x1A => pure .drop
  | 0x1B => pure .select
  | 0x20 => do let i ← parseIdx; pure (.localGet i)
  | 0x21 => do let i ← parseIdx; pure (.localSet i)
  | 0x22 => do let i ← parseIdx; pure (.localTee i)
  | 0x23 => do let i ← parseIdx; pure (.globalGet i)
  | 0x24 => do let i ← parseIdx; pure (.globalSet i)
  | 0x3F => do let m ← parseIdx; pure (.memSize m)
  | 0x40 => do let m ← parseIdx; pure (.memGrow m)
  | 0x41 => do let v ← parseI32; pure (.constI32 v)
  | 0x42 => do let v ← parseI64; pure (.constI64 v)
  | 0x43 => do let v ← parseF32; pure (.constF32 v)
  | 0x44 => do let v ← parseF64; pure (.constF64 v)
  | _ => instrTail byte

/-- `Instr::parse`, `binary/instr.rs:23-223`. -/
def instrOf (sub : P SubExpr) : P Instr := do
  let byte ← parseByte
  instrAt sub byte

/-- The body of the loop of `SubExpr::parse` after an instruction has been read: stop at `End` and `Else`, otherwise
push the instruction and go on, `binary/instr.rs:231-238`. -/
def subStep (sub : P SubExpr) (next : Instr) : P SubExpr :=
  match next with
  | .endMark => pure { body := [], next := .endMark }
  | .elseMark => pure { body := [], next := .elseMark }
  | next => do
    let rest ← sub
    pure { body := next :: rest.body, next := rest.next }

/-- `SubExpr::parse`, `binary/instr.rs:227-241`. The `loop` and the mutual recursion with `Instr::parse` are
modelled by recursion on `fuel`; accumulating with `push` is modelled by consing on the way back. -/
def parseSubExpr : Nat → P SubExpr
  | 0 => P.fail .fuel
  | fuel + 1 => do
    let next ← instrOf (parseSubExpr fuel)
    subStep (parseSubExpr fuel) next

/-- `Instr::parse` with enough fuel for the input at hand (each iteration consumes a byte). -/
def parseInstr : P Instr := fun s => instrOf (parseSubExpr (s.length + 1)) s

/-- `Expr::parse`, `binary/instr.rs:6-14`. -/
def parseExpr : P Expr := fun s => exprOf (parseSubExpr (s.length + 1)) s

/-- `ConstExpr::parse`, `binary/instr.rs:16-21`. -/
def parseConstExpr : P ConstExpr := do
  let e ← parseExpr
  pure e

end Whasm
