import Verif.Model.Stacks

/-!
# Validation of indices, types, instructions: `validation/{idx,ty,instr}.rs`
-/

namespace Whasm

/-- The common body of `validate` for `idx::Type`, `Func`, `Table`, `Mem`, `Global`, `Local`,
`validation/idx.rs:4-68`: bounds check, then indexing (which panics out of bounds). -/
def lookup {α : Type} (l : List α) (i : Idx) : V α := fun c =>
  if i.toNat ≥ l.length then .error .invalid
  else
    match l[i.toNat]? with
    | some x => .ok (x, c)
    | none => .error .panic

/-- `idx::Type::validate`, `validation/idx.rs:4-13`. -/
def validateTypeIdx (i : Idx) : V FuncTy := fun c => lookup c.types i c
/-- `idx::Func::validate`, `validation/idx.rs:15-24`. -/
def validateFuncIdx (i : Idx) : V FuncTy := fun c => lookup c.funcs i c
/-- `idx::Table::validate`, `validation/idx.rs:26-35`. -/
def validateTableIdx (i : Idx) : V TableTy := fun c => lookup c.tables i c
/-- `idx::Mem::validate`, `validation/idx.rs:37-46`. -/
def validateMemIdx (i : Idx) : V MemTy := fun c => lookup c.mems i c
/-- `idx::Global::validate`, `validation/idx.rs:48-57`. -/
def validateGlobalIdx (i : Idx) : V GlobalTy := fun c => lookup c.globals i c
/-- `idx::Local::validate`, `validation/idx.rs:59-68`. -/
def validateLocalIdx (i : Idx) : V Val := fun c => lookup c.locals i c

/-- `idx::Label::validate`, `validation/idx.rs:70-83`. `usize` is unbounded here, so `idx + 1` does not
overflow (it cannot on 64-bit targets). The `Vec` of frames, bottom first, is the reverse of our list. A negative
`len - idx - 1` or an index out of bounds would panic. -/
def validateLabel (i : Idx) : V Frame := fun c =>
  let idx := i.toNat
  let len := c.frames.length
  if ¬ (idx + 1 < len) then .error .invalid
  else if len < idx + 1 then .error .panic
  else
    match c.frames.reverse[len - idx - 1]? with
    | some f => .ok (f, c)
    | none => .error .panic

/-- `ty::Limits::validate`, `validation/ty.rs:4-14`. -/
def validateLimits (l : Limits) : V U32 :=
  let max := l.max.getD l.min
  if ¬ (l.min ≤ max) then V.fail .invalid else pure max

/-- `ty::Func::validate`, `validation/ty.rs:16-24`. -/
def validateFuncTy (t : FuncTy) : V Unit :=
  if ¬ (t.results.length ≤ 1) then V.fail .invalid else pure ()

/-- `ty::Table::validate`, `validation/ty.rs:26-35`. -/
def validateTableTy (t : TableTy) : V Unit := do
  let range ← validateLimits t.lim
  if ¬ (range ≤ BitVec.ofNat 32 (2^32 - 1)) then V.fail .invalid else pure ()

/-- `ty::Mem::validate`, `validation/ty.rs:37-46`: the bound is `u16::MAX`. -/
def validateMemTy (t : MemTy) : V Unit := do
  let range ← validateLimits t.lim
  if ¬ (range ≤ BitVec.ofNat 32 (2^16 - 1)) then V.fail .invalid else pure ()

/-- `ty::Global::validate`, `validation/ty.rs:48-53`. -/
def validateGlobalTy (_ : GlobalTy) : V Unit := pure ()

/-- `ty::RetVal::validate`, `validation/ty.rs:55-60`. -/
def validateRetVal (r : RetVal) : V (List Val) := pure r

/-- Operands popped and pushed by each numeric instruction without immediate, match arms 0x45 to 0xBF of
`Instr::validate`, `validation/instr.rs:257-756`; each arm is `pop_operands(&[..])?; push_operands(&[..])`. -/
def numSig : NumOp → List Val × List Val
  | .i32Eqz => ([.i32], [.i32])
  | .i32Eq => ([.i32, .i32], [.i32])
  | .i32Ne => ([.i32, .i32], [.i32])
  | .i32LtS => ([.i32, .i32], [.i32])
  | .i32LtU => ([.i32, .i32], [.i32])
  | .i32GtS => ([.i32, .i32], [.i32])
  | .i32GtU => ([.i32, .i32], [.i32])
  | .i32LeS => ([.i32, .i32], [.i32])
  | .i32LeU => ([.i32, .i32], [.i32])
  | .i32GeS => ([.i32, .i32], [.i32])
  | .i32GeU => ([.i32, .i32], [.i32])
  | .i64Eqz => ([.i64], [.i32])
  | .i64Eq => ([.i64, .i64], [.i32])
  | .i64Ne => ([.i64, .i64], [.i32])
  | .i64LtS => ([.i64, .i64], [.i32])
  | .i64LtU => ([.i64, .i64], [.i32])
  | .i64GtS => ([.i64, .i64], [.i32])
  | .i64GtU => ([.i64, .i64], [.i32])
  | .i64LeS => ([.i64, .i64], [.i32])
  | .i64LeU => ([.i64, .i64], [.i32])
  | .i64GeS => ([.i64, .i64], [.i32])
  | .i64GeU => ([.i64, .i64], [.i32])
  | .f32Eq => ([.f32, .f32], [.i32])
  | .f32Ne => ([.f32, .f32], [.i32])
  | .f32Lt => ([.f32, .f32], [.i32])
  | .f32Gt => ([.f32, .f32], [.i32])
  | .f32Le => ([.f32, .f32], [.i32])
  | .f32Ge => ([.f32, .f32], [.i32])
  | .f64Eq => ([.f64, .f64], [.i32])
  | .f64Ne => ([.f64, .f64], [.i32])
  | .f64Lt => ([.f64, .f64], [.i32])
  | .f64Gt => ([.f64, .f64], [.i32])
  | .f64Le => ([.f64, .f64], [.i32])
  | .f64Ge => ([.f64, .f64], [.i32])
  | .i32Clz => ([.i32], [.i32])
  | .i32Ctz => ([.i32], [.i32])
  | .i32Popcnt => ([.i32], [.i32])
  | .i32Add => ([.i32, .i32], [.i32])
  | .i32Sub => ([.i32, .i32], [.i32])
  | .i32Mul => ([.i32, .i32], [.i32])
  | .i32DivS => ([.i32, .i32], [.i32])
  | .i32DivU => ([.i32, .i32], [.i32])
  | .i32RemS => ([.i32, .i32], [.i32])
  | .i32RemU => ([.i32, .i32], [.i32])
  | .i32And => ([.i32, .i32], [.i32])
  | .i32Or => ([.i32, .i32], [.i32])
  | .i32Xor => ([.i32, .i32], [.i32])
  | .i32Shl => ([.i32, .i32], [.i32])
  | .i32ShrS => ([.i32, .i32], [.i32])
  | .i32ShrU => ([.i32, .i32], [.i32])
  | .i32Rotl => ([.i32, .i32], [.i32])
  | .i32Rotr => ([.i32, .i32], [.i32])
  | .i64Clz => ([.i64], [.i64])
  | .i64Ctz => ([.i64], [.i64])
  | .i64Popcnt => ([.i64], [.i64])
  | .i64Add => ([.i64, .i64], [.i64])
  | .i64Sub => ([.i64, .i64], [.i64])
  | .i64Mul => ([.i64, .i64], [.i64])
  | .i64DivS => ([.i64, .i64], [.i64])
  | .i64DivU => ([.i64, .i64], [.i64])
  | .i64RemS => ([.i64, .i64], [.i64])
  | .i64RemU => ([.i64, .i64], [.i64])
  | .i64And => ([.i64, .i64], [.i64])
  | .i64Or => ([.i64, .i64], [.i64])
  | .i64Xor => ([.i64, .i64], [.i64])
  | .i64Shl => ([.i64, .i64], [.i64])
  | .i64ShrS => ([.i64, .i64], [.i64])
  | .i64ShrU => ([.i64, .i64], [.i64])
  | .i64Rotl => ([.i64, .i64], [.i64])
  | .i64Rotr => ([.i64, .i64], [.i64])
  | .f32Abs => ([.f32], [.f32])
  | .f32Neg => ([.f32], [.f32])
  | .f32Ceil => ([.f32], [.f32])
  | .f32Floor => ([.f32], [.f32])
  | .f32Trunc => ([.f32], [.f32])
  | .f32Nearest => ([.f32], [.f32])
  | .f32Sqrt => ([.f32], [.f32])
  | .f32Add => ([.f32, .f32], [.f32])
  | .f32Sub => ([.f32, .f32], [.f32])
  | .f32Mul => ([.f32, .f32], [.f32])
  | .f32Div => ([.f32, .f32], [.f32])
  | .f32Min => ([.f32, .f32], [.f32])
  | .f32Max => ([.f32, .f32], [.f32])
  | .f32Copysign => ([.f32, .f32], [.f32])
  | .f64Abs => ([.f64], [.f64])
  | .f64Neg => ([.f64], [.f64])
  | .f64Ceil => ([.f64], [.f64])
  | .f64Floor => ([.f64], [.f64])
  | .f64Trunc => ([.f64], [.f64])
  | .f64Nearest => ([.f64], [.f64])
  | .f64Sqrt => ([.f64], [.f64])
  | .f64Add => ([.f64, .f64], [.f64])
  | .f64Sub => ([.f64, .f64], [.f64])
  | .f64Mul => ([.f64, .f64], [.f64])
  | .f64Div => ([.f64, .f64], [.f64])
  | .f64Min => ([.f64, .f64], [.f64])
  | .f64Max => ([.f64, .f64], [.f64])
  | .f64Copysign => ([.f64, .f64], [.f64])
  | .i32WrapI64 => ([.i64], [.i32])
  | .i32TruncF32S => ([.f32], [.i32])
  | .i32TruncF32U => ([.f32], [.i32])
  | .i32TruncF64S => ([.f64], [.i32])
  | .i32TruncF64U => ([.f64], [.i32])
  | .i64ExtendI32S => ([.i32], [.i64])
  | .i64ExtendI32U => ([.i32], [.i64])
  | .i64TruncF32S => ([.f32], [.i64])
  | .i64TruncF32U => ([.f32], [.i64])
  | .i64TruncF64S => ([.f64], [.i64])
  | .i64TruncF64U => ([.f64], [.i64])
  | .f32ConvertI32S => ([.i32], [.f32])
  | .f32ConvertI32U => ([.i32], [.f32])
  | .f32ConvertI64S => ([.i64], [.f32])
  | .f32ConvertI64U => ([.i64], [.f32])
  | .f32DemoteF64 => ([.f64], [.f32])
  | .f64ConvertI32S => ([.i32], [.f64])
  | .f64ConvertI32U => ([.i32], [.f64])
  | .f64ConvertI64S => ([.i64], [.f64])
  | .f64ConvertI64U => ([.i64], [.f64])
  | .f64PromoteF32 => ([.f32], [.f64])
  | .i32ReinterpretF32 => ([.f32], [.i32])
  | .i64ReinterpretF64 => ([.f64], [.i64])
  | .f32ReinterpretI32 => ([.i32], [.f32])
  | .f64ReinterpretI64 => ([.i64], [.f64])

/-- Size in bits and value type passed to `validate_load`, match arms 0x28 to 0x35,
`validation/instr.rs:163-204`. -/
def loadSig : LoadOp → Nat × Val
  | .i32Load => (32, .i32)
  | .i64Load => (64, .i64)
  | .f32Load => (32, .f32)
  | .f64Load => (64, .f64)
  | .i32Load8S => (8, .i32)
  | .i32Load8U => (8, .i32)
  | .i32Load16S => (16, .i32)
  | .i32Load16U => (16, .i32)
  | .i64Load8S => (8, .i64)
  | .i64Load8U => (8, .i64)
  | .i64Load16S => (16, .i64)
  | .i64Load16U => (16, .i64)
  | .i64Load32S => (32, .i64)
  | .i64Load32U => (32, .i64)

/-- Size in bits and value type passed to `validate_store`, match arms 0x36 to 0x3E,
`validation/instr.rs:206-232`. -/
def storeSig : StoreOp → Nat × Val
  | .i32Store => (32, .i32)
  | .i64Store => (64, .i64)
  | .f32Store => (32, .f32)
  | .f64Store => (64, .f64)
  | .i32Store8 => (8, .i32)
  | .i32Store16 => (16, .i32)
  | .i64Store8 => (8, .i64)
  | .i64Store16 => (16, .i64)
  | .i64Store32 => (32, .i64)

/-- `validate_load`, `validation/instr.rs:763-773`: the alignment check is commented out in the source. -/
def validateLoad (_align : U32) (_size : Nat) (val : Val) : V Unit := do
  let _ ← validateMemIdx 0
  popOperands [.i32]
  pushOperands [val]

/-- `validate_store`, `validation/instr.rs:775-784`. -/
def validateStore (_align : U32) (_size : Nat) (val : Val) : V Unit := do
  let _ ← validateMemIdx 0
  popOperands [.i32, val]

/-- The match arm of `Instr::Else`, `validation/instr.rs:72-75`. -/
def validateElse : V Unit := do
  let ret ← popFrame
  pushFrame ret ret

/-- The match arm of `Instr::End`, `validation/instr.rs:77-80`. -/
def validateEnd : V Unit := do
  let ret ← popFrame
  pushOperands ret

/-- The loop over the labels of `br_table`, `validation/instr.rs:94-99`. -/
def validateLabels (label : List Val) : List Idx → V Unit
  | [] => pure ()
  | l :: ls => do
    let frm ← validateLabel l
    if label ≠ frm.label then V.fail .invalid
    else validateLabels label ls

mutual

/-- `Instr::validate`, `validation/instr.rs:42-761`. -/
def validateInstr : Instr → V Unit
  | .unreachable => setUnreachable
  | .nop => pure ()
  | .block ret body => do
    let ret ← validateRetVal ret
    pushFrame ret ret
    validateExpr body
    validateEnd
  | .loop ret body => do
    let ret ← validateRetVal ret
    pushFrame [] ret
    validateExpr body
    validateEnd
  | .ifElse ret thn els => do
    let ret ← validateRetVal ret
    popOperands [.i32]
    pushFrame ret ret
    validateExpr thn
    validateElse
    validateExpr els
    validateEnd
  | .elseMark => validateElse
  | .endMark => validateEnd
  | .br l => do
    let frame ← validateLabel l
    popOperands frame.label
    setUnreachable
  | .brIf l => do
    let frame ← validateLabel l
    popOperands [.i32]
    popOperands frame.label
    pushOperands frame.label
  | .brTable ls l => do
    let frame ← validateLabel l
    validateLabels frame.label ls
    popOperands [.i32]
    popOperands frame.label
    setUnreachable
  | .ret => do
    let c ← V.get
    match c.ret with
    | none => V.fail .invalid
    | some ret => do
      popOperands ret
      setUnreachable
  | .call f => do
    let func ← validateFuncIdx f
    popOperands func.params
    pushOperands func.results
  | .callIndirect ty table => do
    let table ← validateTableIdx table
    let func ← validateTypeIdx ty
    if table.elem ≠ .funcRef then V.fail .invalid
    else do
      popOperands [.i32]
      popOperands func.params
      pushOperands func.results
  | .drop => do
    let _ ← popOperand .unknown
    pure ()
  | .select => do
    popOperands [.i32]
    let t1 ← popOperand .unknown
    let t2 ← popOperand t1
    pushOperand t2
  | .localGet i => do
    let ty ← validateLocalIdx i
    pushOperands [ty]
  | .localSet i => do
    let ty ← validateLocalIdx i
    popOperands [ty]
  | .localTee i => do
    let ty ← validateLocalIdx i
    popOperands [ty]
    pushOperands [ty]
  | .globalGet i => do
    let ty ← validateGlobalIdx i
    pushOperands [ty.val]
  | .globalSet i => do
    let ty ← validateGlobalIdx i
    if ty.mt ≠ .var then V.fail .invalid
    else popOperands [ty.val]
  | .load op _offset align => validateLoad align (loadSig op).1 (loadSig op).2
  | .store op _offset align => validateStore align (storeSig op).1 (storeSig op).2
  | .memSize m => do
    let _ ← validateMemIdx m
    pushOperands [.i32]
  | .memGrow m => do
    let _ ← validateMemIdx m
    popOperands [.i32]
    pushOperands [.i32]
  | .constI32 _ => pushOperands [.i32]
  | .constI64 _ => pushOperands [.i64]
  | .constF32 _ => pushOperands [.f32]
  | .constF64 _ => pushOperands [.f64]
  | .num op => do
    popOperands (numSig op).1
    pushOperands (numSig op).2

/-- `Expr::validate`, `validation/instr.rs:5-14`. -/
def validateExpr : List Instr → V Unit
  | [] => pure ()
  | i :: is => do
    validateInstr i
    validateExpr is

end

/-- The check made before each instruction of a constant expression, `validation/instr.rs:21-35`. -/
def validateConstCheck : Instr → V Unit
  | .constI32 _ => pure ()
  | .constI64 _ => pure ()
  | .constF32 _ => pure ()
  | .constF64 _ => pure ()
  | .globalGet i => do
    let ty ← validateGlobalIdx i
    if ty.mt ≠ .const then V.fail .invalid else pure ()
  | _ => V.fail .invalid

/-- `ConstExpr::validate`, `validation/instr.rs:16-40`. -/
def validateConstExpr : List Instr → V Unit
  | [] => pure ()
  | i :: is => do
    validateConstCheck i
    validateInstr i
    validateConstExpr is

end Whasm
