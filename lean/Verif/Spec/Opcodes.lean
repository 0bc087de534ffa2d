import Verif.Model.Structure

/-!
# The opcodes of WebAssembly 1.0 (W3C document, section 5.4)

Written from the document, independently of the tables in `Model/BinaryInstr`.
-/

namespace Whasm.Spec

/-- Section 5.4.4, memory loads. -/
def loadOpcode : LoadOp → Byte
  | .i32Load => 0x28
  | .i64Load => 0x29
  | .f32Load => 0x2A
  | .f64Load => 0x2B
  | .i32Load8S => 0x2C
  | .i32Load8U => 0x2D
  | .i32Load16S => 0x2E
  | .i32Load16U => 0x2F
  | .i64Load8S => 0x30
  | .i64Load8U => 0x31
  | .i64Load16S => 0x32
  | .i64Load16U => 0x33
  | .i64Load32S => 0x34
  | .i64Load32U => 0x35

/-- Section 5.4.4, memory stores. -/
def storeOpcode : StoreOp → Byte
  | .i32Store => 0x36
  | .i64Store => 0x37
  | .f32Store => 0x38
  | .f64Store => 0x39
  | .i32Store8 => 0x3A
  | .i32Store16 => 0x3B
  | .i64Store8 => 0x3C
  | .i64Store16 => 0x3D
  | .i64Store32 => 0x3E

/-- Section 5.4.5, numeric instructions other than constants. -/
def numOpcode : NumOp → Byte
  | .i32Eqz => 0x45
  | .i32Eq => 0x46
  | .i32Ne => 0x47
  | .i32LtS => 0x48
  | .i32LtU => 0x49
  | .i32GtS => 0x4A
  | .i32GtU => 0x4B
  | .i32LeS => 0x4C
  | .i32LeU => 0x4D
  | .i32GeS => 0x4E
  | .i32GeU => 0x4F
  | .i64Eqz => 0x50
  | .i64Eq => 0x51
  | .i64Ne => 0x52
  | .i64LtS => 0x53
  | .i64LtU => 0x54
  | .i64GtS => 0x55
  | .i64GtU => 0x56
  | .i64LeS => 0x57
  | .i64LeU => 0x58
  | .i64GeS => 0x59
  | .i64GeU => 0x5A
  | .f32Eq => 0x5B
  | .f32Ne => 0x5C
  | .f32Lt => 0x5D
  | .f32Gt => 0x5E
  | .f32Le => 0x5F
  | .f32Ge => 0x60
  | .f64Eq => 0x61
  | .f64Ne => 0x62
  | .f64Lt => 0x63
  | .f64Gt => 0x64
  | .f64Le => 0x65
  | .f64Ge => 0x66
  | .i32Clz => 0x67
  | .i32Ctz => 0x68
  | .i32Popcnt => 0x69
  | .i32Add => 0x6A
  | .i32Sub => 0x6B
  | .i32Mul => 0x6C
  | .i32DivS => 0x6D
  | .i32DivU => 0x6E
  | .i32RemS => 0x6F
  | .i32RemU => 0x70
  | .i32And => 0x71
  | .i32Or => 0x72
  | .i32Xor => 0x73
  | .i32Shl => 0x74
  | .i32ShrS => 0x75
  | .i32ShrU => 0x76
  | .i32Rotl => 0x77
  | .i32Rotr => 0x78
  | .i64Clz => 0x79
  | .i64Ctz => 0x7A
  | .i64Popcnt => 0x7B
  | .i64Add => 0x7C
  | .i64Sub => 0x7D
  | .i64Mul => 0x7E
  | .i64DivS => 0x7F
  | .i64DivU => 0x80
  | .i64RemS => 0x81
  | .i64RemU => 0x82
  | .i64And => 0x83
  | .i64Or => 0x84
  | .i64Xor => 0x85
  | .i64Shl => 0x86
  | .i64ShrS => 0x87
  | .i64ShrU => 0x88
  | .i64Rotl => 0x89
  | .i64Rotr => 0x8A
  | .f32Abs => 0x8B
  | .f32Neg => 0x8C
  | .f32Ceil => 0x8D
  | .f32Floor => 0x8E
  | .f32Trunc => 0x8F
  | .f32Nearest => 0x90
  | .f32Sqrt => 0x91
  | .f32Add => 0x92
  | .f32Sub => 0x93
  | .f32Mul => 0x94
  | .f32Div => 0x95
  | .f32Min => 0x96
  | .f32Max => 0x97
  | .f32Copysign => 0x98
  | .f64Abs => 0x99
  | .f64Neg => 0x9A
  | .f64Ceil => 0x9B
  | .f64Floor => 0x9C
  | .f64Trunc => 0x9D
  | .f64Nearest => 0x9E
  | .f64Sqrt => 0x9F
  | .f64Add => 0xA0
  | .f64Sub => 0xA1
  | .f64Mul => 0xA2
  | .f64Div => 0xA3
  | .f64Min => 0xA4
  | .f64Max => 0xA5
  | .f64Copysign => 0xA6
  | .i32WrapI64 => 0xA7
  | .i32TruncF32S => 0xA8
  | .i32TruncF32U => 0xA9
  | .i32TruncF64S => 0xAA
  | .i32TruncF64U => 0xAB
  | .i64ExtendI32S => 0xAC
  | .i64ExtendI32U => 0xAD
  | .i64TruncF32S => 0xAE
  | .i64TruncF32U => 0xAF
  | .i64TruncF64S => 0xB0
  | .i64TruncF64U => 0xB1
  | .f32ConvertI32S => 0xB2
  | .f32ConvertI32U => 0xB3
  | .f32ConvertI64S => 0xB4
  | .f32ConvertI64U => 0xB5
  | .f32DemoteF64 => 0xB6
  | .f64ConvertI32S => 0xB7
  | .f64ConvertI32U => 0xB8
  | .f64ConvertI64S => 0xB9
  | .f64ConvertI64U => 0xBA
  | .f64PromoteF32 => 0xBB
  | .i32ReinterpretF32 => 0xBC
  | .i64ReinterpretF64 => 0xBD
  | .f32ReinterpretI32 => 0xBE
  | .f64ReinterpretI64 => 0xBF

/-- The opcode of an instruction; `else` and `end` are the markers 0x05 and 0x0B. -/
def opcode : Instr → Byte
  | .unreachable => 0x00
  | .nop => 0x01
  | .block _ _ => 0x02
  | .loop _ _ => 0x03
  | .ifElse _ _ _ => 0x04
  | .elseMark => 0x05
  | .endMark => 0x0B
  | .br _ => 0x0C
  | .brIf _ => 0x0D
  | .brTable _ _ => 0x0E
  | .ret => 0x0F
  | .call _ => 0x10
  | .callIndirect _ _ => 0x11
  | .drop => 0x1A
  | .select => 0x1B
  | .localGet _ => 0x20
  | .localSet _ => 0x21
  | .localTee _ => 0x22
  | .globalGet _ => 0x23
  | .globalSet _ => 0x24
  | .load op _ _ => loadOpcode op
  | .store op _ _ => storeOpcode op
  | .memSize _ => 0x3F
  | .memGrow _ => 0x40
  | .constI32 _ => 0x41
  | .constI64 _ => 0x42
  | .constF32 _ => 0x43
  | .constF64 _ => 0x44
  | .num op => numOpcode op

/-- The bytes that begin an instruction (or one of the two markers). -/
def IsOpcode (b : Byte) : Prop :=
  b.toNat ≤ 0x05 ∨ (0x0B ≤ b.toNat ∧ b.toNat ≤ 0x11) ∨ b.toNat = 0x1A ∨ b.toNat = 0x1B ∨
  (0x20 ≤ b.toNat ∧ b.toNat ≤ 0x24) ∨ (0x28 ≤ b.toNat ∧ b.toNat ≤ 0xBF)

instance (b : Byte) : Decidable (IsOpcode b) := by unfold IsOpcode; infer_instance

end Whasm.Spec
