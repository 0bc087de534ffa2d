import Verif.Model.BinaryModule
import Verif.Model.DeclarativeTypes

/-!
# The declarative grammar: `whasm/src/grammar`

This directory is a second parser of the same format. It is not compiled: `lib.rs` does not declare it, and the crate `whasm_grammar_derive`
with its derive macro is not in the repository. The model follows the source text and, for the macro, its documentation
(`grammar/core/derive.rs:1-407`).

The values are represented by those of `structure` (`Model/Structure.lean`): the enums and structs of `grammar/{idx,ty,instr,section}.rs` have the same variants and
fields up to names. `Limits::Min(n)` is `⟨n, none⟩`, `BlockType::Empty` is `[]`, `FuncType::Func` is its fields, `MemArg { align, offset }` are the two fields of a load or store,
`IfInstr` and `BlockInstr` are the fields of the instruction.
-/

namespace Whasm.Decl

/-- `Grammar::deserialize`, `grammar/core/mod.rs:36-44`. -/
def Q (α : Type) : Type := List Byte → Except DErr (α × List Byte)

namespace Q

def pure {α : Type} (x : α) : Q α := fun s => .ok (x, s)

/-- `?`. -/
def bind {α β : Type} (p : Q α) (f : α → Q β) : Q β := fun s =>
  match p s with
  | .ok (x, r) => f x r
  | .error e => .error e

instance : Monad Q where
  pure := Q.pure
  bind := Q.bind

def fail {α : Type} (e : DErr) : Q α := fun _ => .error e

end Q

/-- The error of the grammar for an error of `binary`. -/
def errorOf : Error → DErr
  | .unexpectedEndOfFile => .unexpectedEndOfStream
  | .invalidVariantId id _ => .invalidEnumDiscriminant id
  | .outOfRangeSignedInteger => .outOfRangeSignedInteger
  | .outOfRangeUnsignedInteger => .outOfRangeUnsignedInteger
  | .invalidUtf8Encoding => .fromUtf8
  | .unexpectedOpcode _ => .unexpectedInstruction
  | .invalidPreambleMagic => .unsatisfiedMatch
  | .invalidPreambleVersion => .unsatisfiedMatch
  | .unexpectedSectionId _ => .other
  | .invalidSectionId id => .invalidEnumDiscriminant id
  | .sectionSizeMissmatch _ => .other
  | .functionSizeMissmatch => .other
  | .sizeMissmatch => .remainingBytesInStream
  | .panic => .panic
  | .fuel => .fuel

/-- The outcome of a parser of `binary`, with what remains after an error forgotten. -/
def ofP {α : Type} (p : P α) : Q α := fun s =>
  match p s with
  | (.ok x, r) => .ok (x, r)
  | (.error e, _) => .error (errorOf e)

/-! ## `grammar/core` -/

/-- `Byte`, `grammar/core/byte.rs:47-56`. -/
def dByte : Q Byte := fun s =>
  match s with
  | [] => .error .unexpectedEndOfStream
  | b :: r => .ok (b, r)

/-- `u32`, `grammar/core/unsigned.rs:45-76`: the text of the function is that of `binary/core/unsigned.rs:62-93`. -/
def dU32 : Q U32 := ofP parseU32
/-- `i32`, `grammar/core/signed.rs:45-83`: the text of the function is that of `binary/core/signed.rs:63-101`. -/
def dI32 : Q I32 := ofP parseI32
/-- `i64`, likewise. -/
def dI64 : Q I64 := ofP parseI64

/-- `n` consecutive elements: arrays (`grammar/core/array.rs`) and the loop of `Vec` (`grammar/core/vec.rs:34-36`). -/
def dN {α : Type} (n : Nat) (p : Q α) : Q (List α) :=
  match n with
  | 0 => pure []
  | n + 1 => do
    let x ← p
    let xs ← dN n p
    pure (x :: xs)

/-- `f32`, `grammar/core/float.rs:20-35`, on a little-endian host. -/
def dF32 : Q F32 := do
  let bs ← dN 4 dByte
  pure (leBits 32 bs)
/-- `f64`, `grammar/core/float.rs:20-29, 36-40`, on a little-endian host. -/
def dF64 : Q F64 := do
  let bs ← dN 8 dByte
  pure (leBits 64 bs)

/-- `Vec<T>`, `grammar/core/vec.rs:30-39`. -/
def dVec {α : Type} (p : Q α) : Q (List α) := do
  let n ← dU32
  dN n.toNat p

/-- The outer loop of `VecVec<T>`, `grammar/core/vec.rs:49-55`. -/
def dRuns {α : Type} (k : Nat) (p : Q α) : Q (List α) :=
  match k with
  | 0 => pure []
  | k + 1 => do
    let n ← dU32
    let x ← p
    let rest ← dRuns k p
    pure (List.replicate n.toNat x ++ rest)

/-- `VecVec<T>`, `grammar/core/vec.rs:44-59`. -/
def dVecVec {α : Type} (p : Q α) : Q (List α) := do
  let k ← dU32
  dRuns k.toNat p

/-- `String`, `grammar/core/string.rs:19-25`, as its UTF-8 bytes; the `transmute` is the identity. -/
def dString : Q Name := do
  let raw ← dVec dByte
  if validUtf8 raw then pure raw else Q.fail .fromUtf8

/-- The loop of `List<T>`, `grammar/core/list.rs:53-55`. -/
def listLoop {α : Type} (p : Q α) : Nat → Q (List α)
  | 0 => Q.fail .fuel
  | fuel + 1 => fun s =>
    match s with
    | [] => .ok ([], [])
    | _ :: _ => (do
        let x ← p
        let xs ← listLoop p fuel
        pure (x :: xs)) s

/-- `List<T>`, `grammar/core/list.rs:48-59`, for elements of one byte at least (for others the loop need not end). -/
def dList {α : Type} (p : Q α) : Q (List α) := fun s => listLoop p (s.length + 1) s

/-! ## The derive macro -/

/-- A variant of an enum: `#[discriminant(pattern)]`, `#[forward]`, and its fields. -/
structure Variant (α : Type) where
  pattern : Byte → Bool
  content : Q α
  forward : Bool := false

/-- `#[discriminant(b)]` for a byte `b`. -/
def disc {α : Type} (b : Byte) (content : Q α) : Variant α := ⟨fun x => x == b, content, false⟩

/-- `#[derive(Grammar)]` on an enum, `grammar/core/derive.rs:119-157, 276-407`: the first byte decides, by the first pattern that matches; it
is consumed, unless the variant is `#[forward]`. The errors are those of `grammar/core/error.rs:28-34, 46-48`. -/
def dEnum {α : Type} (vs : List (Variant α)) : Q α := fun s =>
  match s with
  | [] => .error .unexpectedEndOfStream
  | b :: r =>
    match vs.find? (fun v => v.pattern b) with
    | none => .error (.invalidEnumDiscriminant b)
    | some v => v.content (if v.forward then s else r)

/-- `#[sized]` on a struct, `grammar/core/derive.rs:161-213`: the content is preceded by its size and has to consume exactly that much; the
error is that of `grammar/core/error.rs:50-55`. -/
def dSized {α : Type} (content : Q α) : Q α := do
  let size ← dU32
  fun s =>
    match content (s.take size.toNat) with
    | .error e => .error e
    | .ok (x, r) => if r = [] ∧ size.toNat ≤ s.length then .ok (x, s.drop size.toNat) else .error .remainingBytesInStream

/-- `#[sized]` on an enum: the size comes after the discriminant. -/
def dSizedEnum {α : Type} (vs : List (Variant α)) : Q α := dEnum (vs.map fun v => { v with content := dSized v.content })

/-- `#[matching(pattern)]`, `grammar/core/derive.rs:215-274`, with the error of `grammar/core/error.rs:64-70`. -/
def dMatching {α : Type} (pattern : α → Bool) (p : Q α) : Q α := do
  let x ← p
  if pattern x then pure x else Q.fail .unsatisfiedMatch

/-! ## `grammar/ty.rs`, `grammar/idx.rs` -/

/-- `TypeIdx`, ..., `LabelIdx`, `grammar/idx.rs:4-23`. -/
def dIdx : Q Idx := dU32

/-- `ValType`, `grammar/ty.rs:4-10`. -/
def dVal : Q Val := dEnum [disc 0x7F (pure .i32), disc 0x7E (pure .i64), disc 0x7D (pure .f32), disc 0x7C (pure .f64)]

/-- `BlockType`, `grammar/ty.rs:12-16`. -/
def dBlockType : Q RetVal := dEnum [disc 0x40 (pure []), ⟨fun _ => true, do let v ← dVal; pure [v], true⟩]

/-- `FuncType`, `grammar/ty.rs:18-24`. -/
def dFuncTy : Q FuncTy := dEnum [disc 0x60 do
  let params ← dVec dVal
  let results ← dVec dVal
  pure { params := params, results := results }]

/-- `Limits`, `grammar/ty.rs:26-30`. -/
def dLimits : Q Limits := dEnum [
  disc 0x00 do let n ← dU32; pure ⟨n, none⟩,
  disc 0x01 do let n ← dU32; let m ← dU32; pure ⟨n, some m⟩]

/-- `MemType`, `grammar/ty.rs:32-35`. -/
def dMemTy : Q MemTy := do
  let lim ← dLimits
  pure { lim := lim }

/-- `ElemType`, `grammar/ty.rs:43-47`. -/
def dElemTy : Q ElemTy := dEnum [disc 0x70 (pure .funcRef)]

/-- `TableType`, `grammar/ty.rs:37-41`. -/
def dTableTy : Q TableTy := do
  let et ← dElemTy
  let lim ← dLimits
  pure { elem := et, lim := lim }

/-- `Mut`, `grammar/ty.rs:55-59`. -/
def dMut : Q Mut := dEnum [disc 0x00 (pure .const), disc 0x01 (pure .var)]

/-- `GlobalType`, `grammar/ty.rs:49-53`. -/
def dGlobalTy : Q GlobalTy := do
  let t ← dVal
  let m ← dMut
  pure { val := t, mt := m }

/-! ## `grammar/instr.rs` -/

/-- The fields of a variant of `Instruction`, with the constructor they are given to. -/
inductive Shape where
  | unit (i : Instr)
  | block (f : RetVal → Expr → Instr)
  | ifInstr
  | idx (f : Idx → Instr)
  | idxIdx (f : Idx → Idx → Instr)
  | idxsIdx (f : List Idx → Idx → Instr)
  | memArg (f : U32 → U32 → Instr)
  | i32 (f : I32 → Instr)
  | i64 (f : I64 → Instr)
  | f32 (f : F32 → Instr)
  | f64 (f : F64 → Instr)

/-- A variant of `Instruction`. -/
structure InstrVariant where
  discriminant : Byte
  shape : Shape

/-- The 172 variants of `Instruction`, `grammar/instr.rs:5-199`. -/
def instrVariants : List InstrVariant :=
  [⟨0x00, .unit .unreachable⟩, ⟨0x01, .unit .nop⟩, ⟨0x02, .block .block⟩, ⟨0x03, .block .loop⟩, ⟨0x04, .ifInstr⟩, ⟨0x05, .unit .elseMark⟩,
   ⟨0x0B, .unit .endMark⟩, ⟨0x0C, .idx .br⟩, ⟨0x0D, .idx .brIf⟩, ⟨0x0E, .idxsIdx .brTable⟩, ⟨0x0F, .unit .ret⟩, ⟨0x10, .idx .call⟩,
   ⟨0x11, .idxIdx .callIndirect⟩, ⟨0x1A, .unit .drop⟩, ⟨0x1B, .unit .select⟩, ⟨0x20, .idx .localGet⟩, ⟨0x21, .idx .localSet⟩,
   ⟨0x22, .idx .localTee⟩, ⟨0x23, .idx .globalGet⟩, ⟨0x24, .idx .globalSet⟩, ⟨0x28, .memArg (.load .i32Load)⟩,
   ⟨0x29, .memArg (.load .i64Load)⟩, ⟨0x2A, .memArg (.load .f32Load)⟩, ⟨0x2B, .memArg (.load .f64Load)⟩,
   ⟨0x2C, .memArg (.load .i32Load8S)⟩, ⟨0x2D, .memArg (.load .i32Load8U)⟩, ⟨0x2E, .memArg (.load .i32Load16S)⟩,
   ⟨0x2F, .memArg (.load .i32Load16U)⟩, ⟨0x30, .memArg (.load .i64Load8S)⟩, ⟨0x31, .memArg (.load .i64Load8U)⟩,
   ⟨0x32, .memArg (.load .i64Load16S)⟩, ⟨0x33, .memArg (.load .i64Load16U)⟩, ⟨0x34, .memArg (.load .i64Load32S)⟩,
   ⟨0x35, .memArg (.load .i64Load32U)⟩, ⟨0x36, .memArg (.store .i32Store)⟩, ⟨0x37, .memArg (.store .i64Store)⟩,
   ⟨0x38, .memArg (.store .f32Store)⟩, ⟨0x39, .memArg (.store .f64Store)⟩, ⟨0x3A, .memArg (.store .i32Store8)⟩,
   ⟨0x3B, .memArg (.store .i32Store16)⟩, ⟨0x3C, .memArg (.store .i64Store8)⟩, ⟨0x3D, .memArg (.store .i64Store16)⟩,
   ⟨0x3E, .memArg (.store .i64Store32)⟩, ⟨0x3F, .idx .memSize⟩, ⟨0x40, .idx .memGrow⟩, ⟨0x41, .i32 .constI32⟩, ⟨0x42, .i64 .constI64⟩,
   ⟨0x43, .f32 .constF32⟩, ⟨0x44, .f64 .constF64⟩, ⟨0x45, .unit (.num .i32Eqz)⟩, ⟨0x46, .unit (.num .i32Eq)⟩, ⟨0x47, .unit (.num .i32Ne)⟩,
   ⟨0x48, .unit (.num .i32LtS)⟩, ⟨0x49, .unit (.num .i32LtU)⟩, ⟨0x4A, .unit (.num .i32GtS)⟩, ⟨0x4B, .unit (.num .i32GtU)⟩,
   ⟨0x4C, .unit (.num .i32LeS)⟩, ⟨0x4D, .unit (.num .i32LeU)⟩, ⟨0x4E, .unit (.num .i32GeS)⟩, ⟨0x4F, .unit (.num .i32GeU)⟩,
   ⟨0x50, .unit (.num .i64Eqz)⟩, ⟨0x51, .unit (.num .i64Eq)⟩, ⟨0x52, .unit (.num .i64Ne)⟩, ⟨0x53, .unit (.num .i64LtS)⟩,
   ⟨0x54, .unit (.num .i64LtU)⟩, ⟨0x55, .unit (.num .i64GtS)⟩, ⟨0x56, .unit (.num .i64GtU)⟩, ⟨0x57, .unit (.num .i64LeS)⟩,
   ⟨0x58, .unit (.num .i64LeU)⟩, ⟨0x59, .unit (.num .i64GeS)⟩, ⟨0x5A, .unit (.num .i64GeU)⟩, ⟨0x5B, .unit (.num .f32Eq)⟩,
   ⟨0x5C, .unit (.num .f32Ne)⟩, ⟨0x5D, .unit (.num .f32Lt)⟩, ⟨0x5E, .unit (.num .f32Gt)⟩, ⟨0x5F, .unit (.num .f32Le)⟩,
   ⟨0x60, .unit (.num .f32Ge)⟩, ⟨0x61, .unit (.num .f64Eq)⟩, ⟨0x62, .unit (.num .f64Ne)⟩, ⟨0x63, .unit (.num .f64Lt)⟩,
   ⟨0x64, .unit (.num .f64Gt)⟩, ⟨0x65, .unit (.num .f64Le)⟩, ⟨0x66, .unit (.num .f64Ge)⟩, ⟨0x67, .unit (.num .i32Clz)⟩,
   ⟨0x68, .unit (.num .i32Ctz)⟩, ⟨0x69, .unit (.num .i32Popcnt)⟩, ⟨0x6A, .unit (.num .i32Add)⟩, ⟨0x6B, .unit (.num .i32Sub)⟩,
   ⟨0x6C, .unit (.num .i32Mul)⟩, ⟨0x6D, .unit (.num .i32DivS)⟩, ⟨0x6E, .unit (.num .i32DivU)⟩, ⟨0x6F, .unit (.num .i32RemS)⟩,
   ⟨0x70, .unit (.num .i32RemU)⟩, ⟨0x71, .unit (.num .i32And)⟩, ⟨0x72, .unit (.num .i32Or)⟩, ⟨0x73, .unit (.num .i32Xor)⟩,
   ⟨0x74, .unit (.num .i32Shl)⟩, ⟨0x75, .unit (.num .i32ShrS)⟩, ⟨0x76, .unit (.num .i32ShrU)⟩, ⟨0x77, .unit (.num .i32Rotl)⟩,
   ⟨0x78, .unit (.num .i32Rotr)⟩, ⟨0x79, .unit (.num .i64Clz)⟩, ⟨0x7A, .unit (.num .i64Ctz)⟩, ⟨0x7B, .unit (.num .i64Popcnt)⟩,
   ⟨0x7C, .unit (.num .i64Add)⟩, ⟨0x7D, .unit (.num .i64Sub)⟩, ⟨0x7E, .unit (.num .i64Mul)⟩, ⟨0x7F, .unit (.num .i64DivS)⟩,
   ⟨0x80, .unit (.num .i64DivU)⟩, ⟨0x81, .unit (.num .i64RemS)⟩, ⟨0x82, .unit (.num .i64RemU)⟩, ⟨0x83, .unit (.num .i64And)⟩,
   ⟨0x84, .unit (.num .i64Or)⟩, ⟨0x85, .unit (.num .i64Xor)⟩, ⟨0x86, .unit (.num .i64Shl)⟩, ⟨0x87, .unit (.num .i64ShrS)⟩,
   ⟨0x88, .unit (.num .i64ShrU)⟩, ⟨0x89, .unit (.num .i64Rotl)⟩, ⟨0x8A, .unit (.num .i64Rotr)⟩, ⟨0x8B, .unit (.num .f32Abs)⟩,
   ⟨0x8C, .unit (.num .f32Neg)⟩, ⟨0x8D, .unit (.num .f32Ceil)⟩, ⟨0x8E, .unit (.num .f32Floor)⟩, ⟨0x8F, .unit (.num .f32Trunc)⟩,
   ⟨0x90, .unit (.num .f32Nearest)⟩, ⟨0x91, .unit (.num .f32Sqrt)⟩, ⟨0x92, .unit (.num .f32Add)⟩, ⟨0x93, .unit (.num .f32Sub)⟩,
   ⟨0x94, .unit (.num .f32Mul)⟩, ⟨0x95, .unit (.num .f32Div)⟩, ⟨0x96, .unit (.num .f32Min)⟩, ⟨0x97, .unit (.num .f32Max)⟩,
   ⟨0x98, .unit (.num .f32Copysign)⟩, ⟨0x99, .unit (.num .f64Abs)⟩, ⟨0x9A, .unit (.num .f64Neg)⟩, ⟨0x9B, .unit (.num .f64Ceil)⟩,
   ⟨0x9C, .unit (.num .f64Floor)⟩, ⟨0x9D, .unit (.num .f64Trunc)⟩, ⟨0x9E, .unit (.num .f64Nearest)⟩, ⟨0x9F, .unit (.num .f64Sqrt)⟩,
   ⟨0xA0, .unit (.num .f64Add)⟩, ⟨0xA1, .unit (.num .f64Sub)⟩, ⟨0xA2, .unit (.num .f64Mul)⟩, ⟨0xA3, .unit (.num .f64Div)⟩,
   ⟨0xA4, .unit (.num .f64Min)⟩, ⟨0xA5, .unit (.num .f64Max)⟩, ⟨0xA6, .unit (.num .f64Copysign)⟩, ⟨0xA7, .unit (.num .i32WrapI64)⟩,
   ⟨0xA8, .unit (.num .i32TruncF32S)⟩, ⟨0xA9, .unit (.num .i32TruncF32U)⟩, ⟨0xAA, .unit (.num .i32TruncF64S)⟩,
   ⟨0xAB, .unit (.num .i32TruncF64U)⟩, ⟨0xAC, .unit (.num .i64ExtendI32S)⟩, ⟨0xAD, .unit (.num .i64ExtendI32U)⟩,
   ⟨0xAE, .unit (.num .i64TruncF32S)⟩, ⟨0xAF, .unit (.num .i64TruncF32U)⟩, ⟨0xB0, .unit (.num .i64TruncF64S)⟩,
   ⟨0xB1, .unit (.num .i64TruncF64U)⟩, ⟨0xB2, .unit (.num .f32ConvertI32S)⟩, ⟨0xB3, .unit (.num .f32ConvertI32U)⟩,
   ⟨0xB4, .unit (.num .f32ConvertI64S)⟩, ⟨0xB5, .unit (.num .f32ConvertI64U)⟩, ⟨0xB6, .unit (.num .f32DemoteF64)⟩,
   ⟨0xB7, .unit (.num .f64ConvertI32S)⟩, ⟨0xB8, .unit (.num .f64ConvertI32U)⟩, ⟨0xB9, .unit (.num .f64ConvertI64S)⟩,
   ⟨0xBA, .unit (.num .f64ConvertI64U)⟩, ⟨0xBB, .unit (.num .f64PromoteF32)⟩, ⟨0xBC, .unit (.num .i32ReinterpretF32)⟩,
   ⟨0xBD, .unit (.num .i64ReinterpretF64)⟩, ⟨0xBE, .unit (.num .f32ReinterpretI32)⟩, ⟨0xBF, .unit (.num .f64ReinterpretI64)⟩]

/-- `Expression`, `grammar/instr.rs:244-251`, given `InstrList` (instructions and the marker that ended them). -/
def dExprOf (list : Q (List Instr × Instr)) : Q Expr := do
  let l ← list
  match l.2 with
  | .endMark => pure l.1
  | _ => Q.fail .unexpectedInstruction

/-- `IfInstr`, `grammar/instr.rs:220-239`. The last arm is `unreachable!()`. -/
def dIfOf (list : Q (List Instr × Instr)) : Q Instr := do
  let ty ← dBlockType
  let l ← list
  match l.2 with
  | .endMark => pure (.ifElse ty l.1 [])
  | .elseMark => do
    let l' ← list
    match l'.2 with
    | .endMark => pure (.ifElse ty l.1 l'.1)
    | _ => Q.fail .unexpectedInstruction
  | _ => Q.fail .panic

/-- The fields of a variant of `Instruction` in order. -/
def dShape (list : Q (List Instr × Instr)) : Shape → Q Instr
  | .unit i => pure i
  | .block f => do let ty ← dBlockType; let e ← dExprOf list; pure (f ty e)
  | .ifInstr => dIfOf list
  | .idx f => do let i ← dIdx; pure (f i)
  | .idxIdx f => do let i ← dIdx; let j ← dIdx; pure (f i j)
  | .idxsIdx f => do let is ← dVec dIdx; let i ← dIdx; pure (f is i)
  | .memArg f => do let align ← dU32; let offset ← dU32; pure (f align offset)
  | .i32 f => do let v ← dI32; pure (f v)
  | .i64 f => do let v ← dI64; pure (f v)
  | .f32 f => do let v ← dF32; pure (f v)
  | .f64 f => do let v ← dF64; pure (f v)

/-- `Instruction`, `grammar/instr.rs:4-199`. -/
def dInstrOf (list : Q (List Instr × Instr)) : Q Instr := dEnum (instrVariants.map fun v => disc v.discriminant (dShape list v.shape))

/-- `InstrList`, `grammar/instr.rs:256-267`, by recursion on fuel as in `parseSubExpr`. -/
def dInstrList : Nat → Q (List Instr × Instr)
  | 0 => Q.fail .fuel
  | fuel + 1 => do
    let i ← dInstrOf (dInstrList fuel)
    match i with
    | .endMark => pure ([], .endMark)
    | .elseMark => pure ([], .elseMark)
    | i => do
      let rest ← dInstrList fuel
      pure (i :: rest.1, rest.2)

/-- `Expression`, `grammar/instr.rs:244-251`. -/
def dExpr : Q Expr := fun s => dExprOf (dInstrList (s.length + 1)) s

/-! ## `grammar/section.rs`, `grammar/module.rs` -/

/-- `CustomSection`, `grammar/section.rs:21-25`. -/
def dCustom : Q Sec := do
  let name ← dString
  let payload ← dList dByte
  pure (.custom name payload)

/-- `ImportDesc`, `grammar/section.rs:52-58`. -/
def dImportDesc : Q ImportDesc := dEnum [
  disc 0x00 do let i ← dIdx; pure (.func i),
  disc 0x01 do let t ← dTableTy; pure (.table t),
  disc 0x02 do let t ← dMemTy; pure (.mem t),
  disc 0x03 do let t ← dGlobalTy; pure (.global t)]

/-- `Import`, `grammar/section.rs:45-50`. -/
def dImport : Q Import := do
  let module ← dString
  let name ← dString
  let desc ← dImportDesc
  pure { module := module, name := name, desc := desc }

/-- `Table`, `grammar/section.rs:70-73`. -/
def dTable : Q Table := do
  let ty ← dTableTy
  pure { ty := ty }

/-- `Memory`, `grammar/section.rs:80-83`. -/
def dMem : Q Mem := do
  let ty ← dMemTy
  pure { ty := ty }

/-- `Global`, `grammar/section.rs:90-94`. -/
def dGlobal : Q Global := do
  let ty ← dGlobalTy
  let init ← dExpr
  pure { ty := ty, init := init }

/-- `ExportDesc`, `grammar/section.rs:107-113`. -/
def dExportDesc : Q ExportDesc := dEnum [
  disc 0x00 do let i ← dIdx; pure (.func i),
  disc 0x01 do let i ← dIdx; pure (.table i),
  disc 0x02 do let i ← dIdx; pure (.mem i),
  disc 0x03 do let i ← dIdx; pure (.global i)]

/-- `Export`, `grammar/section.rs:101-105`. -/
def dExport : Q Export := do
  let name ← dString
  let desc ← dExportDesc
  pure { name := name, desc := desc }

/-- `StartSection`, `grammar/section.rs:115-118`. -/
def dStart : Q Start := do
  let start ← dIdx
  pure { func := start }

/-- `Element`, `grammar/section.rs:125-130`. -/
def dElement : Q Elem := do
  let table ← dIdx
  let offset ← dExpr
  let init ← dVec dIdx
  pure { table := table, offset := offset, init := init }

/-- `Function`, `grammar/section.rs:137-142`. -/
def dFunction : Q Body := dSized do
  let locals ← dVecVec dVal
  let code ← dExpr
  pure { locals := locals, code := code }

/-- `Data`, `grammar/section.rs:149-154`. -/
def dData : Q Data := do
  let data ← dIdx
  let offset ← dExpr
  let init ← dVec dByte
  pure { mem := data, offset := offset, init := init }

/-- `Section`, `grammar/section.rs:4-19`. -/
def dSection : Q Sec := dSizedEnum [
  disc 0x00 dCustom,
  disc 0x01 do let x ← dVec dFuncTy; pure (.types x),
  disc 0x02 do let x ← dVec dImport; pure (.imports x),
  disc 0x03 do let x ← dVec dIdx; pure (.funcs x),
  disc 0x04 do let x ← dVec dTable; pure (.tables x),
  disc 0x05 do let x ← dVec dMem; pure (.mems x),
  disc 0x06 do let x ← dVec dGlobal; pure (.globals x),
  disc 0x07 do let x ← dVec dExport; pure (.exports x),
  disc 0x08 do let x ← dStart; pure (.start x),
  disc 0x09 do let x ← dVec dElement; pure (.elems x),
  disc 0x0A do let x ← dVec dFunction; pure (.code x),
  disc 0x0B do let x ← dVec dData; pure (.data x)]

/-- `Module`, `grammar/module.rs:4-13`; the fields `magic` and `version` are constant and left out. -/
def dModule : Q (List Sec) := do
  let _ ← dMatching (fun m => m.map (fun b => b.toNat) == magicChars.map (fun c => c.toNat)) (dN 4 dByte)
  let _ ← dMatching (fun v => v == [1, 0, 0, 0]) (dN 4 dByte)
  dList dSection

end Whasm.Decl
