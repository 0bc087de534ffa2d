import Verif.Spec.Blame

/-!
# The fault in an input that is not a module

`F read rest e`: someone who reads an `F` by the grammar, from left to right, is stopped after the bytes `read`, with `rest` still unread, by the fault that is called
`e`. In contrast to `Spec/Blame` the bytes before the fault are not arbitrary: everything that is complete follows the grammar.
-/

namespace Whasm.Spec

/-- The bytes read, the bytes not read, the name of the fault. -/
abbrev Fault := List Byte → List Byte → Error → Prop

/-- A number that cannot be read: the input ends before it does, or with its last byte it gets out of range, by the name `err`. -/
inductive NumFault {α : Type} (G : List Byte → α → Prop) (err : Error) : Fault
  | short {read more : List Byte} {x : α} : more ≠ [] → G (read ++ more) x → NumFault G err read [] .unexpectedEndOfFile
  | range {enc rest : List Byte} {b : Byte} : FirstBad G enc b → NumFault G err (enc ++ [b]) rest err

def U32Fault : Fault := NumFault Dialect.code.u32 .outOfRangeUnsignedInteger
def S32Fault : Fault := NumFault Dialect.code.s32 .outOfRangeSignedInteger
def S64Fault : Fault := NumFault Dialect.code.s64 .outOfRangeSignedInteger

/-- Of `n` bytes some are missing. -/
inductive BytesFault (n : Nat) : Fault
  | short {read : List Byte} : read.length < n → BytesFault n read [] .unexpectedEndOfFile

/-- The byte that tells the alternative is missing, or there is no alternative with this byte; `ty` is the name of the type in the message. -/
inductive TagFault {α : Type} (G : List Byte → α → Prop) (ty : String) : Fault
  | short : TagFault G ty [] [] .unexpectedEndOfFile
  | unknown {b : Byte} {rest : List Byte} : Excludes G [b] → TagFault G ty [b] rest (.invalidVariantId b ty)

/-- A `G` followed by something: the fault `F` is in the `G`, or the `G` is complete and the fault `H` is in what follows. -/
inductive Then {α : Type} (F : Fault) (G : List Byte → α → Prop) (H : Fault) : Fault
  | first {read rest : List Byte} {e : Error} : F read rest e → Then F G H read rest e
  | second {b read rest : List Byte} {x : α} {e : Error} : G b x → H read rest e → Then F G H (b ++ read) rest e

/-- A vector: the number of elements is at fault, or an element after some complete ones, which are less than that number. -/
inductive VecFault {α : Type} (G : List Byte → α → Prop) (F : Fault) : Fault
  | count {read rest : List Byte} {e : Error} : U32Fault read rest e → VecFault G F read rest e
  | element {n bs read rest : List Byte} {len : U32} {xs : List α} {e : Error} : Dialect.code.u32 n len → GSeq G bs xs → xs.length < len.toNat →
      F read rest e → VecFault G F (n ++ bs ++ read) rest e

/-- A name: also, the bytes are all there and are not UTF-8. -/
inductive NameFault : Fault
  | bytes {read rest : List Byte} {e : Error} : VecFault GByte (BytesFault 1) read rest e → NameFault read rest e
  | utf8 {read rest raw : List Byte} : GVec .code GByte read raw → ¬ IsUtf8 raw → NameFault read rest .invalidUtf8Encoding

/-- `r`, the unread part of something of `n` bytes, is followed by `after`: it is cut off at the size, or the input ends before. -/
def Window (n : Nat) (part r after : List Byte) : Prop := (part ++ r).length = n ∨ ((part ++ r).length < n ∧ after = [])

/-- Something of a given size: the size is at fault; the content is at fault, for which the input ends where the size is reached; the content is complete too
early. -/
inductive SizedFault (C : List Byte → Prop) (F : Fault) : Fault
  | size {read rest : List Byte} {e : Error} : U32Fault read rest e → SizedFault C F read rest e
  | content {n part r after : List Byte} {len : U32} {e : Error} : Dialect.code.u32 n len → Window len.toNat part r after → F part r e →
      SizedFault C F (n ++ part) (r ++ after) e
  | early {n part rest : List Byte} {len : U32} : Dialect.code.u32 n len → C part → part.length < len.toNat → SizedFault C F (n ++ part) rest .sizeMissmatch

/-- A custom section: whatever follows the name belongs to it, so it is too short only if the input ends. -/
inductive CustomFault : Fault
  | size {read rest : List Byte} {e : Error} : U32Fault read rest e → CustomFault read rest e
  | name {n part r after : List Byte} {len : U32} {e : Error} : Dialect.code.u32 n len → Window len.toNat part r after → NameFault part r e →
      CustomFault (n ++ part) (r ++ after) e
  | early {n part : List Byte} {len : U32} : Dialect.code.u32 n len → GCustom .code part () → part.length < len.toNat → CustomFault (n ++ part) [] .sizeMissmatch

/-! ## Types -/

def ValFault : Fault := TagFault GVal "ty::Val"

/-- The type of a block goes by the name of the value types. -/
def RetValFault : Fault := TagFault GRetVal "ty::Val"

inductive FuncTyFault : Fault
  | tag {read rest : List Byte} {e : Error} : TagFault (GFuncTy .code) "ty::Func" read rest e → FuncTyFault read rest e
  | vals {read rest : List Byte} {e : Error} : Then (VecFault GVal ValFault) (GVec .code GVal) (VecFault GVal ValFault) read rest e →
      FuncTyFault (0x60 :: read) rest e

inductive LimitsFault : Fault
  | tag {read rest : List Byte} {e : Error} : TagFault (GLimits .code) "ty::Limits" read rest e → LimitsFault read rest e
  | min {read rest : List Byte} {e : Error} : U32Fault read rest e → LimitsFault (0x00 :: read) rest e
  | minMax {read rest : List Byte} {e : Error} : Then U32Fault Dialect.code.u32 U32Fault read rest e → LimitsFault (0x01 :: read) rest e

def TableTyFault : Fault := Then (TagFault GElemTy "ty::Elem") GElemTy LimitsFault
def GlobalTyFault : Fault := Then ValFault GVal (TagFault GMut "ty::Mut")

/-! ## Instructions -/

/-- The opcodes followed by one index. -/
def indexOpcodes : List Byte := [0x0C, 0x0D, 0x10, 0x20, 0x21, 0x22, 0x23, 0x24, 0x3F, 0x40]

/-- The opcodes followed by two numbers. -/
def TwoNumbers (c : Byte) : Prop := c = 0x11 ∨ (∃ op, c = loadOpcode op) ∨ ∃ op, c = storeOpcode op

/-- The opcodes followed by the type of a block and instructions. -/
def blockOpcodes : List Byte := [0x02, 0x03, 0x04]

/-- What follows an opcode, up to the type of a block. -/
inductive OperandFault : Byte → Fault
  | index {c : Byte} {read rest : List Byte} {e : Error} : c ∈ indexOpcodes → U32Fault read rest e → OperandFault c read rest e
  | two {c : Byte} {read rest : List Byte} {e : Error} : TwoNumbers c → Then U32Fault Dialect.code.u32 U32Fault read rest e → OperandFault c read rest e
  | table {read rest : List Byte} {e : Error} : Then (VecFault Dialect.code.u32 U32Fault) (GVec .code Dialect.code.u32) U32Fault read rest e → OperandFault 0x0E read rest e
  | i32 {read rest : List Byte} {e : Error} : S32Fault read rest e → OperandFault 0x41 read rest e
  | i64 {read rest : List Byte} {e : Error} : S64Fault read rest e → OperandFault 0x42 read rest e
  | f32 {read rest : List Byte} {e : Error} : BytesFault 4 read rest e → OperandFault 0x43 read rest e
  | f64 {read rest : List Byte} {e : Error} : BytesFault 8 read rest e → OperandFault 0x44 read rest e
  | block {c : Byte} {read rest : List Byte} {e : Error} : c ∈ blockOpcodes → RetValFault read rest e → OperandFault c read rest e

/-- An instruction, where `end` and `else` are possible, too. -/
inductive InstrFault : Fault
  | short : InstrFault [] [] .unexpectedEndOfFile
  | unknown {b : Byte} {rest : List Byte} : Excludes (GInstr .code) [b] → b ≠ 0x0B → b ≠ 0x05 → InstrFault [b] rest (.invalidVariantId b "instr::Instr")
  | operand {c : Byte} {read rest : List Byte} {e : Error} : OperandFault c read rest e → InstrFault (c :: read) rest e
  /-- An instruction in a block, or in the first branch of an `if`. -/
  | inner {c : Byte} {b1 b2 read rest : List Byte} {t : RetVal} {is : List Instr} {e : Error} : c ∈ blockOpcodes → GRetVal b1 t → GInstrs .code b2 is →
      InstrFault read rest e → InstrFault (c :: b1 ++ b2 ++ read) rest e
  /-- An instruction in the second branch of an `if`. -/
  | innerElse {b1 b2 b3 read rest : List Byte} {t : RetVal} {is js : List Instr} {e : Error} : GRetVal b1 t → GInstrs .code b2 is → GInstrs .code b3 js →
      InstrFault read rest e → InstrFault (0x04 :: b1 ++ b2 ++ [0x05] ++ b3 ++ read) rest e
  /-- `block` or `loop` is ended by `else`. -/
  | strayElse {c : Byte} {b1 b2 rest : List Byte} {t : RetVal} {is : List Instr} : c = 0x02 ∨ c = 0x03 → GRetVal b1 t → GInstrs .code b2 is →
      InstrFault (c :: b1 ++ b2 ++ [0x05]) rest (.unexpectedOpcode "Else")
  /-- The second branch of an `if` is ended by `else`. -/
  | secondElse {b1 b2 b3 rest : List Byte} {t : RetVal} {is js : List Instr} : GRetVal b1 t → GInstrs .code b2 is → GInstrs .code b3 js →
      InstrFault (0x04 :: b1 ++ b2 ++ [0x05] ++ b3 ++ [0x05]) rest (.unexpectedOpcode "Unknown")

/-- Instructions up to `end` or `else`: the fault is in one after some complete ones. -/
inductive InstrsFault : Fault
  | mk {b read rest : List Byte} {is : List Instr} {e : Error} : GInstrs .code b is → InstrFault read rest e → InstrsFault (b ++ read) rest e

inductive ExprFault : Fault
  | instrs {read rest : List Byte} {e : Error} : InstrsFault read rest e → ExprFault read rest e
  | strayElse {b rest : List Byte} {is : List Instr} : GInstrs .code b is → ExprFault (b ++ [0x05]) rest (.unexpectedOpcode "Else")

/-! ## Parts of modules -/

inductive ImportDescFault : Fault
  | tag {read rest : List Byte} {e : Error} : TagFault (GImportDesc .code) "module::desc::Import" read rest e → ImportDescFault read rest e
  | func {read rest : List Byte} {e : Error} : U32Fault read rest e → ImportDescFault (0x00 :: read) rest e
  | table {read rest : List Byte} {e : Error} : TableTyFault read rest e → ImportDescFault (0x01 :: read) rest e
  | mem {read rest : List Byte} {e : Error} : LimitsFault read rest e → ImportDescFault (0x02 :: read) rest e
  | global {read rest : List Byte} {e : Error} : GlobalTyFault read rest e → ImportDescFault (0x03 :: read) rest e

inductive ExportDescFault : Fault
  | tag {read rest : List Byte} {e : Error} : TagFault (GExportDesc .code) "module::desc::Export" read rest e → ExportDescFault read rest e
  | index {c : Byte} {read rest : List Byte} {e : Error} : c.toNat ≤ 3 → U32Fault read rest e → ExportDescFault (c :: read) rest e

def ImportFault : Fault := Then NameFault (GName .code) (Then NameFault (GName .code) ImportDescFault)
def ExportFault : Fault := Then NameFault (GName .code) ExportDescFault
def GlobalFault : Fault := Then GlobalTyFault GGlobalTy ExprFault
def ElemFault : Fault := Then U32Fault Dialect.code.u32 (Then ExprFault (GExpr .code) (VecFault Dialect.code.u32 U32Fault))
def DataFault : Fault := Then U32Fault Dialect.code.u32 (Then ExprFault (GExpr .code) (VecFault GByte (BytesFault 1)))
def FuncFault : Fault := Then (VecFault (GLocals .code) (Then U32Fault Dialect.code.u32 ValFault)) (GVec .code (GLocals .code)) ExprFault

/-- The content of the sections by their number, as in `Content`. -/
def ContentFault : Nat → Fault
  | 1 => VecFault (GFuncTy .code) FuncTyFault
  | 2 => VecFault (GImport .code) ImportFault
  | 3 => VecFault Dialect.code.u32 U32Fault
  | 4 => VecFault (GTable .code) TableTyFault
  | 5 => VecFault (GMem .code) LimitsFault
  | 6 => VecFault (GGlobal .code) GlobalFault
  | 7 => VecFault (GExport .code) ExportFault
  | 8 => U32Fault
  | 9 => VecFault (GElem .code) ElemFault
  | 10 => VecFault (GSized .code (GFunc .code)) (SizedFault (Content 12) FuncFault)
  | 11 => VecFault (GData .code) DataFault
  | _ => fun _ _ _ => False

/-- A section after its number. -/
def SectionFault : Nat → Fault
  | 0 => CustomFault
  | k + 1 => SizedFault (Content (k + 1)) (ContentFault (k + 1))

/-! ## Modules -/

/-- The fault in an input that is not a module. -/
inductive ModuleFault : Fault
  | shortMagic {read : List Byte} : read.length < 4 → ModuleFault read [] .unexpectedEndOfFile
  | magic {read rest : List Byte} : read.length = 4 → read ≠ magic → ModuleFault read rest .invalidPreambleMagic
  | shortVersion {v : List Byte} : v.length < 4 → ModuleFault (Spec.magic ++ v) [] .unexpectedEndOfFile
  | version {v rest : List Byte} : v.length = 4 → Spec.magic ++ v ≠ preamble → ModuleFault (Spec.magic ++ v) rest .invalidPreambleVersion
  /-- There is no section with this number. -/
  | sectionId {b rest : List Byte} {secs : List (Byte × List Byte)} {id : Byte} : Complete b secs → 11 < id.toNat →
      ModuleFault (preamble ++ b ++ [id]) rest (.invalidSectionId id)
  /-- This section, or one that belongs after it, is there already. -/
  | sectionOrder {b rest : List Byte} {secs : List (Byte × List Byte)} {id : Byte} {k : Nat} : Complete b secs → id ≠ 0x00 →
      k ∈ secIds secs → id.toNat ≤ k → ModuleFault (preamble ++ b ++ [id]) rest (.unexpectedSectionId id)
  /-- The section is in its place, the fault is in it. -/
  | section {b read rest : List Byte} {secs : List (Byte × List Byte)} {id : Byte} {e : Error} : Complete b secs → id.toNat ≤ 11 →
      (id ≠ 0x00 → ∀ k ∈ secIds secs, k < id.toNat) → SectionFault id.toNat read rest e → ModuleFault (preamble ++ b ++ id :: read) rest e
  /-- The section is complete, but has not as many bodies as are announced. -/
  | bodies {read rest : List Byte} : BodyCount read → ModuleFault read rest .unexpectedEndOfFile

end Whasm.Spec
