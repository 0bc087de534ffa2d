import Verif.Model.Message
import Verif.Model.StdText

/-!
# The text printed by `println!("{:#?}", module)`, `/repo/parser/src/main.rs:46-48`

All types of `structure/{ty,idx,instr,module}.rs` derive `Debug`. The expansion of the derive calls the builders of `core::fmt::builders`
with the name of the variant or struct (without path) and the fields in the order of declaration; the flag `#` selects the layout with one
field per line. Parts of the standard library that depend on large tables or on algorithms outside the repository are parameters: the text of
floats, and the set of characters that `char::escape_debug` writes as `\u{…}`.
-/

namespace Whasm

/-- `PadAdapter::write_str`, `core::fmt::builders`: four spaces before the first character of each line. The flag is the state `on_newline`. -/
def pad : Bool → List Char → List Char
  | _, [] => []
  | q, c :: cs => (if q then [' ', ' ', ' ', ' '] else []) ++ c :: pad (c == '\n') cs

/-- One field: written through a new `PadAdapter`, followed by `,` and a line break. -/
def dbgField (v : List Char) : List Char := pad true (v ++ [',', '\n'])

/-- `DebugStruct` with at least one field. -/
def dbgStruct (name : List Char) (fields : List (List Char × List Char)) : List Char :=
  name ++ [' ', '{', '\n'] ++ fields.flatMap (fun f => dbgField (f.1 ++ [':', ' '] ++ f.2)) ++ ['}']

/-- `DebugTuple`; `Formatter::write_str` of the name for a variant without fields. -/
def dbgTuple (name : List Char) (fields : List (List Char)) : List Char :=
  match fields with
  | [] => name
  | _ => name ++ ['(', '\n'] ++ fields.flatMap dbgField ++ [')']

/-- `DebugList`, for `Vec`. -/
def dbgList (items : List (List Char)) : List Char :=
  match items with
  | [] => ['[', ']']
  | _ => ['[', '\n'] ++ items.flatMap dbgField ++ [']']

/-- `Debug` of an `Option`. -/
def dbgOption (v : Option (List Char)) : List Char :=
  match v with
  | none => text "None"
  | some v => dbgTuple (text "Some") [v]

/-- A digit, lower case. -/
def lowDigit (n : Nat) : Char := if n < 10 then Char.ofNat (48 + n) else Char.ofNat (87 + n)

/-- The digits of a number, most significant first, without leading zeros. -/
def digitsOf (base : Nat) : Nat → Nat → List Char
  | 0, _ => []
  | fuel + 1, n => if n < base then [lowDigit n] else digitsOf base fuel (n / base) ++ [lowDigit (n % base)]

/-- `Debug` of an unsigned integer. The number itself is enough fuel. -/
def dbgNat (n : Nat) : List Char := digitsOf 10 (n + 1) n

/-- `Debug` of a signed integer. -/
def dbgInt (z : Int) : List Char := if z < 0 then '-' :: dbgNat z.natAbs else dbgNat z.natAbs

/-- The characters of a Rust `String`, given by its UTF-8 bytes: `core::str::next_code_point`. On bytes that are not UTF-8 (which a `String`
cannot hold) the value does not matter. -/
def nameChars : List Byte → List Char
  | [] => []
  | b :: rest =>
    if b < 0x80 then Char.ofNat b.toNat :: nameChars rest
    else if b < 0xE0 then
      match rest with
      | b1 :: rest => Char.ofNat (b.toNat % 32 * 64 + b1.toNat % 64) :: nameChars rest
      | _ => []
    else if b < 0xF0 then
      match rest with
      | b1 :: b2 :: rest => Char.ofNat (b.toNat % 16 * 4096 + b1.toNat % 64 * 64 + b2.toNat % 64) :: nameChars rest
      | _ => []
    else
      match rest with
      | b1 :: b2 :: b3 :: rest =>
        Char.ofNat (b.toNat % 8 * 262144 + b1.toNat % 64 * 4096 + b2.toNat % 64 * 64 + b3.toNat % 64) :: nameChars rest
      | _ => []

/-- `char::escape_debug_ext` as called by `Debug` of `str`: the single quote is not escaped. -/
def escapeChar (std : StdText) (c : Char) : List Char :=
  if c = '\x00' then ['\\', '0']
  else if c = '\t' then ['\\', 't']
  else if c = '\r' then ['\\', 'r']
  else if c = '\n' then ['\\', 'n']
  else if c = '"' then ['\\', '"']
  else if c = '\\' then ['\\', '\\']
  else if std.special c then ['\\', 'u', '{'] ++ digitsOf 16 (c.toNat + 1) c.toNat ++ ['}']
  else [c]

/-- `Debug` of a `String`. -/
def dbgName (std : StdText) (n : Name) : List Char := '"' :: (nameChars n).flatMap (escapeChar std) ++ ['"']

/-- `ty::Val`, `structure/ty.rs:7-14`. -/
def dbgVal : Val → List Char
  | .i32 => text "I32"
  | .i64 => text "I64"
  | .f32 => text "F32"
  | .f64 => text "F64"

/-- `ty::Limits`, `structure/ty.rs:1-5`. -/
def dbgLimits (l : Limits) : List Char :=
  dbgStruct (text "Limits") [(text "min", dbgNat l.min.toNat), (text "max", dbgOption (l.max.map fun n => dbgNat n.toNat))]

/-- `ty::Elem`, `structure/ty.rs:16-19`. -/
def dbgElemTy : ElemTy → List Char
  | .funcRef => text "FuncRef"

/-- A vector of value types. -/
def dbgVals (ts : List Val) : List Char := dbgList (ts.map dbgVal)

/-- `ty::RetVal`, `structure/ty.rs:21-22`. -/
def dbgRetVal (t : RetVal) : List Char := dbgTuple (text "RetVal") [dbgVals t]

/-- `ty::Func`, `structure/ty.rs:24-28`. -/
def dbgFuncTy (t : FuncTy) : List Char := dbgStruct (text "Func") [(text "params", dbgVals t.params), (text "results", dbgVals t.results)]

/-- `ty::Table`, `structure/ty.rs:30-34`. -/
def dbgTableTy (t : TableTy) : List Char := dbgStruct (text "Table") [(text "lim", dbgLimits t.lim), (text "elem", dbgElemTy t.elem)]

/-- `ty::Mem`, `structure/ty.rs:36-39`. -/
def dbgMemTy (t : MemTy) : List Char := dbgStruct (text "Mem") [(text "lim", dbgLimits t.lim)]

/-- `ty::Mut`, `structure/ty.rs:41-42`. -/
def dbgMut : Mut → List Char
  | .const => text "Const"
  | .var => text "Var"

/-- `ty::Global`, `structure/ty.rs:44-48`. -/
def dbgGlobalTy (t : GlobalTy) : List Char := dbgStruct (text "Global") [(text "mt", dbgMut t.mt), (text "val", dbgVal t.val)]

/-- The index types of `structure/idx.rs`; the name is that of the newtype. -/
def dbgIdx (name : String) (x : Idx) : List Char := dbgTuple (text name) [dbgNat x.toNat]

/-- Names of the variants for loads, `structure/instr.rs:39-52`. -/
def loadName : LoadOp → String
  | .i32Load => "I32Load"
  | .i64Load => "I64Load"
  | .f32Load => "F32Load"
  | .f64Load => "F64Load"
  | .i32Load8S => "I32Load8S"
  | .i32Load8U => "I32Load8U"
  | .i32Load16S => "I32Load16S"
  | .i32Load16U => "I32Load16U"
  | .i64Load8S => "I64Load8S"
  | .i64Load8U => "I64Load8U"
  | .i64Load16S => "I64Load16S"
  | .i64Load16U => "I64Load16U"
  | .i64Load32S => "I64Load32S"
  | .i64Load32U => "I64Load32U"

/-- Names of the variants for stores, `structure/instr.rs:54-62`. -/
def storeName : StoreOp → String
  | .i32Store => "I32Store"
  | .i64Store => "I64Store"
  | .f32Store => "F32Store"
  | .f64Store => "F64Store"
  | .i32Store8 => "I32Store8"
  | .i32Store16 => "I32Store16"
  | .i64Store8 => "I64Store8"
  | .i64Store16 => "I64Store16"
  | .i64Store32 => "I64Store32"

/-- Names of the numeric variants without fields, `structure/instr.rs:72-202`. -/
def numName : NumOp → String
  | .i32Eqz => "I32Eqz"
  | .i32Eq => "I32Eq"
  | .i32Ne => "I32Ne"
  | .i32LtS => "I32LtS"
  | .i32LtU => "I32LtU"
  | .i32GtS => "I32GtS"
  | .i32GtU => "I32GtU"
  | .i32LeS => "I32LeS"
  | .i32LeU => "I32LeU"
  | .i32GeS => "I32GeS"
  | .i32GeU => "I32GeU"
  | .i64Eqz => "I64Eqz"
  | .i64Eq => "I64Eq"
  | .i64Ne => "I64Ne"
  | .i64LtS => "I64LtS"
  | .i64LtU => "I64LtU"
  | .i64GtS => "I64GtS"
  | .i64GtU => "I64GtU"
  | .i64LeS => "I64LeS"
  | .i64LeU => "I64LeU"
  | .i64GeS => "I64GeS"
  | .i64GeU => "I64GeU"
  | .f32Eq => "F32Eq"
  | .f32Ne => "F32Ne"
  | .f32Lt => "F32Lt"
  | .f32Gt => "F32Gt"
  | .f32Le => "F32Le"
  | .f32Ge => "F32Ge"
  | .f64Eq => "F64Eq"
  | .f64Ne => "F64Ne"
  | .f64Lt => "F64Lt"
  | .f64Gt => "F64Gt"
  | .f64Le => "F64Le"
  | .f64Ge => "F64Ge"
  | .i32Clz => "I32Clz"
  | .i32Ctz => "I32Ctz"
  | .i32Popcnt => "I32Popcnt"
  | .i32Add => "I32Add"
  | .i32Sub => "I32Sub"
  | .i32Mul => "I32Mul"
  | .i32DivS => "I32DivS"
  | .i32DivU => "I32DivU"
  | .i32RemS => "I32RemS"
  | .i32RemU => "I32RemU"
  | .i32And => "I32And"
  | .i32Or => "I32Or"
  | .i32Xor => "I32Xor"
  | .i32Shl => "I32Shl"
  | .i32ShrS => "I32ShrS"
  | .i32ShrU => "I32ShrU"
  | .i32Rotl => "I32Rotl"
  | .i32Rotr => "I32Rotr"
  | .i64Clz => "I64Clz"
  | .i64Ctz => "I64Ctz"
  | .i64Popcnt => "I64Popcnt"
  | .i64Add => "I64Add"
  | .i64Sub => "I64Sub"
  | .i64Mul => "I64Mul"
  | .i64DivS => "I64DivS"
  | .i64DivU => "I64DivU"
  | .i64RemS => "I64RemS"
  | .i64RemU => "I64RemU"
  | .i64And => "I64And"
  | .i64Or => "I64Or"
  | .i64Xor => "I64Xor"
  | .i64Shl => "I64Shl"
  | .i64ShrS => "I64ShrS"
  | .i64ShrU => "I64ShrU"
  | .i64Rotl => "I64Rotl"
  | .i64Rotr => "I64Rotr"
  | .f32Abs => "F32Abs"
  | .f32Neg => "F32Neg"
  | .f32Ceil => "F32Ceil"
  | .f32Floor => "F32Floor"
  | .f32Trunc => "F32Trunc"
  | .f32Nearest => "F32Nearest"
  | .f32Sqrt => "F32Sqrt"
  | .f32Add => "F32Add"
  | .f32Sub => "F32Sub"
  | .f32Mul => "F32Mul"
  | .f32Div => "F32Div"
  | .f32Min => "F32Min"
  | .f32Max => "F32Max"
  | .f32Copysign => "F32Copysign"
  | .f64Abs => "F64Abs"
  | .f64Neg => "F64Neg"
  | .f64Ceil => "F64Ceil"
  | .f64Floor => "F64Floor"
  | .f64Trunc => "F64Trunc"
  | .f64Nearest => "F64Nearest"
  | .f64Sqrt => "F64Sqrt"
  | .f64Add => "F64Add"
  | .f64Sub => "F64Sub"
  | .f64Mul => "F64Mul"
  | .f64Div => "F64Div"
  | .f64Min => "F64Min"
  | .f64Max => "F64Max"
  | .f64Copysign => "F64Copysign"
  | .i32WrapI64 => "I32WrapI64"
  | .i32TruncF32S => "I32TruncF32S"
  | .i32TruncF32U => "I32TruncF32U"
  | .i32TruncF64S => "I32TruncF64S"
  | .i32TruncF64U => "I32TruncF64U"
  | .i64ExtendI32S => "I64ExtendI32S"
  | .i64ExtendI32U => "I64ExtendI32U"
  | .i64TruncF32S => "I64TruncF32S"
  | .i64TruncF32U => "I64TruncF32U"
  | .i64TruncF64S => "I64TruncF64S"
  | .i64TruncF64U => "I64TruncF64U"
  | .f32ConvertI32S => "F32ConvertI32S"
  | .f32ConvertI32U => "F32ConvertI32U"
  | .f32ConvertI64S => "F32ConvertI64S"
  | .f32ConvertI64U => "F32ConvertI64U"
  | .f32DemoteF64 => "F32DemoteF64"
  | .f64ConvertI32S => "F64ConvertI32S"
  | .f64ConvertI32U => "F64ConvertI32U"
  | .f64ConvertI64S => "F64ConvertI64S"
  | .f64ConvertI64U => "F64ConvertI64U"
  | .f64PromoteF32 => "F64PromoteF32"
  | .i32ReinterpretF32 => "I32ReinterpretF32"
  | .i64ReinterpretF64 => "I64ReinterpretF64"
  | .f32ReinterpretI32 => "F32ReinterpretI32"
  | .f64ReinterpretI64 => "F64ReinterpretI64"

/-- The name of the variant, `structure/instr.rs:9-204`. -/
def instrName : Instr → String
  | .unreachable => "Unreachable"
  | .nop => "Nop"
  | .block _ _ => "Block"
  | .loop _ _ => "Loop"
  | .ifElse _ _ _ => "If"
  | .elseMark => "Else"
  | .endMark => "End"
  | .br _ => "Br"
  | .brIf _ => "BrIf"
  | .brTable _ _ => "BrTable"
  | .ret => "Return"
  | .call _ => "Call"
  | .callIndirect _ _ => "CallIndirect"
  | .drop => "Drop"
  | .select => "Select"
  | .localGet _ => "LocalGet"
  | .localSet _ => "LocalSet"
  | .localTee _ => "LocalTee"
  | .globalGet _ => "GlobalGet"
  | .globalSet _ => "GlobalSet"
  | .load op _ _ => loadName op
  | .store op _ _ => storeName op
  | .memSize _ => "MemSize"
  | .memGrow _ => "MemGrow"
  | .constI32 _ => "ConstI32"
  | .constI64 _ => "ConstI64"
  | .constF32 _ => "ConstF32"
  | .constF64 _ => "ConstF64"
  | .num op => numName op

mutual

/-- The fields of the variant, `structure/instr.rs:9-204`. -/
def instrFields (std : StdText) : Instr → List (List Char)
  | .block t b => [dbgRetVal t, dbgTuple (text "Expr") [dbgList (dbgInstrs std b)]]
  | .loop t b => [dbgRetVal t, dbgTuple (text "Expr") [dbgList (dbgInstrs std b)]]
  | .ifElse t a b => [dbgRetVal t, dbgTuple (text "Expr") [dbgList (dbgInstrs std a)], dbgTuple (text "Expr") [dbgList (dbgInstrs std b)]]
  | .br l => [dbgIdx "Label" l]
  | .brIf l => [dbgIdx "Label" l]
  | .brTable ls l => [dbgList (ls.map (dbgIdx "Label")), dbgIdx "Label" l]
  | .call x => [dbgIdx "Func" x]
  | .callIndirect x y => [dbgIdx "Type" x, dbgIdx "Table" y]
  | .localGet x => [dbgIdx "Local" x]
  | .localSet x => [dbgIdx "Local" x]
  | .localTee x => [dbgIdx "Local" x]
  | .globalGet x => [dbgIdx "Global" x]
  | .globalSet x => [dbgIdx "Global" x]
  | .load _ a b => [dbgNat a.toNat, dbgNat b.toNat]
  | .store _ a b => [dbgNat a.toNat, dbgNat b.toNat]
  | .memSize x => [dbgIdx "Mem" x]
  | .memGrow x => [dbgIdx "Mem" x]
  | .constI32 v => [dbgInt v.toInt]
  | .constI64 v => [dbgInt v.toInt]
  | .constF32 v => [std.f32 v]
  | .constF64 v => [std.f64 v]
  | .unreachable => []
  | .nop => []
  | .elseMark => []
  | .endMark => []
  | .ret => []
  | .drop => []
  | .select => []
  | .num _ => []

/-- The items of a vector of instructions. -/
def dbgInstrs (std : StdText) : List Instr → List (List Char)
  | [] => []
  | i :: is => dbgTuple (text (instrName i)) (instrFields std i) :: dbgInstrs std is

end

/-- `instr::Instr`, `structure/instr.rs:9-204`. -/
def dbgInstr (std : StdText) (i : Instr) : List Char := dbgTuple (text (instrName i)) (instrFields std i)

/-- `instr::Expr`, `structure/instr.rs:3-4`. -/
def dbgExpr (std : StdText) (e : Expr) : List Char := dbgTuple (text "Expr") [dbgList (dbgInstrs std e)]

/-- `instr::ConstExpr`, `structure/instr.rs:6-7`. -/
def dbgConstExpr (std : StdText) (e : ConstExpr) : List Char := dbgTuple (text "ConstExpr") [dbgList (dbgInstrs std e)]

/-- `module::Func`, `structure/module.rs:18-23`. -/
def dbgFunc (std : StdText) (f : Func) : List Char :=
  dbgStruct (text "Func") [(text "ty", dbgIdx "Type" f.ty), (text "locals", dbgVals f.locals), (text "body", dbgExpr std f.body)]

/-- `module::Table`, `structure/module.rs:25-28`. -/
def dbgTable (t : Table) : List Char := dbgStruct (text "Table") [(text "ty", dbgTableTy t.ty)]

/-- `module::Mem`, `structure/module.rs:30-33`. -/
def dbgMem (m : Mem) : List Char := dbgStruct (text "Mem") [(text "ty", dbgMemTy m.ty)]

/-- `module::Global`, `structure/module.rs:35-39`. -/
def dbgGlobal (std : StdText) (g : Global) : List Char :=
  dbgStruct (text "Global") [(text "ty", dbgGlobalTy g.ty), (text "init", dbgConstExpr std g.init)]

/-- `module::Elem`, `structure/module.rs:41-46`. -/
def dbgElem (std : StdText) (e : Elem) : List Char :=
  dbgStruct (text "Elem") [(text "table", dbgIdx "Table" e.table), (text "offset", dbgConstExpr std e.offset),
    (text "init", dbgList (e.init.map (dbgIdx "Func")))]

/-- `module::Data`, `structure/module.rs:48-53`. -/
def dbgData (std : StdText) (d : Data) : List Char :=
  dbgStruct (text "Data") [(text "mem", dbgIdx "Mem" d.mem), (text "offset", dbgConstExpr std d.offset),
    (text "init", dbgList (d.init.map fun b => dbgNat b.toNat))]

/-- `module::Start`, `structure/module.rs:55-58`. -/
def dbgStart (s : Start) : List Char := dbgStruct (text "Start") [(text "func", dbgIdx "Func" s.func)]

/-- `module::desc::Import`, `structure/module.rs:63-69`. -/
def dbgImportDesc : ImportDesc → List Char
  | .func x => dbgTuple (text "Func") [dbgIdx "Type" x]
  | .table t => dbgTuple (text "Table") [dbgTableTy t]
  | .mem t => dbgTuple (text "Mem") [dbgMemTy t]
  | .global t => dbgTuple (text "Global") [dbgGlobalTy t]

/-- `module::desc::Export`, `structure/module.rs:71-77`. -/
def dbgExportDesc : ExportDesc → List Char
  | .func x => dbgTuple (text "Func") [dbgIdx "Func" x]
  | .table x => dbgTuple (text "Table") [dbgIdx "Table" x]
  | .mem x => dbgTuple (text "Mem") [dbgIdx "Mem" x]
  | .global x => dbgTuple (text "Global") [dbgIdx "Global" x]

/-- `module::Import`, `structure/module.rs:80-85`. -/
def dbgImport (std : StdText) (i : Import) : List Char :=
  dbgStruct (text "Import") [(text "module", dbgName std i.module), (text "name", dbgName std i.name), (text "desc", dbgImportDesc i.desc)]

/-- `module::Export`, `structure/module.rs:87-91`. -/
def dbgExport (std : StdText) (e : Export) : List Char :=
  dbgStruct (text "Export") [(text "name", dbgName std e.name), (text "desc", dbgExportDesc e.desc)]

/-- `module::Module`, `structure/module.rs:3-16`. -/
def dbgModule (std : StdText) (m : Module) : List Char :=
  dbgStruct (text "Module") [
    (text "types", dbgList (m.types.map dbgFuncTy)),
    (text "funcs", dbgList (m.funcs.map (dbgFunc std))),
    (text "tables", dbgList (m.tables.map dbgTable)),
    (text "mems", dbgList (m.mems.map dbgMem)),
    (text "globals", dbgList (m.globals.map (dbgGlobal std))),
    (text "elem", dbgList (m.elem.map (dbgElem std))),
    (text "data", dbgList (m.data.map (dbgData std))),
    (text "start", dbgOption (m.start.map dbgStart)),
    (text "imports", dbgList (m.imports.map (dbgImport std))),
    (text "exports", dbgList (m.exports.map (dbgExport std)))]

/-- Standard output of a run of the tool: every line, and the module, followed by a line break (`println!`). -/
def Run.stdout (std : StdText) (r : Run) : List Char :=
  r.lines.flatMap (· ++ ['\n']) ++ match r.module with
    | none => []
    | some m => dbgModule std m ++ ['\n']

/-- The lines of the example below. -/
def exampleText : List String := [
  "Module {",
  "    types: [",
  "        Func {",
  "            params: [",
  "                I32,",
  "            ],",
  "            results: [],",
  "        },",
  "    ],",
  "    funcs: [",
  "        Func {",
  "            ty: Type(",
  "                0,",
  "            ),",
  "            locals: [],",
  "            body: Expr(",
  "                [",
  "                    LocalGet(",
  "                        Local(",
  "                            0,",
  "                        ),",
  "                    ),",
  "                    Br(",
  "                        Label(",
  "                            1,",
  "                        ),",
  "                    ),",
  "                ],",
  "            ),",
  "        },",
  "    ],",
  "    tables: [],",
  "    mems: [",
  "        Mem {",
  "            ty: Mem {",
  "                lim: Limits {",
  "                    min: 1,",
  "                    max: Some(",
  "                        12,",
  "                    ),",
  "                },",
  "            },",
  "        },",
  "    ],",
  "    globals: [],",
  "    elem: [],",
  "    data: [],",
  "    start: None,",
  "    imports: [],",
  "    exports: [",
  "        Export {",
  "            name: \"a\\\"é\",",
  "            desc: Func(",
  "                Func(",
  "                    0,",
  "                ),",
  "            ),",
  "        },",
  "    ],",
  "}"]

/-- A function type, a function, a memory and an export. -/
example : dbgModule ⟨fun _ => [], fun _ => [], fun _ => false⟩
    { types := [⟨[.i32], []⟩], funcs := [⟨0, [], [.localGet 0, .br 1]⟩], mems := [⟨⟨⟨1, some 12⟩⟩⟩],
      exports := [⟨[0x61, 0x22, 0xC3, 0xA9], .func 0⟩] } ++ ['\n'] = exampleText.flatMap fun l => text l ++ ['\n'] := by decide +kernel

end Whasm
