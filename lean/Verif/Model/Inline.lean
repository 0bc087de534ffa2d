import Verif.Model.Debug

/-!
# The text of `format!("{:?}", module)`

All types of `structure/{ty,idx,instr,module}.rs` derive `Debug` and are public, so that a module can also be written without the flag `#`; `assert_eq!` and `dbg!`-like
logging of users do this. Without the flag the builders of `core::fmt::builders` write everything on one line. Numbers, names and floats are written as with the flag
(`Model/Debug`).
-/

namespace Whasm

/-- The items between the brackets: `, ` before each but the first. -/
def lineItems : List (List Char) → List Char
  | [] => []
  | v :: vs => v ++ vs.flatMap fun w => [',', ' '] ++ w

/-- `DebugStruct` with at least one field. -/
def lineStruct (name : List Char) (fields : List (List Char × List Char)) : List Char :=
  name ++ [' ', '{', ' '] ++ lineItems (fields.map fun f => f.1 ++ [':', ' '] ++ f.2) ++ [' ', '}']

/-- `DebugTuple`; `Formatter::write_str` of the name for a variant without fields. -/
def lineTuple (name : List Char) (fields : List (List Char)) : List Char :=
  match fields with
  | [] => name
  | _ => name ++ ['('] ++ lineItems fields ++ [')']

/-- `DebugList`, for `Vec`. -/
def lineList (items : List (List Char)) : List Char := ['['] ++ lineItems items ++ [']']

/-- `Debug` of an `Option`. -/
def lineOption (v : Option (List Char)) : List Char :=
  match v with
  | none => text "None"
  | some v => lineTuple (text "Some") [v]

/-- `ty::Val`, `structure/ty.rs:7-14`. -/
def lineVal : Val → List Char
  | .i32 => text "I32"
  | .i64 => text "I64"
  | .f32 => text "F32"
  | .f64 => text "F64"

/-- `ty::Limits`, `structure/ty.rs:1-5`. -/
def lineLimits (l : Limits) : List Char :=
  lineStruct (text "Limits") [(text "min", dbgNat l.min.toNat), (text "max", lineOption (l.max.map fun n => dbgNat n.toNat))]

/-- `ty::Elem`, `structure/ty.rs:16-19`. -/
def lineElemTy : ElemTy → List Char
  | .funcRef => text "FuncRef"

/-- A vector of value types. -/
def lineVals (ts : List Val) : List Char := lineList (ts.map lineVal)

/-- `ty::RetVal`, `structure/ty.rs:21-22`. -/
def lineRetVal (t : RetVal) : List Char := lineTuple (text "RetVal") [lineVals t]

/-- `ty::Func`, `structure/ty.rs:24-28`. -/
def lineFuncTy (t : FuncTy) : List Char := lineStruct (text "Func") [(text "params", lineVals t.params), (text "results", lineVals t.results)]

/-- `ty::Table`, `structure/ty.rs:30-34`. -/
def lineTableTy (t : TableTy) : List Char := lineStruct (text "Table") [(text "lim", lineLimits t.lim), (text "elem", lineElemTy t.elem)]

/-- `ty::Mem`, `structure/ty.rs:36-39`. -/
def lineMemTy (t : MemTy) : List Char := lineStruct (text "Mem") [(text "lim", lineLimits t.lim)]

/-- `ty::Mut`, `structure/ty.rs:41-42`. -/
def lineMut : Mut → List Char
  | .const => text "Const"
  | .var => text "Var"

/-- `ty::Global`, `structure/ty.rs:44-48`. -/
def lineGlobalTy (t : GlobalTy) : List Char := lineStruct (text "Global") [(text "mt", lineMut t.mt), (text "val", lineVal t.val)]

/-- The index types of `structure/idx.rs`; the name is that of the newtype. -/
def lineIdx (name : String) (x : Idx) : List Char := lineTuple (text name) [dbgNat x.toNat]

mutual

/-- The fields of the variant, `structure/instr.rs:9-204`. -/
def lineFields (std : StdText) : Instr → List (List Char)
  | .block t b => [lineRetVal t, lineTuple (text "Expr") [lineList (lineInstrs std b)]]
  | .loop t b => [lineRetVal t, lineTuple (text "Expr") [lineList (lineInstrs std b)]]
  | .ifElse t a b => [lineRetVal t, lineTuple (text "Expr") [lineList (lineInstrs std a)], lineTuple (text "Expr") [lineList (lineInstrs std b)]]
  | .br l => [lineIdx "Label" l]
  | .brIf l => [lineIdx "Label" l]
  | .brTable ls l => [lineList (ls.map (lineIdx "Label")), lineIdx "Label" l]
  | .call x => [lineIdx "Func" x]
  | .callIndirect x y => [lineIdx "Type" x, lineIdx "Table" y]
  | .localGet x => [lineIdx "Local" x]
  | .localSet x => [lineIdx "Local" x]
  | .localTee x => [lineIdx "Local" x]
  | .globalGet x => [lineIdx "Global" x]
  | .globalSet x => [lineIdx "Global" x]
  | .load _ a b => [dbgNat a.toNat, dbgNat b.toNat]
  | .store _ a b => [dbgNat a.toNat, dbgNat b.toNat]
  | .memSize x => [lineIdx "Mem" x]
  | .memGrow x => [lineIdx "Mem" x]
  | .constI32 v => [dbgInt v.toInt]
  | .constI64 v => [dbgInt v.toInt]
  | .constF32 v => [std.f32 v]
  | .constF64 v => [std.f64 v]
  | .unreachable => []
  | .nop => []
  | .elseMark => []
  | .endMark => []
  | .ret => []
  | .drop => []
  | .select => []
  | .num _ => []

/-- The items of a vector of instructions. -/
def lineInstrs (std : StdText) : List Instr → List (List Char)
  | [] => []
  | i :: is => lineTuple (text (instrName i)) (lineFields std i) :: lineInstrs std is

end

/-- `instr::Instr`, `structure/instr.rs:9-204`. -/
def lineInstr (std : StdText) (i : Instr) : List Char := lineTuple (text (instrName i)) (lineFields std i)

/-- `instr::Expr`, `structure/instr.rs:3-4`. -/
def lineExpr (std : StdText) (e : Expr) : List Char := lineTuple (text "Expr") [lineList (lineInstrs std e)]

/-- `instr::ConstExpr`, `structure/instr.rs:6-7`. -/
def lineConstExpr (std : StdText) (e : ConstExpr) : List Char := lineTuple (text "ConstExpr") [lineList (lineInstrs std e)]

/-- `module::Func`, `structure/module.rs:18-23`. -/
def lineFunc (std : StdText) (f : Func) : List Char :=
  lineStruct (text "Func") [(text "ty", lineIdx "Type" f.ty), (text "locals", lineVals f.locals), (text "body", lineExpr std f.body)]

/-- `module::Table`, `structure/module.rs:25-28`. -/
def lineTable (t : Table) : List Char := lineStruct (text "Table") [(text "ty", lineTableTy t.ty)]

/-- `module::Mem`, `structure/module.rs:30-33`. -/
def lineMem (m : Mem) : List Char := lineStruct (text "Mem") [(text "ty", lineMemTy m.ty)]

/-- `module::Global`, `structure/module.rs:35-39`. -/
def lineGlobal (std : StdText) (g : Global) : List Char :=
  lineStruct (text "Global") [(text "ty", lineGlobalTy g.ty), (text "init", lineConstExpr std g.init)]

/-- `module::Elem`, `structure/module.rs:41-46`. -/
def lineElem (std : StdText) (e : Elem) : List Char :=
  lineStruct (text "Elem") [(text "table", lineIdx "Table" e.table), (text "offset", lineConstExpr std e.offset),
    (text "init", lineList (e.init.map (lineIdx "Func")))]

/-- `module::Data`, `structure/module.rs:48-53`. -/
def lineData (std : StdText) (d : Data) : List Char :=
  lineStruct (text "Data") [(text "mem", lineIdx "Mem" d.mem), (text "offset", lineConstExpr std d.offset),
    (text "init", lineList (d.init.map fun b => dbgNat b.toNat))]

/-- `module::Start`, `structure/module.rs:55-58`. -/
def lineStart (s : Start) : List Char := lineStruct (text "Start") [(text "func", lineIdx "Func" s.func)]

/-- `module::desc::Import`, `structure/module.rs:63-69`. -/
def lineImportDesc : ImportDesc → List Char
  | .func x => lineTuple (text "Func") [lineIdx "Type" x]
  | .table t => lineTuple (text "Table") [lineTableTy t]
  | .mem t => lineTuple (text "Mem") [lineMemTy t]
  | .global t => lineTuple (text "Global") [lineGlobalTy t]

/-- `module::desc::Export`, `structure/module.rs:71-77`. -/
def lineExportDesc : ExportDesc → List Char
  | .func x => lineTuple (text "Func") [lineIdx "Func" x]
  | .table x => lineTuple (text "Table") [lineIdx "Table" x]
  | .mem x => lineTuple (text "Mem") [lineIdx "Mem" x]
  | .global x => lineTuple (text "Global") [lineIdx "Global" x]

/-- `module::Import`, `structure/module.rs:80-85`. -/
def lineImport (std : StdText) (i : Import) : List Char :=
  lineStruct (text "Import") [(text "module", dbgName std i.module), (text "name", dbgName std i.name), (text "desc", lineImportDesc i.desc)]

/-- `module::Export`, `structure/module.rs:87-91`. -/
def lineExport (std : StdText) (e : Export) : List Char :=
  lineStruct (text "Export") [(text "name", dbgName std e.name), (text "desc", lineExportDesc e.desc)]

/-- `module::Module`, `structure/module.rs:3-16`. -/
def lineModule (std : StdText) (m : Module) : List Char :=
  lineStruct (text "Module") [
    (text "types", lineList (m.types.map lineFuncTy)),
    (text "funcs", lineList (m.funcs.map (lineFunc std))),
    (text "tables", lineList (m.tables.map lineTable)),
    (text "mems", lineList (m.mems.map lineMem)),
    (text "globals", lineList (m.globals.map (lineGlobal std))),
    (text "elem", lineList (m.elem.map (lineElem std))),
    (text "data", lineList (m.data.map (lineData std))),
    (text "start", lineOption (m.start.map lineStart)),
    (text "imports", lineList (m.imports.map (lineImport std))),
    (text "exports", lineList (m.exports.map (lineExport std)))]

/-- A function type, a function, a memory and an export. -/
example : lineModule ⟨fun _ => [], fun _ => [], fun _ => false⟩
    { types := [⟨[.i32], []⟩], funcs := [⟨0, [], [.localGet 0, .br 1]⟩], mems := [⟨⟨⟨1, some 12⟩⟩⟩],
      exports := [⟨[0x61, 0x22, 0xC3, 0xA9], .func 0⟩] } = text ("Module { types: [Func { params: [I32], results: [] }], " ++
        "funcs: [Func { ty: Type(0), locals: [], body: Expr([LocalGet(Local(0)), Br(Label(1))]) }], tables: [], " ++
        "mems: [Mem { ty: Mem { lim: Limits { min: 1, max: Some(12) } } }], globals: [], elem: [], data: [], start: None, imports: [], " ++
        "exports: [Export { name: \"a\\\"é\", desc: Func(Func(0)) }] }") := by decide +kernel

end Whasm
