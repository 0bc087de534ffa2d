import Verif.Model.StdText

/-!
# How a module is shown

The text that `{:#?}` gives for values of Rust types with derived `Debug`, described by the depth at which each line stands. Instructions are named by their mnemonics in
the specification (Wasm core 1.0, sections 6.5.2-6.5.6).
-/

namespace Whasm.Spec.Show

/-! ## Layout -/

/-- A part of the text, by the depth at which it stands. The first line of it is already indented. -/
abbrev Layout := Nat → List Char

/-- Four columns for each level. -/
def indent (depth : Nat) : List Char := List.replicate (4 * depth) ' '

/-- A part on one line. -/
def word (t : List Char) : Layout := fun _ => t

/-- Items between brackets, each on a line of its own with a label before it and a comma after it. -/
def bracket (opening : String) (items : List (String × Layout)) (closing : String) : Layout := fun depth =>
  opening.toList ++ ['\n'] ++
    items.flatMap (fun item => indent (depth + 1) ++ item.1.toList ++ item.2 (depth + 1) ++ [',', '\n']) ++
    indent depth ++ closing.toList

/-- A struct with named fields. -/
def record (name : String) (fields : List (String × Layout)) : Layout :=
  bracket (name ++ " {") (fields.map fun f => (f.1 ++ ": ", f.2)) "}"

/-- A struct or variant with fields by position. -/
def tuple (name : String) (fields : List Layout) : Layout :=
  if fields.isEmpty then word name.toList else bracket (name ++ "(") (fields.map fun f => ("", f)) ")"

def list (items : List Layout) : Layout :=
  if items.isEmpty then word ['[', ']'] else bracket "[" (items.map fun f => ("", f)) "]"

def option : Option Layout → Layout
  | none => word "None".toList
  | some x => tuple "Some" [x]

/-- Decimal. -/
def nat (n : Nat) : Layout := word (toString n).toList

/-- Decimal, with a minus sign for negative numbers. -/
def int (z : Int) : Layout := word (toString z).toList

/-- A character within quotes. -/
def escaped (std : StdText) (c : Char) : List Char :=
  match [('\x00', '0'), ('\t', 't'), ('\r', 'r'), ('\n', 'n'), ('"', '"'), ('\\', '\\')].lookup c with
  | some e => ['\\', e]
  | none => if std.special c then "\\u{".toList ++ Nat.toDigits 16 c.toNat ++ "}".toList else [c]

/-- A text within quotes. -/
def quoted (std : StdText) (cs : List Char) : Layout := word ("\"".toList ++ cs.flatMap (escaped std) ++ "\"".toList)

/-! ## Mnemonics -/

def load : LoadOp → String
  | .i32Load => "i32.load"
  | .i64Load => "i64.load"
  | .f32Load => "f32.load"
  | .f64Load => "f64.load"
  | .i32Load8S => "i32.load8_s"
  | .i32Load8U => "i32.load8_u"
  | .i32Load16S => "i32.load16_s"
  | .i32Load16U => "i32.load16_u"
  | .i64Load8S => "i64.load8_s"
  | .i64Load8U => "i64.load8_u"
  | .i64Load16S => "i64.load16_s"
  | .i64Load16U => "i64.load16_u"
  | .i64Load32S => "i64.load32_s"
  | .i64Load32U => "i64.load32_u"

def store : StoreOp → String
  | .i32Store => "i32.store"
  | .i64Store => "i64.store"
  | .f32Store => "f32.store"
  | .f64Store => "f64.store"
  | .i32Store8 => "i32.store8"
  | .i32Store16 => "i32.store16"
  | .i64Store8 => "i64.store8"
  | .i64Store16 => "i64.store16"
  | .i64Store32 => "i64.store32"

def num : NumOp → String
  | .i32Eqz => "i32.eqz"
  | .i32Eq => "i32.eq"
  | .i32Ne => "i32.ne"
  | .i32LtS => "i32.lt_s"
  | .i32LtU => "i32.lt_u"
  | .i32GtS => "i32.gt_s"
  | .i32GtU => "i32.gt_u"
  | .i32LeS => "i32.le_s"
  | .i32LeU => "i32.le_u"
  | .i32GeS => "i32.ge_s"
  | .i32GeU => "i32.ge_u"
  | .i64Eqz => "i64.eqz"
  | .i64Eq => "i64.eq"
  | .i64Ne => "i64.ne"
  | .i64LtS => "i64.lt_s"
  | .i64LtU => "i64.lt_u"
  | .i64GtS => "i64.gt_s"
  | .i64GtU => "i64.gt_u"
  | .i64LeS => "i64.le_s"
  | .i64LeU => "i64.le_u"
  | .i64GeS => "i64.ge_s"
  | .i64GeU => "i64.ge_u"
  | .f32Eq => "f32.eq"
  | .f32Ne => "f32.ne"
  | .f32Lt => "f32.lt"
  | .f32Gt => "f32.gt"
  | .f32Le => "f32.le"
  | .f32Ge => "f32.ge"
  | .f64Eq => "f64.eq"
  | .f64Ne => "f64.ne"
  | .f64Lt => "f64.lt"
  | .f64Gt => "f64.gt"
  | .f64Le => "f64.le"
  | .f64Ge => "f64.ge"
  | .i32Clz => "i32.clz"
  | .i32Ctz => "i32.ctz"
  | .i32Popcnt => "i32.popcnt"
  | .i32Add => "i32.add"
  | .i32Sub => "i32.sub"
  | .i32Mul => "i32.mul"
  | .i32DivS => "i32.div_s"
  | .i32DivU => "i32.div_u"
  | .i32RemS => "i32.rem_s"
  | .i32RemU => "i32.rem_u"
  | .i32And => "i32.and"
  | .i32Or => "i32.or"
  | .i32Xor => "i32.xor"
  | .i32Shl => "i32.shl"
  | .i32ShrS => "i32.shr_s"
  | .i32ShrU => "i32.shr_u"
  | .i32Rotl => "i32.rotl"
  | .i32Rotr => "i32.rotr"
  | .i64Clz => "i64.clz"
  | .i64Ctz => "i64.ctz"
  | .i64Popcnt => "i64.popcnt"
  | .i64Add => "i64.add"
  | .i64Sub => "i64.sub"
  | .i64Mul => "i64.mul"
  | .i64DivS => "i64.div_s"
  | .i64DivU => "i64.div_u"
  | .i64RemS => "i64.rem_s"
  | .i64RemU => "i64.rem_u"
  | .i64And => "i64.and"
  | .i64Or => "i64.or"
  | .i64Xor => "i64.xor"
  | .i64Shl => "i64.shl"
  | .i64ShrS => "i64.shr_s"
  | .i64ShrU => "i64.shr_u"
  | .i64Rotl => "i64.rotl"
  | .i64Rotr => "i64.rotr"
  | .f32Abs => "f32.abs"
  | .f32Neg => "f32.neg"
  | .f32Ceil => "f32.ceil"
  | .f32Floor => "f32.floor"
  | .f32Trunc => "f32.trunc"
  | .f32Nearest => "f32.nearest"
  | .f32Sqrt => "f32.sqrt"
  | .f32Add => "f32.add"
  | .f32Sub => "f32.sub"
  | .f32Mul => "f32.mul"
  | .f32Div => "f32.div"
  | .f32Min => "f32.min"
  | .f32Max => "f32.max"
  | .f32Copysign => "f32.copysign"
  | .f64Abs => "f64.abs"
  | .f64Neg => "f64.neg"
  | .f64Ceil => "f64.ceil"
  | .f64Floor => "f64.floor"
  | .f64Trunc => "f64.trunc"
  | .f64Nearest => "f64.nearest"
  | .f64Sqrt => "f64.sqrt"
  | .f64Add => "f64.add"
  | .f64Sub => "f64.sub"
  | .f64Mul => "f64.mul"
  | .f64Div => "f64.div"
  | .f64Min => "f64.min"
  | .f64Max => "f64.max"
  | .f64Copysign => "f64.copysign"
  | .i32WrapI64 => "i32.wrap_i64"
  | .i32TruncF32S => "i32.trunc_f32_s"
  | .i32TruncF32U => "i32.trunc_f32_u"
  | .i32TruncF64S => "i32.trunc_f64_s"
  | .i32TruncF64U => "i32.trunc_f64_u"
  | .i64ExtendI32S => "i64.extend_i32_s"
  | .i64ExtendI32U => "i64.extend_i32_u"
  | .i64TruncF32S => "i64.trunc_f32_s"
  | .i64TruncF32U => "i64.trunc_f32_u"
  | .i64TruncF64S => "i64.trunc_f64_s"
  | .i64TruncF64U => "i64.trunc_f64_u"
  | .f32ConvertI32S => "f32.convert_i32_s"
  | .f32ConvertI32U => "f32.convert_i32_u"
  | .f32ConvertI64S => "f32.convert_i64_s"
  | .f32ConvertI64U => "f32.convert_i64_u"
  | .f32DemoteF64 => "f32.demote_f64"
  | .f64ConvertI32S => "f64.convert_i32_s"
  | .f64ConvertI32U => "f64.convert_i32_u"
  | .f64ConvertI64S => "f64.convert_i64_s"
  | .f64ConvertI64U => "f64.convert_i64_u"
  | .f64PromoteF32 => "f64.promote_f32"
  | .i32ReinterpretF32 => "i32.reinterpret_f32"
  | .i64ReinterpretF64 => "i64.reinterpret_f64"
  | .f32ReinterpretI32 => "f32.reinterpret_i32"
  | .f64ReinterpretI64 => "f64.reinterpret_i64"

/-- The mnemonic of an instruction. `else` and `end` are those of the two markers. -/
def mnemonic : Instr → String
  | .unreachable => "unreachable"
  | .nop => "nop"
  | .block _ _ => "block"
  | .loop _ _ => "loop"
  | .ifElse _ _ _ => "if"
  | .elseMark => "else"
  | .endMark => "end"
  | .br _ => "br"
  | .brIf _ => "br_if"
  | .brTable _ _ => "br_table"
  | .ret => "return"
  | .call _ => "call"
  | .callIndirect _ _ => "call_indirect"
  | .drop => "drop"
  | .select => "select"
  | .localGet _ => "local.get"
  | .localSet _ => "local.set"
  | .localTee _ => "local.tee"
  | .globalGet _ => "global.get"
  | .globalSet _ => "global.set"
  | .load op _ _ => load op
  | .store op _ _ => store op
  | .memSize _ => "memory.size"
  | .memGrow _ => "memory.grow"
  | .constI32 _ => "i32.const"
  | .constI64 _ => "i64.const"
  | .constF32 _ => "f32.const"
  | .constF64 _ => "f64.const"
  | .num op => num op

/-- Dots and underscores are dropped; the letters after them and the first one are capitals. The flag is set where a capital is due. -/
def camel : Bool → List Char → List Char
  | _, [] => []
  | q, c :: cs => if c = '.' ∨ c = '_' then camel true cs else (if q then c.toUpper else c) :: camel false cs

/-- What an instruction with this mnemonic is called in the text: the mnemonic as it is usual for variants in Rust, `Mem` for memory, and `Const` before the type. -/
def title : String → String
  | "memory.size" => "MemSize"
  | "memory.grow" => "MemGrow"
  | "i32.const" => "ConstI32"
  | "i64.const" => "ConstI64"
  | "f32.const" => "ConstF32"
  | "f64.const" => "ConstF64"
  | s => String.ofList (camel true s.toList)

/-! ## Types and indices -/

def val : Val → Layout
  | .i32 => word "I32".toList
  | .i64 => word "I64".toList
  | .f32 => word "F32".toList
  | .f64 => word "F64".toList

def vals (ts : List Val) : Layout := list (ts.map val)

def retVal (t : RetVal) : Layout := tuple "RetVal" [vals t]

def limits (l : Limits) : Layout := record "Limits" [("min", nat l.min.toNat), ("max", option (l.max.map fun n => nat n.toNat))]

def elemTy : ElemTy → Layout
  | .funcRef => word "FuncRef".toList

def mutability : Mut → Layout
  | .const => word "Const".toList
  | .var => word "Var".toList

def funcTy (t : FuncTy) : Layout := record "Func" [("params", vals t.params), ("results", vals t.results)]
def tableTy (t : TableTy) : Layout := record "Table" [("lim", limits t.lim), ("elem", elemTy t.elem)]
def memTy (t : MemTy) : Layout := record "Mem" [("lim", limits t.lim)]
def globalTy (t : GlobalTy) : Layout := record "Global" [("mt", mutability t.mt), ("val", val t.val)]

/-- An index into the given index space. -/
def idx (space : String) (x : Idx) : Layout := tuple space [nat x.toNat]

/-! ## Instructions -/

mutual

/-- The immediates of an instruction, each as its type is shown. -/
def immediates (std : StdText) : Instr → List Layout
  | .block t b => [retVal t, tuple "Expr" [list (instrs std b)]]
  | .loop t b => [retVal t, tuple "Expr" [list (instrs std b)]]
  | .ifElse t a b => [retVal t, tuple "Expr" [list (instrs std a)], tuple "Expr" [list (instrs std b)]]
  | .br l => [idx "Label" l]
  | .brIf l => [idx "Label" l]
  | .brTable ls l => [list (ls.map (idx "Label")), idx "Label" l]
  | .call x => [idx "Func" x]
  | .callIndirect x y => [idx "Type" x, idx "Table" y]
  | .localGet x => [idx "Local" x]
  | .localSet x => [idx "Local" x]
  | .localTee x => [idx "Local" x]
  | .globalGet x => [idx "Global" x]
  | .globalSet x => [idx "Global" x]
  | .load _ align offset => [nat align.toNat, nat offset.toNat]
  | .store _ align offset => [nat align.toNat, nat offset.toNat]
  | .memSize x => [idx "Mem" x]
  | .memGrow x => [idx "Mem" x]
  | .constI32 v => [int v.toInt]
  | .constI64 v => [int v.toInt]
  | .constF32 v => [word (std.f32 v)]
  | .constF64 v => [word (std.f64 v)]
  | _ => []

def instrs (std : StdText) : List Instr → List Layout
  | [] => []
  | i :: is => tuple (title (mnemonic i)) (immediates std i) :: instrs std is

end

def expr (std : StdText) (e : Expr) : Layout := tuple "Expr" [list (instrs std e)]
def constExpr (std : StdText) (e : ConstExpr) : Layout := tuple "ConstExpr" [list (instrs std e)]

/-! ## Modules -/

def func (std : StdText) (f : Func) : Layout := record "Func" [("ty", idx "Type" f.ty), ("locals", vals f.locals), ("body", expr std f.body)]
def table (t : Table) : Layout := record "Table" [("ty", tableTy t.ty)]
def mem (m : Mem) : Layout := record "Mem" [("ty", memTy m.ty)]
def global (std : StdText) (g : Global) : Layout := record "Global" [("ty", globalTy g.ty), ("init", constExpr std g.init)]
def elem (std : StdText) (e : Elem) : Layout :=
  record "Elem" [("table", idx "Table" e.table), ("offset", constExpr std e.offset), ("init", list (e.init.map (idx "Func")))]
def data (std : StdText) (d : Data) : Layout :=
  record "Data" [("mem", idx "Mem" d.mem), ("offset", constExpr std d.offset), ("init", list (d.init.map fun b => nat b.toNat))]
def start (s : Start) : Layout := record "Start" [("func", idx "Func" s.func)]

def importDesc : ImportDesc → Layout
  | .func x => tuple "Func" [idx "Type" x]
  | .table t => tuple "Table" [tableTy t]
  | .mem t => tuple "Mem" [memTy t]
  | .global t => tuple "Global" [globalTy t]

def exportDesc : ExportDesc → Layout
  | .func x => tuple "Func" [idx "Func" x]
  | .table x => tuple "Table" [idx "Table" x]
  | .mem x => tuple "Mem" [idx "Mem" x]
  | .global x => tuple "Global" [idx "Global" x]

/-- `chars` gives the characters of a name. -/
def importItem (std : StdText) (chars : Name → List Char) (i : Import) : Layout :=
  record "Import" [("module", quoted std (chars i.module)), ("name", quoted std (chars i.name)), ("desc", importDesc i.desc)]

def exportItem (std : StdText) (chars : Name → List Char) (e : Export) : Layout :=
  record "Export" [("name", quoted std (chars e.name)), ("desc", exportDesc e.desc)]

def wholeModule (std : StdText) (chars : Name → List Char) (m : Module) : Layout :=
  record "Module" [
    ("types", list (m.types.map funcTy)),
    ("funcs", list (m.funcs.map (func std))),
    ("tables", list (m.tables.map table)),
    ("mems", list (m.mems.map mem)),
    ("globals", list (m.globals.map (global std))),
    ("elem", list (m.elem.map (elem std))),
    ("data", list (m.data.map (data std))),
    ("start", option (m.start.map start)),
    ("imports", list (m.imports.map (importItem std chars))),
    ("exports", list (m.exports.map (exportItem std chars)))]

end Whasm.Spec.Show
