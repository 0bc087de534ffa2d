import Verif.Spec.Grammar
import Verif.Spec.Occurs

/-!
# An encoder

The crate has none. Integers are encoded in as few bytes as possible, empty sections are left out, equal adjacent local variables are
joined to runs, and there are no custom sections.
-/

namespace Whasm.Spec

/-- The length, then the elements. -/
def encVec {α : Type} (enc : α → List Byte) (xs : List α) : List Byte := encU xs.length ++ xs.flatMap enc

def encByte (b : Byte) : List Byte := [b]

def encName (n : Name) : List Byte := encVec encByte n

def encIdx (i : Idx) : List Byte := encU i.toNat

def encVal : Val → List Byte
  | .i32 => [0x7F]
  | .i64 => [0x7E]
  | .f32 => [0x7D]
  | .f64 => [0x7C]

def encRetVal : RetVal → List Byte
  | [] => [0x40]
  | t :: _ => encVal t

def encFuncTy (t : FuncTy) : List Byte := 0x60 :: encVec encVal t.params ++ encVec encVal t.results

def encLimits (l : Limits) : List Byte :=
  match l.max with
  | none => 0x00 :: encIdx l.min
  | some m => 0x01 :: encIdx l.min ++ encIdx m

def encElemTy : ElemTy → List Byte
  | .funcRef => [0x70]

def encTableTy (t : TableTy) : List Byte := encElemTy t.elem ++ encLimits t.lim

def encMut : Mut → List Byte
  | .const => [0x00]
  | .var => [0x01]

def encGlobalTy (t : GlobalTy) : List Byte := encVal t.val ++ encMut t.mt

mutual

def encInstr : Instr → List Byte
  | .unreachable => [0x00]
  | .nop => [0x01]
  | .block t b => 0x02 :: encRetVal t ++ encInstrs b ++ [0x0B]
  | .loop t b => 0x03 :: encRetVal t ++ encInstrs b ++ [0x0B]
  | .ifElse t a [] => 0x04 :: encRetVal t ++ encInstrs a ++ [0x0B]
  | .ifElse t a (i :: is) => 0x04 :: encRetVal t ++ encInstrs a ++ [0x05] ++ (encInstr i ++ encInstrs is) ++ [0x0B]
  | .elseMark => [0x05]
  | .endMark => [0x0B]
  | .br l => 0x0C :: encIdx l
  | .brIf l => 0x0D :: encIdx l
  | .brTable ls l => 0x0E :: encVec encIdx ls ++ encIdx l
  | .ret => [0x0F]
  | .call f => 0x10 :: encIdx f
  | .callIndirect t x => 0x11 :: encIdx t ++ encIdx x
  | .drop => [0x1A]
  | .select => [0x1B]
  | .localGet i => 0x20 :: encIdx i
  | .localSet i => 0x21 :: encIdx i
  | .localTee i => 0x22 :: encIdx i
  | .globalGet i => 0x23 :: encIdx i
  | .globalSet i => 0x24 :: encIdx i
  | .load op x y => loadOpcode op :: encIdx x ++ encIdx y
  | .store op x y => storeOpcode op :: encIdx x ++ encIdx y
  | .memSize m => 0x3F :: encIdx m
  | .memGrow m => 0x40 :: encIdx m
  | .constI32 v => 0x41 :: encS v.toInt
  | .constI64 v => 0x42 :: encS v.toInt
  | .constF32 v => 0x43 :: leBytes 4 v.toNat
  | .constF64 v => 0x44 :: leBytes 8 v.toNat
  | .num op => [numOpcode op]

def encInstrs : List Instr → List Byte
  | [] => []
  | i :: is => encInstr i ++ encInstrs is

end

def encExpr (e : Expr) : List Byte := encInstrs e ++ [0x0B]

def encSized (b : List Byte) : List Byte := encU b.length ++ b

def encImportDesc : ImportDesc → List Byte
  | .func i => 0x00 :: encIdx i
  | .table t => 0x01 :: encTableTy t
  | .mem t => 0x02 :: encLimits t.lim
  | .global t => 0x03 :: encGlobalTy t

def encImport (i : Import) : List Byte := encName i.module ++ encName i.name ++ encImportDesc i.desc

def encExportDesc : ExportDesc → List Byte
  | .func i => 0x00 :: encIdx i
  | .table i => 0x01 :: encIdx i
  | .mem i => 0x02 :: encIdx i
  | .global i => 0x03 :: encIdx i

def encExport (e : Export) : List Byte := encName e.name ++ encExportDesc e.desc

def encTable (t : Table) : List Byte := encTableTy t.ty

def encMem (m : Mem) : List Byte := encLimits m.ty.lim

def encGlobal (g : Global) : List Byte := encGlobalTy g.ty ++ encExpr g.init

def encElem (e : Elem) : List Byte := encIdx e.table ++ encExpr e.offset ++ encVec encIdx e.init

def encData (d : Data) : List Byte := encIdx d.mem ++ encExpr d.offset ++ encVec encByte d.init

/-- Runs of equal local variables, each of less than 2^32. -/
def runs : List Val → List (Nat × Val)
  | [] => []
  | t :: ts =>
    match runs ts with
    | [] => [(1, t)]
    | (n, u) :: rs => if u = t ∧ n + 1 < 2 ^ 32 then (n + 1, t) :: rs else (1, t) :: (n, u) :: rs

def encRun (r : Nat × Val) : List Byte := encU r.1 ++ encVal r.2

def encFunc (f : List Val × Expr) : List Byte := encVec encRun (runs f.1) ++ encExpr f.2

/-- The contents of the sections other than the start section. -/
structure Contents where
  types : List Byte
  imports : List Byte
  tys : List Byte
  tables : List Byte
  mems : List Byte
  globals : List Byte
  exports : List Byte
  elem : List Byte
  code : List Byte
  data : List Byte

def contents (m : Module) : Contents where
  types := encVec encFuncTy m.types
  imports := encVec encImport m.imports
  tys := encVec encIdx (m.funcs.map (·.ty))
  tables := encVec encTable m.tables
  mems := encVec encMem m.mems
  globals := encVec encGlobal m.globals
  exports := encVec encExport m.exports
  elem := encVec encElem m.elem
  code := encVec (fun f => encSized (encFunc f)) (m.funcs.map fun f => (f.locals, f.body))
  data := encVec encData m.data

/-- A section, left out if there are no items. -/
def encSection (id : Byte) {α : Type} (items : List α) (content : List Byte) : List Byte :=
  if items.isEmpty then [] else id :: encSized content

def encStart : Option Start → List Byte
  | none => []
  | some s => 0x08 :: encSized (encIdx s.func)

def encModule (m : Module) : List Byte :=
  let c := contents m
  [0x00, 0x61, 0x73, 0x6D, 0x01, 0x00, 0x00, 0x00] ++ encSection 0x01 m.types c.types ++ encSection 0x02 m.imports c.imports ++
    encSection 0x03 m.funcs c.tys ++ encSection 0x04 m.tables c.tables ++ encSection 0x05 m.mems c.mems ++
    encSection 0x06 m.globals c.globals ++ encSection 0x07 m.exports c.exports ++ encStart m.start ++
    encSection 0x09 m.elem c.elem ++ encSection 0x0A m.funcs c.code ++ encSection 0x0B m.data c.data

/-- Instructions that can be written down: not `End` or `Else`, block types of at most one value, and what is allowed in place of
the reserved byte. -/
def Writable (D : Dialect) : Instr → Prop
  | .elseMark | .endMark => False
  | .block t _ | .loop t _ | .ifElse t _ _ => t.length ≤ 1
  | .callIndirect _ x | .memSize x | .memGrow x => ∃ b, D.reserved b x
  | _ => True

/-- The modules for which the format is good enough: names are strings, expressions can be written down, the number of locals is
admissible, no section is larger than its size field can say. -/
structure Encodable (D : Dialect) (m : Module) : Prop where
  imports : ∀ i ∈ m.imports, IsUtf8 i.module ∧ IsUtf8 i.name
  exports : ∀ e ∈ m.exports, IsUtf8 e.name
  exprs : ∀ e ∈ exprsOf m, ∀ i, Occurs i e → Writable D i
  locals : ∀ f ∈ m.funcs, D.locals f.locals.length
  types_size : (contents m).types.length < 2 ^ 32
  imports_size : (contents m).imports.length < 2 ^ 32
  tys_size : (contents m).tys.length < 2 ^ 32
  tables_size : (contents m).tables.length < 2 ^ 32
  mems_size : (contents m).mems.length < 2 ^ 32
  globals_size : (contents m).globals.length < 2 ^ 32
  exports_size : (contents m).exports.length < 2 ^ 32
  elem_size : (contents m).elem.length < 2 ^ 32
  code_size : (contents m).code.length < 2 ^ 32
  data_size : (contents m).data.length < 2 ^ 32

end Whasm.Spec
