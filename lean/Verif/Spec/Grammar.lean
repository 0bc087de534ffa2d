import Verif.Spec.Leb
import Verif.Spec.Opcodes

/-!
# The binary grammar (W3C WebAssembly 1.0, chapter 5)

Relations between byte strings and the abstract syntax they denote, in the style of the document. The relations are
parameterised by a `Dialect` for the few places where the code deliberately or accidentally accepts more than
the document does: `Dialect.w3c` is the document, `Dialect.code` what the crate accepts.
-/

namespace Whasm.Spec

/-- The points at which the code and the document differ. -/
structure Dialect where
  /-- encodings of `u32` -/
  u32 : List Byte → U32 → Prop
  /-- encodings of `i32` (as `s32`) -/
  s32 : List Byte → I32 → Prop
  /-- encodings of `i64` (as `s64`) -/
  s64 : List Byte → I64 → Prop
  /-- the reserved byte after `call_indirect x`, `memory.size`, `memory.grow` -/
  reserved : List Byte → U32 → Prop
  /-- admissible number of local variables of a function -/
  locals : Nat → Prop
  /-- may the code section be missing although the function section is not empty (the functions are then lost)? -/
  codeMayBeMissing : Prop

/-- The W3C document: integers of bounded length (5.2.2), reserved bytes are zero (5.4.1, 5.4.4), less than 2^32 locals (5.5.13),
as many bodies as function type indices (5.5.15). -/
def Dialect.w3c : Dialect where
  u32 b v := UN 32 b v.toNat
  s32 b v := SN 32 b v.toInt
  s64 b v := SN 64 b v.toInt
  reserved b v := b = [0x00] ∧ v = 0
  locals n := n < 2 ^ 32
  codeMayBeMissing := False

/-- The crate: integers of any length, an index (any `u32`) in place of the reserved byte, any number of locals,
the code section may be missing. -/
def Dialect.code : Dialect where
  u32 b v := Group b ∧ uval b = v.toNat
  s32 b v := Group b ∧ sval b = v.toInt
  s64 b v := Group b ∧ sval b = v.toInt
  reserved b v := Group b ∧ uval b = v.toNat
  locals _ := True
  codeMayBeMissing := True

variable (D : Dialect)

/-! ## 5.1.3 Vectors -/

/-- Consecutive encodings of the elements of a list. -/
inductive GSeq {α : Type} (G : List Byte → α → Prop) : List Byte → List α → Prop
  | nil : GSeq G [] []
  | cons {b bs : List Byte} {x : α} {xs : List α} : G b x → GSeq G bs xs → GSeq G (b ++ bs) (x :: xs)

/-- `vec(B)`: the length as `u32`, then the elements. -/
inductive GVec {α : Type} (G : List Byte → α → Prop) : List Byte → List α → Prop
  | mk {n bs : List Byte} {len : U32} {xs : List α} :
      D.u32 n len → xs.length = len.toNat → GSeq G bs xs → GVec G (n ++ bs) xs

/-! ## 5.2 Values -/

/-- A single byte (5.2.1). -/
inductive GByte : List Byte → Byte → Prop
  | mk (b : Byte) : GByte [b] b

/-- The value of a little-endian sequence of bytes. -/
def leVal : List Byte → Nat
  | [] => 0
  | b :: bs => b.toNat + 256 * leVal bs

/-- `k` bytes, the least significant first. -/
def leBytes : Nat → Nat → List Byte
  | 0, _ => []
  | k + 1, n => UInt8.ofNat (n % 256) :: leBytes k (n / 256)

/-- `fN`: the bit pattern in little-endian byte order (5.2.3). -/
inductive GFloat (bytes : Nat) : List Byte → BitVec (8 * bytes) → Prop
  | mk {b : List Byte} {v : BitVec (8 * bytes)} : b.length = bytes → leVal b = v.toNat → GFloat bytes b v

/-- The byte string is the UTF-8 encoding of a sequence of Unicode scalar values. -/
def IsUtf8 (b : List Byte) : Prop := ∃ cs : List Char, b = cs.flatMap String.utf8EncodeChar

/-- `name` (5.2.4); a name is represented by its UTF-8 bytes. -/
inductive GName : List Byte → Name → Prop
  | mk {b : List Byte} {n : Name} : GVec D GByte b n → IsUtf8 n → GName b n

/-! ## 5.3 Types -/

inductive GVal : List Byte → Val → Prop
  | i32 : GVal [0x7F] .i32
  | i64 : GVal [0x7E] .i64
  | f32 : GVal [0x7D] .f32
  | f64 : GVal [0x7C] .f64

/-- Result (block) types: at most one value. -/
inductive GRetVal : List Byte → RetVal → Prop
  | empty : GRetVal [0x40] []
  | val {b : List Byte} {t : Val} : GVal b t → GRetVal b [t]

inductive GFuncTy : List Byte → FuncTy → Prop
  | mk {b1 b2 : List Byte} {ps rs : List Val} : GVec D GVal b1 ps → GVec D GVal b2 rs →
      GFuncTy (0x60 :: b1 ++ b2) { params := ps, results := rs }

inductive GLimits : List Byte → Limits → Prop
  | min {b : List Byte} {n : U32} : D.u32 b n → GLimits (0x00 :: b) { min := n, max := none }
  | minMax {b1 b2 : List Byte} {n m : U32} : D.u32 b1 n → D.u32 b2 m →
      GLimits (0x01 :: b1 ++ b2) { min := n, max := some m }

inductive GElemTy : List Byte → ElemTy → Prop
  | funcRef : GElemTy [0x70] .funcRef

inductive GTableTy : List Byte → TableTy → Prop
  | mk {b1 b2 : List Byte} {e : ElemTy} {l : Limits} : GElemTy b1 e → GLimits D b2 l →
      GTableTy (b1 ++ b2) { lim := l, elem := e }

inductive GMemTy : List Byte → MemTy → Prop
  | mk {b : List Byte} {l : Limits} : GLimits D b l → GMemTy b { lim := l }

inductive GMut : List Byte → Mut → Prop
  | const : GMut [0x00] .const
  | var : GMut [0x01] .var

inductive GGlobalTy : List Byte → GlobalTy → Prop
  | mk {b1 b2 : List Byte} {t : Val} {m : Mut} : GVal b1 t → GMut b2 m →
      GGlobalTy (b1 ++ b2) { mt := m, val := t }

/-! ## 5.4 Instructions -/

mutual

/-- A single instruction. -/
inductive GInstr : List Byte → Instr → Prop
  | unreachable : GInstr [0x00] .unreachable
  | nop : GInstr [0x01] .nop
  | block {b1 b2 : List Byte} {t : RetVal} {is : List Instr} : GRetVal b1 t → GInstrs b2 is →
      GInstr (0x02 :: b1 ++ b2 ++ [0x0B]) (.block t is)
  | loop {b1 b2 : List Byte} {t : RetVal} {is : List Instr} : GRetVal b1 t → GInstrs b2 is →
      GInstr (0x03 :: b1 ++ b2 ++ [0x0B]) (.loop t is)
  | ifThen {b1 b2 : List Byte} {t : RetVal} {is : List Instr} : GRetVal b1 t → GInstrs b2 is →
      GInstr (0x04 :: b1 ++ b2 ++ [0x0B]) (.ifElse t is [])
  | ifElse {b1 b2 b3 : List Byte} {t : RetVal} {is js : List Instr} : GRetVal b1 t → GInstrs b2 is → GInstrs b3 js →
      GInstr (0x04 :: b1 ++ b2 ++ [0x05] ++ b3 ++ [0x0B]) (.ifElse t is js)
  | br {b : List Byte} {l : Idx} : D.u32 b l → GInstr (0x0C :: b) (.br l)
  | brIf {b : List Byte} {l : Idx} : D.u32 b l → GInstr (0x0D :: b) (.brIf l)
  | brTable {b1 b2 : List Byte} {ls : List Idx} {l : Idx} : GVec D D.u32 b1 ls → D.u32 b2 l →
      GInstr (0x0E :: b1 ++ b2) (.brTable ls l)
  | ret : GInstr [0x0F] .ret
  | call {b : List Byte} {f : Idx} : D.u32 b f → GInstr (0x10 :: b) (.call f)
  | callIndirect {b1 b2 : List Byte} {ty table : Idx} : D.u32 b1 ty → D.reserved b2 table →
      GInstr (0x11 :: b1 ++ b2) (.callIndirect ty table)
  | drop : GInstr [0x1A] .drop
  | select : GInstr [0x1B] .select
  | localGet {b : List Byte} {i : Idx} : D.u32 b i → GInstr (0x20 :: b) (.localGet i)
  | localSet {b : List Byte} {i : Idx} : D.u32 b i → GInstr (0x21 :: b) (.localSet i)
  | localTee {b : List Byte} {i : Idx} : D.u32 b i → GInstr (0x22 :: b) (.localTee i)
  | globalGet {b : List Byte} {i : Idx} : D.u32 b i → GInstr (0x23 :: b) (.globalGet i)
  | globalSet {b : List Byte} {i : Idx} : D.u32 b i → GInstr (0x24 :: b) (.globalSet i)
  | load {b1 b2 : List Byte} {x y : U32} (op : LoadOp) : D.u32 b1 x → D.u32 b2 y →
      GInstr (loadOpcode op :: b1 ++ b2) (.load op x y)
  | store {b1 b2 : List Byte} {x y : U32} (op : StoreOp) : D.u32 b1 x → D.u32 b2 y →
      GInstr (storeOpcode op :: b1 ++ b2) (.store op x y)
  | memSize {b : List Byte} {m : Idx} : D.reserved b m → GInstr (0x3F :: b) (.memSize m)
  | memGrow {b : List Byte} {m : Idx} : D.reserved b m → GInstr (0x40 :: b) (.memGrow m)
  | constI32 {b : List Byte} {v : I32} : D.s32 b v → GInstr (0x41 :: b) (.constI32 v)
  | constI64 {b : List Byte} {v : I64} : D.s64 b v → GInstr (0x42 :: b) (.constI64 v)
  | constF32 {b : List Byte} {v : F32} : GFloat 4 b v → GInstr (0x43 :: b) (.constF32 v)
  | constF64 {b : List Byte} {v : F64} : GFloat 8 b v → GInstr (0x44 :: b) (.constF64 v)
  | num (op : NumOp) : GInstr [numOpcode op] (.num op)

/-- A sequence of instructions. -/
inductive GInstrs : List Byte → List Instr → Prop
  | nil : GInstrs [] []
  | cons {b bs : List Byte} {i : Instr} {is : List Instr} : GInstr b i → GInstrs bs is → GInstrs (b ++ bs) (i :: is)

end

/-- Expressions, constant or not (5.4.6). -/
inductive GExpr : List Byte → Expr → Prop
  | mk {b : List Byte} {is : List Instr} : GInstrs D b is → GExpr (b ++ [0x0B]) is

/-! ## 5.5 Modules -/

/-- `n` bytes announced by a `u32` holding exactly a `G`. -/
inductive GSized {α : Type} (G : List Byte → α → Prop) : List Byte → α → Prop
  | mk {n b : List Byte} {len : U32} {x : α} : D.u32 n len → b.length = len.toNat → G b x → GSized G (n ++ b) x

/-- Section with number `id` and content `G` (5.5.2). -/
inductive GSection {α : Type} (id : Byte) (G : List Byte → α → Prop) : List Byte → α → Prop
  | mk {b : List Byte} {x : α} : GSized D G b x → GSection id G (id :: b) x

/-- A section whose content is a vector; it may be absent, which stands for the empty vector. -/
inductive GVecSection {α : Type} (id : Byte) (G : List Byte → α → Prop) : List Byte → List α → Prop
  | absent : GVecSection id G [] []
  | present {b : List Byte} {xs : List α} : GSection D id (GVec D G) b xs → GVecSection id G b xs

/-- The content of a custom section: a name and arbitrary bytes (5.5.3). -/
inductive GCustom : List Byte → Unit → Prop
  | mk {b : List Byte} {n : Name} (rest : List Byte) : GName D b n → GCustom (b ++ rest) ()

/-- Any number of custom sections. -/
inductive GCustoms : List Byte → Prop
  | nil : GCustoms []
  | cons {b bs : List Byte} : GSection D 0x00 (GCustom D) b () → GCustoms bs → GCustoms (b ++ bs)

inductive GImportDesc : List Byte → ImportDesc → Prop
  | func {b : List Byte} {i : Idx} : D.u32 b i → GImportDesc (0x00 :: b) (.func i)
  | table {b : List Byte} {t : TableTy} : GTableTy D b t → GImportDesc (0x01 :: b) (.table t)
  | mem {b : List Byte} {t : MemTy} : GMemTy D b t → GImportDesc (0x02 :: b) (.mem t)
  | global {b : List Byte} {t : GlobalTy} : GGlobalTy b t → GImportDesc (0x03 :: b) (.global t)

inductive GImport : List Byte → Import → Prop
  | mk {b1 b2 b3 : List Byte} {m n : Name} {d : ImportDesc} : GName D b1 m → GName D b2 n → GImportDesc D b3 d →
      GImport (b1 ++ b2 ++ b3) { module := m, name := n, desc := d }

inductive GExportDesc : List Byte → ExportDesc → Prop
  | func {b : List Byte} {i : Idx} : D.u32 b i → GExportDesc (0x00 :: b) (.func i)
  | table {b : List Byte} {i : Idx} : D.u32 b i → GExportDesc (0x01 :: b) (.table i)
  | mem {b : List Byte} {i : Idx} : D.u32 b i → GExportDesc (0x02 :: b) (.mem i)
  | global {b : List Byte} {i : Idx} : D.u32 b i → GExportDesc (0x03 :: b) (.global i)

inductive GExport : List Byte → Export → Prop
  | mk {b1 b2 : List Byte} {n : Name} {d : ExportDesc} : GName D b1 n → GExportDesc D b2 d →
      GExport (b1 ++ b2) { name := n, desc := d }

inductive GTable : List Byte → Table → Prop
  | mk {b : List Byte} {t : TableTy} : GTableTy D b t → GTable b { ty := t }

inductive GMem : List Byte → Mem → Prop
  | mk {b : List Byte} {t : MemTy} : GMemTy D b t → GMem b { ty := t }

inductive GGlobal : List Byte → Global → Prop
  | mk {b1 b2 : List Byte} {t : GlobalTy} {e : Expr} : GGlobalTy b1 t → GExpr D b2 e →
      GGlobal (b1 ++ b2) { ty := t, init := e }

inductive GStart : List Byte → Start → Prop
  | mk {b : List Byte} {f : Idx} : D.u32 b f → GStart b { func := f }

inductive GElem : List Byte → Elem → Prop
  | mk {b1 b2 b3 : List Byte} {t : Idx} {e : Expr} {fs : List Idx} : D.u32 b1 t → GExpr D b2 e → GVec D D.u32 b3 fs →
      GElem (b1 ++ b2 ++ b3) { table := t, offset := e, init := fs }

inductive GData : List Byte → Data → Prop
  | mk {b1 b2 b3 : List Byte} {m : Idx} {e : Expr} {bs : List Byte} : D.u32 b1 m → GExpr D b2 e → GVec D GByte b3 bs →
      GData (b1 ++ b2 ++ b3) { mem := m, offset := e, init := bs }

/-- A run of local variables of the same type (5.5.13). -/
inductive GLocals : List Byte → Nat × Val → Prop
  | mk {b1 b2 : List Byte} {n : U32} {t : Val} : D.u32 b1 n → GVal b2 t → GLocals (b1 ++ b2) (n.toNat, t)

/-- The local variables that a list of runs stands for. -/
def expand (runs : List (Nat × Val)) : List Val := runs.flatMap fun (n, t) => List.replicate n t

/-- Locals and body of a function (5.5.13). -/
inductive GFunc : List Byte → List Val × Expr → Prop
  | mk {b1 b2 : List Byte} {runs : List (Nat × Val)} {e : Expr} : GVec D (GLocals D) b1 runs →
      D.locals (expand runs).length → GExpr D b2 e → GFunc (b1 ++ b2) (expand runs, e)

/-- The pairing of the type indices of the function section with the bodies of the code section (5.5.15). -/
def pairFuncs (tys : List Idx) (codes : List (List Val × Expr)) : List Func :=
  List.zipWith (fun ty c => { ty := ty, locals := c.1, body := c.2 }) tys codes

/-- Function and code sections. In the dialect of the code an absent code section goes with any
function section. -/
inductive GFuncs (tys : List Idx) : List Byte → List Func → Prop
  | paired {b : List Byte} {codes : List (List Val × Expr)} :
      GVecSection D 0x0A (GSized D (GFunc D)) b codes → codes.length = tys.length → GFuncs tys b (pairFuncs tys codes)
  | missing : D.codeMayBeMissing → GFuncs tys [] []

/-- The optional start section. -/
inductive GStartSection : List Byte → Option Start → Prop
  | absent : GStartSection [] none
  | present {b : List Byte} {s : Start} : GSection D 0x08 (GStart D) b s → GStartSection b (some s)

/-- A module (5.5.15): magic, version, sections in order, custom sections anywhere. -/
inductive GModule : List Byte → Module → Prop
  | mk {c0 c1 c2 c3 c4 c5 c6 c7 c8 c9 c10 c11 : List Byte}
      {b1 b2 b3 b4 b5 b6 b7 b8 b9 b10 b11 : List Byte} {tys : List Idx} {m : Module} :
      GCustoms D c0 → GVecSection D 0x01 (GFuncTy D) b1 m.types →
      GCustoms D c1 → GVecSection D 0x02 (GImport D) b2 m.imports →
      GCustoms D c2 → GVecSection D 0x03 D.u32 b3 tys →
      GCustoms D c3 → GVecSection D 0x04 (GTable D) b4 m.tables →
      GCustoms D c4 → GVecSection D 0x05 (GMem D) b5 m.mems →
      GCustoms D c5 → GVecSection D 0x06 (GGlobal D) b6 m.globals →
      GCustoms D c6 → GVecSection D 0x07 (GExport D) b7 m.exports →
      GCustoms D c7 → GStartSection D b8 m.start →
      GCustoms D c8 → GVecSection D 0x09 (GElem D) b9 m.elem →
      GCustoms D c9 → GFuncs D tys b10 m.funcs →
      GCustoms D c10 → GVecSection D 0x0B (GData D) b11 m.data →
      GCustoms D c11 →
      GModule ([0x00, 0x61, 0x73, 0x6D, 0x01, 0x00, 0x00, 0x00]
        ++ (c0 ++ (b1 ++ (c1 ++ (b2 ++ (c2 ++ (b3 ++ (c3 ++ (b4 ++ (c4 ++ (b5 ++ (c5 ++ (b6 ++ (c6 ++ (b7
        ++ (c7 ++ (b8 ++ (c8 ++ (b9 ++ (c9 ++ (b10 ++ (c10 ++ (b11 ++ c11))))))))))))))))))))))) m

end Whasm.Spec

namespace Whasm
open Spec

/-- `D'` admits whatever `D` admits. -/
structure DialectLe (D D' : Dialect) : Prop where
  u32 : ∀ {b v}, D.u32 b v → D'.u32 b v
  s32 : ∀ {b v}, D.s32 b v → D'.s32 b v
  s64 : ∀ {b v}, D.s64 b v → D'.s64 b v
  reserved : ∀ {b v}, D.reserved b v → D'.reserved b v
  locals : ∀ {n}, D.locals n → D'.locals n
  code : D.codeMayBeMissing → D'.codeMayBeMissing

end Whasm
