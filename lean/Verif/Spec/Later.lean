import Verif.Spec.PassFile
import Verif.Spec.Sections
import Verif.Spec.Occurs

/-!
# Files of later versions of WebAssembly

The version field of a file has been 1 ever since, so that files of WebAssembly 2.0, 3.0 and of proposals look like files of 1.0 and differ only in what they contain. Here is what such a file says, written from
the documents of 2.0 and 3.0 (chapter 5). Where 1.0 has the construct, it is given in full. What 1.0 does not have is `later` with its bytes: it begins with a byte that 1.0 does not have at this place, and which
bytes follow is left open, so that the grammar covers 2.0, 3.0 and the proposals that use new bytes, and more.

Three constructs of 1.0 have been given more room inside of their numbers. What was the index of a table at the beginning of an element segment, and that of a memory at the beginning of a data segment, is now a
number from 0 to 7, or to 2, that says which form the segment has; only form 0 is as in 1.0 (2.0, 5.5.12, 5.5.14). The alignment of a memory access, if it is 64 or more, announces that the index of a memory
follows and counts 64 less (3.0, 5.4.7).
-/

namespace Whasm.Spec.Later
open Pass

/-- Integers are as in 1.0; what was a reserved zero byte is an index (2.0, 5.4.1). -/
def dialect : Dialect := { Dialect.w3c with reserved := fun b v => UN 32 b v.toNat }

/-! ## Types (5.3) -/

inductive ValTy where
  | old (t : Val)
  | later (b : List Byte)

inductive GValTy : List Byte → ValTy → Prop
  | old {b : List Byte} {t : Val} : GVal b t → GValTy b (.old t)
  | later {x : Byte} {b : List Byte} : x ∉ [0x7F, 0x7E, 0x7D, 0x7C] → GValTy (x :: b) (.later (x :: b))

inductive DefTy where
  | func (params results : List ValTy)
  | later (b : List Byte)

inductive GDefTy : List Byte → DefTy → Prop
  | func {b1 b2 : List Byte} {ps rs : List ValTy} : GVec dialect GValTy b1 ps → GVec dialect GValTy b2 rs → GDefTy (0x60 :: b1 ++ b2) (.func ps rs)
  | later {x : Byte} {b : List Byte} : x ≠ 0x60 → GDefTy (x :: b) (.later (x :: b))

/-- The numbers of limits have 64 bits in 3.0. -/
inductive Lim where
  | old (min : Nat) (max : Option Nat)
  | later (b : List Byte)

inductive GLim : List Byte → Lim → Prop
  | min {b : List Byte} {n : Nat} : UN 64 b n → GLim (0x00 :: b) (.old n none)
  | minMax {b1 b2 : List Byte} {n m : Nat} : UN 64 b1 n → UN 64 b2 m → GLim (0x01 :: b1 ++ b2) (.old n (some m))
  | later {x : Byte} {b : List Byte} : x ∉ [0x00, 0x01] → GLim (x :: b) (.later (x :: b))

inductive TabTy where
  | old (lim : Lim)
  | later (b : List Byte)

/-- Tables of functions; other element types, and tables with an initial value, begin with another byte. -/
inductive GTabTy : List Byte → TabTy → Prop
  | old {b : List Byte} {l : Lim} : GLim b l → GTabTy (0x70 :: b) (.old l)
  | later {x : Byte} {b : List Byte} : x ≠ 0x70 → GTabTy (x :: b) (.later (x :: b))

inductive Mutability where
  | old (m : Mut)
  | later (b : List Byte)

inductive GMutability : List Byte → Mutability → Prop
  | old {b : List Byte} {m : Mut} : GMut b m → GMutability b (.old m)
  | later {x : Byte} {b : List Byte} : x ∉ [0x00, 0x01] → GMutability (x :: b) (.later (x :: b))

structure GlobTy where
  val : ValTy
  mt : Mutability

inductive GGlobTy : List Byte → GlobTy → Prop
  | mk {b1 b2 : List Byte} {t : ValTy} {m : Mutability} : GValTy b1 t → GMutability b2 m → GGlobTy (b1 ++ b2) ⟨t, m⟩

/-! ## Instructions (5.4) -/

/-- The opcodes of 1.0. -/
def known (x : Byte) : Bool :=
  x ≤ 0x05 || (0x0B ≤ x && x ≤ 0x11) || x == 0x1A || x == 0x1B || (0x20 ≤ x && x ≤ 0x24) || (0x28 ≤ x && x ≤ 0xBF)

/-- What is read at a time. -/
inductive Code where
  /-- as in 1.0, other than memory accesses -/
  | old (op : Op)
  | load (op : LoadOp) (mem align offset : Nat)
  | store (op : StoreOp) (mem align offset : Nat)
  /-- a later instruction, or a block with a type that 1.0 does not have; `opens` says whether there will be an `end` for it -/
  | later (opens : Bool) (b : List Byte)

/-- Memory accesses. -/
def Access : Op → Prop
  | .instr (.load _ _ _) | .instr (.store _ _ _) => True
  | _ => False

/-- `memarg` (3.0, 5.4.7): memory, alignment, offset. -/
inductive GMemArg : List Byte → Nat × Nat × Nat → Prop
  | old {b1 b2 : List Byte} {n o : Nat} : UN 32 b1 n → n < 64 → UN 64 b2 o → GMemArg (b1 ++ b2) (0, n, o)
  | at {b1 b2 b3 : List Byte} {n x o : Nat} : UN 32 b1 n → 64 ≤ n → n < 128 → UN 32 b2 x → UN 64 b3 o → GMemArg (b1 ++ (b2 ++ b3)) (x, n - 64, o)

inductive GCodeOp : List Byte → Code → Prop
  | old {b : List Byte} {op : Op} : GOp dialect b op → ¬ Access op → GCodeOp b (.old op)
  | load {b : List Byte} {x a o : Nat} (op : LoadOp) : GMemArg b (x, a, o) → GCodeOp (loadOpcode op :: b) (.load op x a o)
  | store {b : List Byte} {x a o : Nat} (op : StoreOp) : GMemArg b (x, a, o) → GCodeOp (storeOpcode op :: b) (.store op x a o)
  | later {x : Byte} {b : List Byte} (opens : Bool) : known x = false → GCodeOp (x :: b) (.later opens (x :: b))
  | block {x t : Byte} {b : List Byte} : x ∈ [0x02, 0x03, 0x04] → t ∉ [0x40, 0x7F, 0x7E, 0x7D, 0x7C] → GCodeOp (x :: t :: b) (.later true (x :: t :: b))

/-- The number of `end`s that are still to come, if there are `n` besides the one that closes what we are in. -/
def pending (n : Nat) : Code → Nat
  | .old .endOp => n
  | .old (.block _) | .old (.loop _) | .old (.ifOp _) | .later true _ => n + 2
  | _ => n + 1

/-- There are exactly as many `end`s as needed, the last one at the end. -/
def Closes : Nat → List Code → Prop
  | 0, [] => True
  | n + 1, c :: cs => Closes (pending n c) cs
  | _, _ => False

/-- Expressions, constant or not. -/
inductive GCodeExpr : List Byte → List Code → Prop
  | mk {b : List Byte} {cs : List Code} : GSeq GCodeOp b cs → Closes 1 cs → GCodeExpr b cs

/-! ## Sections (5.5) -/

inductive ImpDesc where
  | func (x : Idx)
  | table (t : TabTy)
  | mem (l : Lim)
  | global (t : GlobTy)
  | later (b : List Byte)

inductive GImpDesc : List Byte → ImpDesc → Prop
  | func {b : List Byte} {i : Idx} : UN 32 b i.toNat → GImpDesc (0x00 :: b) (.func i)
  | table {b : List Byte} {t : TabTy} : GTabTy b t → GImpDesc (0x01 :: b) (.table t)
  | mem {b : List Byte} {l : Lim} : GLim b l → GImpDesc (0x02 :: b) (.mem l)
  | global {b : List Byte} {t : GlobTy} : GGlobTy b t → GImpDesc (0x03 :: b) (.global t)
  | later {x : Byte} {b : List Byte} : x ∉ [0x00, 0x01, 0x02, 0x03] → GImpDesc (x :: b) (.later (x :: b))

structure Imp where
  module : Name
  name : Name
  desc : ImpDesc

inductive GImp : List Byte → Imp → Prop
  | mk {b1 b2 b3 : List Byte} {m n : Name} {d : ImpDesc} : GName dialect b1 m → GName dialect b2 n → GImpDesc b3 d → GImp (b1 ++ b2 ++ b3) ⟨m, n, d⟩

inductive ExpDesc where
  | old (d : ExportDesc)
  | later (b : List Byte)

structure Exp where
  name : Name
  desc : ExpDesc

inductive GExpDesc : List Byte → ExpDesc → Prop
  | old {b : List Byte} {d : ExportDesc} : GExportDesc dialect b d → GExpDesc b (.old d)
  | later {x : Byte} {b : List Byte} : x ∉ [0x00, 0x01, 0x02, 0x03] → GExpDesc (x :: b) (.later (x :: b))

inductive GExp : List Byte → Exp → Prop
  | mk {b1 b2 : List Byte} {n : Name} {d : ExpDesc} : GName dialect b1 n → GExpDesc b2 d → GExp (b1 ++ b2) ⟨n, d⟩

structure Glob where
  ty : GlobTy
  init : List Code

inductive GGlob : List Byte → Glob → Prop
  | mk {b1 b2 : List Byte} {t : GlobTy} {e : List Code} : GGlobTy b1 t → GCodeExpr b2 e → GGlob (b1 ++ b2) ⟨t, e⟩

/-- Element segments: form 0 is for table 0. -/
inductive ElemSeg where
  | old (offset : List Code) (init : List Idx)
  | later (form : Nat) (b : List Byte)

inductive GElemSeg : List Byte → ElemSeg → Prop
  | old {b1 b2 b3 : List Byte} {e : List Code} {fs : List Idx} : UN 32 b1 0 → GCodeExpr b2 e → GVec dialect dialect.u32 b3 fs → GElemSeg (b1 ++ b2 ++ b3) (.old e fs)
  | later {b1 b : List Byte} {k : Nat} : UN 32 b1 k → k ≠ 0 → GElemSeg (b1 ++ b) (.later k b)

/-- Data segments: form 0 is for memory 0. -/
inductive DataSeg where
  | old (offset : List Code) (init : List Byte)
  | later (form : Nat) (b : List Byte)

inductive GDataSeg : List Byte → DataSeg → Prop
  | old {b1 b2 b3 : List Byte} {e : List Code} {bs : List Byte} : UN 32 b1 0 → GCodeExpr b2 e → GVec dialect GByte b3 bs → GDataSeg (b1 ++ b2 ++ b3) (.old e bs)
  | later {b1 b : List Byte} {k : Nat} : UN 32 b1 k → k ≠ 0 → GDataSeg (b1 ++ b) (.later k b)

/-- A run of local variables. -/
inductive GLocalRun : List Byte → Nat × ValTy → Prop
  | mk {b1 b2 : List Byte} {n : U32} {t : ValTy} : UN 32 b1 n.toNat → GValTy b2 t → GLocalRun (b1 ++ b2) (n.toNat, t)

structure Body where
  locals : List ValTy
  code : List Code

inductive GBody : List Byte → Body → Prop
  | mk {b1 b2 : List Byte} {runs : List (Nat × ValTy)} {e : List Code} : GVec dialect GLocalRun b1 runs → (runs.map (·.1)).sum < 2 ^ 32 → GCodeExpr b2 e →
      GBody (b1 ++ b2) ⟨runs.flatMap fun (n, t) => List.replicate n t, e⟩

/-- What a file says. -/
structure File where
  types : List DefTy := []
  imports : List Imp := []
  funcs : List Idx := []
  tables : List TabTy := []
  mems : List Lim := []
  globals : List Glob := []
  exports : List Exp := []
  start : Option Idx := none
  elem : List ElemSeg := []
  bodies : List Body := []
  data : List DataSeg := []

/-- A section with a vector; it may be absent. -/
inductive Sect {α : Type} (k : Byte) (G : List Byte → α → Prop) (secs : List (Byte × List Byte)) : List α → Prop
  | absent : (∀ c, (k, c) ∉ secs) → Sect k G secs []
  | present {c : List Byte} {xs : List α} : (k, c) ∈ secs → GVec dialect G c xs → Sect k G secs xs

inductive StartSect (secs : List (Byte × List Byte)) : Option Idx → Prop
  | absent : (∀ c, (0x08, c) ∉ secs) → StartSect secs none
  | present {c : List Byte} {x : Idx} : (0x08, c) ∈ secs → UN 32 c x.toNat → StartSect secs (some x)

/-- The order of the sections in 3.0: among those of 1.0 there are the tag section (13) and the data count section (12). -/
def order : List Nat := [1, 2, 3, 4, 5, 13, 6, 7, 8, 9, 12, 10, 11]

/-- Files (3.0, 5.5.16). -/
structure GLater (s : List Byte) (y : File) : Prop where
  sections : ∃ b secs, s = preamble ++ b ∧ RawSecs b secs ∧ (secIds secs).Sublist order ∧
    Sect 0x01 GDefTy secs y.types ∧ Sect 0x02 GImp secs y.imports ∧ Sect 0x03 dialect.u32 secs y.funcs ∧ Sect 0x04 GTabTy secs y.tables ∧
    Sect 0x05 GLim secs y.mems ∧ Sect 0x06 GGlob secs y.globals ∧ Sect 0x07 GExp secs y.exports ∧ StartSect secs y.start ∧
    Sect 0x09 GElemSeg secs y.elem ∧ Sect 0x0A (GSized dialect GBody) secs y.bodies ∧ Sect 0x0B GDataSeg secs y.data
  paired : y.bodies.length = y.funcs.length

/-! ## The same -/

def defTy (t : FuncTy) : DefTy := .func (t.params.map .old) (t.results.map .old)
def lim (l : Limits) : Lim := .old l.min.toNat (l.max.map (·.toNat))
def globTy (t : GlobalTy) : GlobTy := ⟨.old t.val, .old t.mt⟩

def impDesc : ImportDesc → ImpDesc
  | .func x => .func x
  | .table t => .table (.old (lim t.lim))
  | .mem t => .mem (lim t.lim)
  | .global t => .global (globTy t)

def imp (i : Import) : Imp := ⟨i.module, i.name, impDesc i.desc⟩

def exp (e : Export) : Exp := ⟨e.name, .old e.desc⟩

/-- Memory accesses of 1.0 are to memory 0. -/
def code : Op → Code
  | .instr (.load op a o) => .load op 0 a.toNat o.toNat
  | .instr (.store op a o) => .store op 0 a.toNat o.toNat
  | op => .old op

/-- `cs` is the expression `e`; an empty second branch of an `if` may be omitted. -/
def SameExpr (e : Expr) (cs : List Code) : Prop := ∃ ops, FlatL ops e ∧ cs = (ops ++ [Op.endOp]).map code

def SameGlobal (g : Global) (y : Glob) : Prop := y.ty = globTy g.ty ∧ SameExpr g.init y.init
def SameElem (e : Elem) (y : ElemSeg) : Prop := ∃ cs, y = .old cs e.init ∧ e.table = 0 ∧ SameExpr e.offset cs
def SameData (d : Data) (y : DataSeg) : Prop := ∃ cs, y = .old cs d.init ∧ d.mem = 0 ∧ SameExpr d.offset cs
def SameFunc (f : Func) (y : Body) : Prop := y.locals = f.locals.map .old ∧ SameExpr f.body y.code

/-- The file says what the module of 1.0 is. -/
structure Says (y : File) (m : Module) : Prop where
  types : y.types = m.types.map defTy
  imports : y.imports = m.imports.map imp
  funcs : y.funcs = m.funcs.map (·.ty)
  tables : y.tables = m.tables.map fun t => .old (lim t.ty.lim)
  mems : y.mems = m.mems.map fun x => lim x.ty.lim
  globals : Related SameGlobal m.globals y.globals
  exports : y.exports = m.exports.map exp
  start : y.start = m.start.map (·.func)
  elem : Related SameElem m.elem y.elem
  bodies : Related SameFunc m.funcs y.bodies
  data : Related SameData m.data y.data

/-! ## Modules whose numbers leave no room -/

/-- The alignment leaves no room. -/
def Small : Instr → Prop
  | .load _ a _ | .store _ a _ => a.toNat < 64
  | _ => True

/-- Segments are for table 0 and memory 0, and no alignment is 64 or more. -/
structure NoRoom (m : Module) : Prop where
  elem : ∀ e ∈ m.elem, e.table = 0
  data : ∀ d ∈ m.data, d.mem = 0
  bodies : ∀ f ∈ m.funcs, ∀ i, Occurs i f.body → Small i
  inits : ∀ g ∈ m.globals, ∀ i, Occurs i g.init → Small i
  elemOffsets : ∀ e ∈ m.elem, ∀ i, Occurs i e.offset → Small i
  dataOffsets : ∀ d ∈ m.data, ∀ i, Occurs i d.offset → Small i

end Whasm.Spec.Later
