import Verif.Spec.Opcodes

/-!
# The type system of WebAssembly 1.0 for instructions (W3C document, sections 3.1.3, 3.2.5, 3.3)

Declarative rules, written from the document. Stack types are lists with the top of the stack *last*, as in the document. The abstract
syntax of the crate has an index after `call_indirect`, `memory.size` and `memory.grow` where the document uses 0; the rules use the index
given.
-/

namespace Whasm.Spec

/-- Contexts (3.1.3). `labels` begins with the innermost label. `aligned` says whether the alignment of memory accesses is checked, as the
document demands. -/
structure Env where
  types : List FuncTy := []
  funcs : List FuncTy := []
  tables : List TableTy := []
  mems : List MemTy := []
  globals : List GlobalTy := []
  locals : List Val := []
  labels : List (List Val) := []
  ret : Option (List Val) := none
  aligned : Bool := true

/-- Type of a numeric instruction without immediate (3.3.1), by the blocks of the opcode table (5.4.5): test, comparison, unary and binary
operators of each type, then the conversions. -/
def numType (op : NumOp) : List Val × List Val :=
  let n := (numOpcode op).toNat
  if n = 0x45 then ([.i32], [.i32])
  else if n ≤ 0x4F then ([.i32, .i32], [.i32])
  else if n = 0x50 then ([.i64], [.i32])
  else if n ≤ 0x5A then ([.i64, .i64], [.i32])
  else if n ≤ 0x60 then ([.f32, .f32], [.i32])
  else if n ≤ 0x66 then ([.f64, .f64], [.i32])
  else if n ≤ 0x69 then ([.i32], [.i32])
  else if n ≤ 0x78 then ([.i32, .i32], [.i32])
  else if n ≤ 0x7B then ([.i64], [.i64])
  else if n ≤ 0x8A then ([.i64, .i64], [.i64])
  else if n ≤ 0x91 then ([.f32], [.f32])
  else if n ≤ 0x98 then ([.f32, .f32], [.f32])
  else if n ≤ 0x9F then ([.f64], [.f64])
  else if n ≤ 0xA6 then ([.f64, .f64], [.f64])
  else
    -- source and target of the conversions 0xA7 to 0xBF
    let src : List Val := [.i64, .f32, .f32, .f64, .f64, .i32, .i32, .f32, .f32, .f64, .f64, .i32, .i32, .i64, .i64, .f64,
      .i32, .i32, .i64, .i64, .f32, .f32, .f64, .i32, .i64]
    let dst : List Val := [.i32, .i32, .i32, .i32, .i32, .i64, .i64, .i64, .i64, .i64, .i64, .f32, .f32, .f32, .f32, .f32,
      .f64, .f64, .f64, .f64, .f64, .i32, .i64, .f32, .f64]
    (src[n - 0xA7]?.toList, dst[n - 0xA7]?.toList)

/-- Type of the value loaded, and number of bytes accessed (3.3.4). -/
def loadType : LoadOp → Val × Nat
  | .i32Load => (.i32, 4)
  | .i64Load => (.i64, 8)
  | .f32Load => (.f32, 4)
  | .f64Load => (.f64, 8)
  | .i32Load8S | .i32Load8U => (.i32, 1)
  | .i32Load16S | .i32Load16U => (.i32, 2)
  | .i64Load8S | .i64Load8U => (.i64, 1)
  | .i64Load16S | .i64Load16U => (.i64, 2)
  | .i64Load32S | .i64Load32U => (.i64, 4)

/-- Type of the value stored, and number of bytes accessed (3.3.4). -/
def storeType : StoreOp → Val × Nat
  | .i32Store => (.i32, 4)
  | .i64Store => (.i64, 8)
  | .f32Store => (.f32, 4)
  | .f64Store => (.f64, 8)
  | .i32Store8 => (.i32, 1)
  | .i32Store16 => (.i32, 2)
  | .i64Store8 => (.i64, 1)
  | .i64Store16 => (.i64, 2)
  | .i64Store32 => (.i64, 4)

mutual

/-- `HasType C i ts ts'`: instruction `i` has type `[ts] → [ts']` in context `C`. -/
inductive HasType : Env → Instr → List Val → List Val → Prop
  | constI32 {C : Env} {v : I32} : HasType C (.constI32 v) [] [.i32]
  | constI64 {C : Env} {v : I64} : HasType C (.constI64 v) [] [.i64]
  | constF32 {C : Env} {v : F32} : HasType C (.constF32 v) [] [.f32]
  | constF64 {C : Env} {v : F64} : HasType C (.constF64 v) [] [.f64]
  | num {C : Env} {op : NumOp} : HasType C (.num op) (numType op).1 (numType op).2
  | drop {C : Env} (t : Val) : HasType C .drop [t] []
  | select {C : Env} (t : Val) : HasType C .select [t, t, .i32] [t]
  | localGet {C : Env} {x : Idx} {t : Val} : C.locals[x.toNat]? = some t → HasType C (.localGet x) [] [t]
  | localSet {C : Env} {x : Idx} {t : Val} : C.locals[x.toNat]? = some t → HasType C (.localSet x) [t] []
  | localTee {C : Env} {x : Idx} {t : Val} : C.locals[x.toNat]? = some t → HasType C (.localTee x) [t] [t]
  | globalGet {C : Env} {x : Idx} {t : GlobalTy} : C.globals[x.toNat]? = some t → HasType C (.globalGet x) [] [t.val]
  | globalSet {C : Env} {x : Idx} {t : GlobalTy} : C.globals[x.toNat]? = some t → t.mt = .var → HasType C (.globalSet x) [t.val] []
  | load {C : Env} {op : LoadOp} {align offset : U32} {m : MemTy} : C.mems[0]? = some m →
      (C.aligned = true → 2 ^ align.toNat ≤ (loadType op).2) → HasType C (.load op align offset) [.i32] [(loadType op).1]
  | store {C : Env} {op : StoreOp} {align offset : U32} {m : MemTy} : C.mems[0]? = some m →
      (C.aligned = true → 2 ^ align.toNat ≤ (storeType op).2) → HasType C (.store op align offset) [.i32, (storeType op).1] []
  | memSize {C : Env} {x : Idx} {m : MemTy} : C.mems[x.toNat]? = some m → HasType C (.memSize x) [] [.i32]
  | memGrow {C : Env} {x : Idx} {m : MemTy} : C.mems[x.toNat]? = some m → HasType C (.memGrow x) [.i32] [.i32]
  | nop {C : Env} : HasType C .nop [] []
  | unreachable {C : Env} (ts ts' : List Val) : HasType C .unreachable ts ts'
  | block {C : Env} {r : RetVal} {body : List Instr} : HasTypes { C with labels := r :: C.labels } body [] r →
      HasType C (.block r body) [] r
  | loop {C : Env} {r : RetVal} {body : List Instr} : HasTypes { C with labels := [] :: C.labels } body [] r →
      HasType C (.loop r body) [] r
  | ifElse {C : Env} {r : RetVal} {thn els : List Instr} : HasTypes { C with labels := r :: C.labels } thn [] r →
      HasTypes { C with labels := r :: C.labels } els [] r → HasType C (.ifElse r thn els) [.i32] r
  | br {C : Env} {l : Idx} {r : List Val} (ts ts' : List Val) : C.labels[l.toNat]? = some r → HasType C (.br l) (ts ++ r) ts'
  | brIf {C : Env} {l : Idx} {r : List Val} : C.labels[l.toNat]? = some r → HasType C (.brIf l) (r ++ [.i32]) r
  | brTable {C : Env} {ls : List Idx} {l : Idx} {r : List Val} (ts ts' : List Val) : (∀ x ∈ ls, C.labels[x.toNat]? = some r) →
      C.labels[l.toNat]? = some r → HasType C (.brTable ls l) (ts ++ r ++ [.i32]) ts'
  | ret {C : Env} {r : List Val} (ts ts' : List Val) : C.ret = some r → HasType C .ret (ts ++ r) ts'
  | call {C : Env} {x : Idx} {t : FuncTy} : C.funcs[x.toNat]? = some t → HasType C (.call x) t.params t.results
  | callIndirect {C : Env} {x y : Idx} {t : FuncTy} {tb : TableTy} : C.tables[y.toNat]? = some tb → tb.elem = .funcRef →
      C.types[x.toNat]? = some t → HasType C (.callIndirect x y) (t.params ++ [.i32]) t.results

/-- Instruction sequences (3.3.6). -/
inductive HasTypes : Env → List Instr → List Val → List Val → Prop
  | nil {C : Env} (ts : List Val) : HasTypes C [] ts ts
  | snoc {C : Env} {is : List Instr} {i : Instr} {ts1 ts0 ts ts3 : List Val} : HasTypes C is ts1 (ts0 ++ ts) → HasType C i ts ts3 →
      HasTypes C (is ++ [i]) ts1 (ts0 ++ ts3)

end

/-- Expressions (3.3.7). -/
def ExprType (C : Env) (e : Expr) (r : List Val) : Prop := HasTypes C e [] r

end Whasm.Spec
