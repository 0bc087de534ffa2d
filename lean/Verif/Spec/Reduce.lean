import Verif.Spec.Run

/-!
# Execution of WebAssembly 1.0, step by step (W3C document, 4.2.13 and 4.4)

The reduction rules of the document, one constructor for each. A state is a configuration (4.2.13): store, local variables of the current frame, the values so far (top first), and the
instructions that follow, with the administrative instructions `trap`, `invoke`, `label` and `frame`. A `label` and a `frame` hold the values and instructions inside.

Other than in the document, a branch leaves one label with each step and not all at once (the document's rule has a context of `l` nested labels), and labels and frames hold the types of the values that they let
through, not only their number; the rules demand values of these types, so a state may be stuck here that is not stuck in the document, but not the other way round.
-/

namespace Whasm.Run
open Spec

/-- Administrative instructions (4.2.13). -/
inductive Admin where
  | plain (i : Instr)
  | trap
  | invoke (fi : FuncInst)
  /-- `label_r {k} vs es end`; `k` is the continuation of a branch to it -/
  | label (r : List Val) (k : List Instr) (vs : List Value) (es : List Admin)
  /-- `frame_r {locals} vs es end` -/
  | frame (r : List Val) (locals : List Value) (vs : List Value) (es : List Admin)

/-- The instructions of a body. -/
abbrev plains (is : List Instr) : List Admin := is.map .plain

/-- One step. -/
inductive Step (M : Machine) : Conf → List Admin → Conf → List Admin → Prop
  -- 4.4.1 numeric instructions
  | constI32 {st ls vs es v} : Step M ⟨st, ls, vs⟩ (.plain (.constI32 v) :: es) ⟨st, ls, .i32 v :: vs⟩ es
  | constI64 {st ls vs es v} : Step M ⟨st, ls, vs⟩ (.plain (.constI64 v) :: es) ⟨st, ls, .i64 v :: vs⟩ es
  | constF32 {st ls vs es v} : Step M ⟨st, ls, vs⟩ (.plain (.constF32 v) :: es) ⟨st, ls, .f32 v :: vs⟩ es
  | constF64 {st ls vs es v} : Step M ⟨st, ls, vs⟩ (.plain (.constF64 v) :: es) ⟨st, ls, .f64 v :: vs⟩ es
  | num {st ls vs es op args rest v} (hp : popArgs (numType op).1 vs = some (args, rest)) (hv : M.num op args = some v) :
    Step M ⟨st, ls, vs⟩ (.plain (.num op) :: es) ⟨st, ls, v :: rest⟩ es
  | numTrap {st ls vs es op args rest} (hp : popArgs (numType op).1 vs = some (args, rest)) (hv : M.num op args = none) :
    Step M ⟨st, ls, vs⟩ (.plain (.num op) :: es) ⟨st, ls, rest⟩ (.trap :: es)
  -- 4.4.2 parametric instructions
  | drop {st ls vs es v} : Step M ⟨st, ls, v :: vs⟩ (.plain .drop :: es) ⟨st, ls, vs⟩ es
  | selectFirst {st ls vs es v w b} (ht : v.type = w.type) (hb : b ≠ 0) : Step M ⟨st, ls, .i32 b :: w :: v :: vs⟩ (.plain .select :: es) ⟨st, ls, v :: vs⟩ es
  | selectSecond {st ls vs es v w b} (ht : v.type = w.type) (hb : b = 0) : Step M ⟨st, ls, .i32 b :: w :: v :: vs⟩ (.plain .select :: es) ⟨st, ls, w :: vs⟩ es
  -- 4.4.3 variable instructions
  | localGet {st ls vs es x v} (hx : ls[BitVec.toNat x]? = some v) : Step M ⟨st, ls, vs⟩ (.plain (.localGet x) :: es) ⟨st, ls, v :: vs⟩ es
  | localSet {st ls vs es x v} (hx : BitVec.toNat x < ls.length) : Step M ⟨st, ls, v :: vs⟩ (.plain (.localSet x) :: es) ⟨st, ls.set x.toNat v, vs⟩ es
  | localTee {st ls vs es x v} (hx : BitVec.toNat x < ls.length) : Step M ⟨st, ls, v :: vs⟩ (.plain (.localTee x) :: es) ⟨st, ls.set x.toNat v, v :: vs⟩ es
  | globalGet {st ls vs es x v} (hx : st.globals[BitVec.toNat x]? = some v) : Step M ⟨st, ls, vs⟩ (.plain (.globalGet x) :: es) ⟨st, ls, v :: vs⟩ es
  | globalSet {st ls vs es x v} (hx : BitVec.toNat x < st.globals.length) :
    Step M ⟨st, ls, v :: vs⟩ (.plain (.globalSet x) :: es) ⟨{ st with globals := st.globals.set x.toNat v }, ls, vs⟩ es
  -- 4.4.4 memory instructions
  | load {st ls vs es op al o m a} (hm : st.mems[0]? = some m) (hb : BitVec.toNat a + BitVec.toNat o + (loadType op).2 ≤ 65536 * m.pages) :
    Step M ⟨st, ls, .i32 a :: vs⟩ (.plain (.load op al o) :: es) ⟨st, ls, loaded op (readMem m (a.toNat + o.toNat) (loadType op).2) :: vs⟩ es
  | loadTrap {st ls vs es op al o m a} (hm : st.mems[0]? = some m) (hb : 65536 * m.pages < BitVec.toNat a + BitVec.toNat o + (loadType op).2) :
    Step M ⟨st, ls, .i32 a :: vs⟩ (.plain (.load op al o) :: es) ⟨st, ls, vs⟩ (.trap :: es)
  | store {st ls vs es op al o m a v} (hm : st.mems[0]? = some m) (ht : v.type = (storeType op).1)
    (hb : BitVec.toNat a + BitVec.toNat o + (storeType op).2 ≤ 65536 * m.pages) :
    Step M ⟨st, ls, v :: .i32 a :: vs⟩ (.plain (.store op al o) :: es)
      ⟨{ st with mems := st.mems.set 0 (writeMem m (a.toNat + o.toNat) (storeType op).2 v.bits) }, ls, vs⟩ es
  | storeTrap {st ls vs es op al o m a v} (hm : st.mems[0]? = some m) (ht : v.type = (storeType op).1)
    (hb : 65536 * m.pages < BitVec.toNat a + BitVec.toNat o + (storeType op).2) :
    Step M ⟨st, ls, v :: .i32 a :: vs⟩ (.plain (.store op al o) :: es) ⟨st, ls, vs⟩ (.trap :: es)
  | memSize {st ls vs es x m} (hm : st.mems[BitVec.toNat x]? = some m) :
    Step M ⟨st, ls, vs⟩ (.plain (.memSize x) :: es) ⟨st, ls, .i32 (BitVec.ofNat 32 m.pages) :: vs⟩ es
  | memGrow {st ls vs es x m n} (hm : st.mems[BitVec.toNat x]? = some m) (hl : m.pages + BitVec.toNat n ≤ pageLimit m)
    (hg : M.grow st x.toNat (m.pages + n.toNat) = true) :
    Step M ⟨st, ls, .i32 n :: vs⟩ (.plain (.memGrow x) :: es)
      ⟨{ st with mems := st.mems.set x.toNat { m with pages := m.pages + n.toNat, byte := fun a => if a < 65536 * m.pages then m.byte a else 0 } }, ls,
        .i32 (BitVec.ofNat 32 m.pages) :: vs⟩ es
  | memGrowFail {st ls vs es x m n} (hm : st.mems[BitVec.toNat x]? = some m)
    (hf : pageLimit m < m.pages + BitVec.toNat n ∨ M.grow st x.toNat (m.pages + n.toNat) = false) :
    Step M ⟨st, ls, .i32 n :: vs⟩ (.plain (.memGrow x) :: es) ⟨st, ls, .i32 (BitVec.ofInt 32 (-1)) :: vs⟩ es
  -- 4.4.5 control instructions
  | nop {st ls vs es} : Step M ⟨st, ls, vs⟩ (.plain .nop :: es) ⟨st, ls, vs⟩ es
  | unreachable {st ls vs es} : Step M ⟨st, ls, vs⟩ (.plain .unreachable :: es) ⟨st, ls, vs⟩ (.trap :: es)
  | block {st ls vs es r b} : Step M ⟨st, ls, vs⟩ (.plain (.block r b) :: es) ⟨st, ls, vs⟩ (.label r [] [] (plains b) :: es)
  | loop {st ls vs es r b} : Step M ⟨st, ls, vs⟩ (.plain (.loop r b) :: es) ⟨st, ls, vs⟩ (.label [] [.loop r b] [] (plains b) :: es)
  | ifThen {st ls vs es r a b k} (hk : k ≠ 0) : Step M ⟨st, ls, .i32 k :: vs⟩ (.plain (.ifElse r a b) :: es) ⟨st, ls, vs⟩ (.label r [] [] (plains a) :: es)
  | ifElse {st ls vs es r a b k} (hk : k = 0) : Step M ⟨st, ls, .i32 k :: vs⟩ (.plain (.ifElse r a b) :: es) ⟨st, ls, vs⟩ (.label r [] [] (plains b) :: es)
  | brIf {st ls vs es l k} (hk : k ≠ 0) : Step M ⟨st, ls, .i32 k :: vs⟩ (.plain (.brIf l) :: es) ⟨st, ls, vs⟩ (.plain (.br l) :: es)
  | brIfNot {st ls vs es l k} (hk : k = 0) : Step M ⟨st, ls, .i32 k :: vs⟩ (.plain (.brIf l) :: es) ⟨st, ls, vs⟩ es
  | brTable {st ls vs es tb l k x} (hx : tb[BitVec.toNat k]? = some x) : Step M ⟨st, ls, .i32 k :: vs⟩ (.plain (.brTable tb l) :: es) ⟨st, ls, vs⟩ (.plain (.br x) :: es)
  | brTableElse {st ls vs es tb l k} (hx : tb.length ≤ BitVec.toNat k) : Step M ⟨st, ls, .i32 k :: vs⟩ (.plain (.brTable tb l) :: es) ⟨st, ls, vs⟩ (.plain (.br l) :: es)
  | call {st ls vs es x fi} (hf : M.funcs[BitVec.toNat x]? = some fi) : Step M ⟨st, ls, vs⟩ (.plain (.call x) :: es) ⟨st, ls, vs⟩ (.invoke fi :: es)
  | callIndirect {st ls vs es x y tb t k a fi} (hy : st.tables[BitVec.toNat y]? = some tb) (hx : M.types[BitVec.toNat x]? = some t)
    (hk : tb[BitVec.toNat k]? = some (some a)) (ha : M.all[a]? = some fi) (ht : fi.type = t) :
    Step M ⟨st, ls, .i32 k :: vs⟩ (.plain (.callIndirect x y) :: es) ⟨st, ls, vs⟩ (.invoke fi :: es)
  | callOther {st ls vs es x y tb t k a fi} (hy : st.tables[BitVec.toNat y]? = some tb) (hx : M.types[BitVec.toNat x]? = some t)
    (hk : tb[BitVec.toNat k]? = some (some a)) (ha : M.all[a]? = some fi) (ht : fi.type ≠ t) :
    Step M ⟨st, ls, .i32 k :: vs⟩ (.plain (.callIndirect x y) :: es) ⟨st, ls, vs⟩ (.trap :: es)
  | callEmpty {st ls vs es x y tb t k} (hy : st.tables[BitVec.toNat y]? = some tb) (hx : M.types[BitVec.toNat x]? = some t)
    (hk : tb[BitVec.toNat k]? = some none) :
    Step M ⟨st, ls, .i32 k :: vs⟩ (.plain (.callIndirect x y) :: es) ⟨st, ls, vs⟩ (.trap :: es)
  | callOutside {st ls vs es x y tb t k} (hy : st.tables[BitVec.toNat y]? = some tb) (hx : M.types[BitVec.toNat x]? = some t)
    (hk : tb.length ≤ BitVec.toNat k) :
    Step M ⟨st, ls, .i32 k :: vs⟩ (.plain (.callIndirect x y) :: es) ⟨st, ls, vs⟩ (.trap :: es)
  -- 4.4.6 blocks: steps inside, the end, branches, `return` and traps on their way out
  | inLabel {st ls st' ls' vs es r k ws fs ws' fs'} (h : Step M ⟨st, ls, ws⟩ fs ⟨st', ls', ws'⟩ fs') :
    Step M ⟨st, ls, vs⟩ (.label r k ws fs :: es) ⟨st', ls', vs⟩ (.label r k ws' fs' :: es)
  | endLabel {st ls vs es r k ws} : Step M ⟨st, ls, vs⟩ (.label r k ws [] :: es) ⟨st, ls, ws ++ vs⟩ es
  | brHere {st ls vs es r k ws fs l us rest} (hl : l = 0) (hp : popArgs r ws = some (us, rest)) :
    Step M ⟨st, ls, vs⟩ (.label r k ws (.plain (.br l) :: fs) :: es) ⟨st, ls, us.reverse ++ vs⟩ (plains k ++ es)
  | brOut {st ls vs es r k ws fs l} (hl : l ≠ 0) :
    Step M ⟨st, ls, vs⟩ (.label r k ws (.plain (.br l) :: fs) :: es) ⟨st, ls, ws⟩ (.plain (.br (l - 1)) :: es)
  | retOut {st ls vs es r k ws fs} : Step M ⟨st, ls, vs⟩ (.label r k ws (.plain .ret :: fs) :: es) ⟨st, ls, ws⟩ (.plain .ret :: es)
  | trapOut {st ls vs es r k ws fs} : Step M ⟨st, ls, vs⟩ (.label r k ws (.trap :: fs) :: es) ⟨st, ls, vs⟩ (.trap :: es)
  -- 4.4.7 function calls
  | invokeOwn {st ls vs es t f args rest} (hp : popArgs (FuncTy.params t) vs = some (args, rest)) :
    Step M ⟨st, ls, vs⟩ (.invoke (.own t f) :: es) ⟨st, ls, rest⟩
      (.frame t.results (args ++ f.locals.map zero) [] [.label t.results [] [] (plains f.body)] :: es)
  | invokeHost {st ls vs es t id args rest st' us} (hp : popArgs (FuncTy.params t) vs = some (args, rest)) (hh : M.host id st args = (st', some us)) :
    Step M ⟨st, ls, vs⟩ (.invoke (.host t id) :: es) ⟨st', ls, us.reverse ++ rest⟩ es
  | hostTrap {st ls vs es t id args rest st'} (hp : popArgs (FuncTy.params t) vs = some (args, rest)) (hh : M.host id st args = (st', none)) :
    Step M ⟨st, ls, vs⟩ (.invoke (.host t id) :: es) ⟨st', ls, rest⟩ (.trap :: es)
  | inFrame {st ls ls1 st' ls1' vs es r ws fs ws' fs'} (h : Step M ⟨st, ls1, ws⟩ fs ⟨st', ls1', ws'⟩ fs') :
    Step M ⟨st, ls, vs⟩ (.frame r ls1 ws fs :: es) ⟨st', ls, vs⟩ (.frame r ls1' ws' fs' :: es)
  | endFrame {st ls ls1 vs es r ws us} (hp : popArgs r ws = some (us, [])) : Step M ⟨st, ls, vs⟩ (.frame r ls1 ws [] :: es) ⟨st, ls, us.reverse ++ vs⟩ es
  | retHere {st ls ls1 vs es r ws fs us rest} (hp : popArgs r ws = some (us, rest)) :
    Step M ⟨st, ls, vs⟩ (.frame r ls1 ws (.plain .ret :: fs) :: es) ⟨st, ls, us.reverse ++ vs⟩ es
  | trapFrame {st ls ls1 vs es r ws fs} : Step M ⟨st, ls, vs⟩ (.frame r ls1 ws (.trap :: fs) :: es) ⟨st, ls, vs⟩ (.trap :: es)

/-- `n` steps. -/
inductive Steps (M : Machine) : Nat → Conf → List Admin → Conf → List Admin → Prop
  | zero {c es} : Steps M 0 c es c es
  | succ {n c es c1 es1 c2 es2} (h : Step M c es c1 es1) (hs : Steps M n c1 es1 c2 es2) : Steps M (n + 1) c es c2 es2

/-- Execution has come to an end: only values are left, or it is a trap. -/
inductive Final : List Admin → Prop
  | values : Final []
  | trap {es} : Final (.trap :: es)

/-- The state in which a function is called from outside (4.5.5). -/
def called (args : List Value) (st : Store) : Conf := ⟨st, [], args.reverse⟩

/-- The next step calls `fi` with `args`, in the innermost of the labels and frames of a state with values `vs` and instructions `es`. -/
inductive Calling : List Value → List Admin → FuncInst → List Value → Prop
  | here {vs es fi args rest} (hp : popArgs (FuncInst.type fi).params vs = some (args, rest)) : Calling vs (.invoke fi :: es) fi args
  | label {vs es r k ws fs fi args} (h : Calling ws fs fi args) : Calling vs (.label r k ws fs :: es) fi args
  | frame {vs es r ls ws fs fi args} (h : Calling ws fs fi args) : Calling vs (.frame r ls ws fs :: es) fi args

end Whasm.Run
