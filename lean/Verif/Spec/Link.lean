import Verif.Spec.Instantiate

/-!
# Several modules (W3C document, sections 4.2, 4.4, 4.5, 7.4)

`Spec/Run.lean` has one module and a host. Here modules are instantiated one after the other in a common store; the imports of a module are
what earlier modules, or the host, export. As in `Spec/Run.lean`, the outcome `stuck` stands for the places where the document relies on validation, and
numeric operators, growing of memories and host functions are parameters.
-/

namespace Whasm.Link
open Spec
open Run (Value MemInst popArgs zero readMem writeMem loaded pageLimit Each overwrite all newMem)

/-! ## The store (4.2) -/

/-- Module instances (4.2.5): addresses for the indices of each index space. -/
structure Inst where
  types : List FuncTy := []
  funcs : List Nat := []
  tables : List Nat := []
  mems : List Nat := []
  globals : List Nat := []

/-- Function instances (4.2.6): code with the instance of its module, and host functions with a number. -/
inductive FuncInst where
  | own (t : FuncTy) (inst : Inst) (f : Func)
  | host (t : FuncTy) (id : Nat)

def FuncInst.type : FuncInst → FuncTy
  | .own t _ _ => t
  | .host t _ => t

/-- Table instances (4.2.7): maximal size and addresses of functions. -/
structure TableInst where
  max : Option Nat
  elem : List (Option Nat)

/-- Global instances (4.2.9). -/
structure GlobalInst where
  mt : Mut
  value : Value

/-- The store (4.2.3). -/
structure Store where
  funcs : List FuncInst := []
  tables : List TableInst := []
  mems : List MemInst := []
  globals : List GlobalInst := []
  /-- whatever the host remembers -/
  world : Nat := 0

/-- External values (4.2.11). -/
inductive Extern where
  | func (a : Nat)
  | table (a : Nat)
  | mem (a : Nat)
  | global (a : Nat)
  deriving DecidableEq, Repr

def Extern.func? : Extern → Option Nat
  | .func a => some a
  | _ => none

def Extern.table? : Extern → Option Nat
  | .table a => some a
  | _ => none

def Extern.mem? : Extern → Option Nat
  | .mem a => some a
  | _ => none

def Extern.global? : Extern → Option Nat
  | .global a => some a
  | _ => none

/-- The parameters. -/
structure Machine where
  /-- result of a numeric operator, `none` for a trap -/
  num : NumOp → List Value → Option Value
  /-- does the host allow the memory with this address to grow to so many pages? -/
  grow : Store → Nat → Nat → Bool
  /-- host functions: new store, and results or `none` for a trap -/
  host : Nat → Store → List Value → Store × Option (List Value)

/-! ## Execution (4.4) -/

/-- State within a function: store, locals of the current frame, values above the innermost label. -/
structure Conf where
  store : Store
  locals : List Value
  stack : List Value

/-- What the execution of instructions leads to. -/
inductive Outcome where
  | normal (c : Conf)
  /-- on the way to the label `l` levels up -/
  | br (l : Nat) (c : Conf)
  /-- on the way to the caller -/
  | ret (c : Conf)
  | trap (st : Store)
  | timeout
  | stuck

def push (v : Value) (c : Conf) : Outcome := .normal { c with stack := v :: c.stack }

/-- Pops a value. -/
def pop (c : Conf) (k : Value → Conf → Outcome) : Outcome :=
  match c.stack with
  | v :: s => k v { c with stack := s }
  | [] => .stuck

/-- Pops an `i32`. -/
def popI32 (c : Conf) (k : BitVec 32 → Conf → Outcome) : Outcome :=
  match c.stack with
  | .i32 v :: s => k v { c with stack := s }
  | _ => .stuck

/-- Instruction sequences (4.4.6), given the execution of instructions. -/
def execs (step : Instr → Conf → Outcome) : List Instr → Conf → Outcome
  | [], c => .normal c
  | i :: is, c =>
    match step i c with
    | .normal c' => execs step is c'
    | o => o

/-- End of a block with label type `r` and outer stack `outer` (4.4.6), except for branches to a loop. -/
def leave (r : List Val) (outer : List Value) : Outcome → Outcome
  | .normal c => .normal { c with stack := c.stack ++ outer }
  | .br 0 c =>
    match popArgs r c.stack with
    | some (vs, _) => .normal { c with stack := vs.reverse ++ outer }
    | none => .stuck
  | .br (l + 1) c => .br l c
  | o => o

/-- End of a function (4.4.7): its results on top of the caller's stack. -/
def leaveFunc (t : FuncTy) (caller : Conf) : Outcome → Outcome
  | .normal c =>
    match popArgs t.results c.stack with
    | some (vs, []) => .normal ⟨c.store, caller.locals, vs.reverse ++ caller.stack⟩
    | _ => .stuck
  | .br 0 c | .ret c =>
    match popArgs t.results c.stack with
    | some (vs, _) => .normal ⟨c.store, caller.locals, vs.reverse ++ caller.stack⟩
    | none => .stuck
  | .br (_ + 1) _ => .stuck
  | o => o

/-- Invocation of functions (4.4.7, 4.4.8). The code of a function runs in the instance of its own module. -/
def call (M : Machine) (step : Inst → Instr → Conf → Outcome) (fi : FuncInst) (c : Conf) : Outcome :=
  match popArgs fi.type.params c.stack with
  | none => .stuck
  | some (args, rest) =>
    match fi with
    | .own t inst f => leaveFunc t { c with stack := rest } (execs (step inst) f.body ⟨c.store, args ++ f.locals.map zero, []⟩)
    | .host _ id =>
      match M.host id c.store args with
      | (st, some vs) => .normal ⟨st, c.locals, vs.reverse ++ rest⟩
      | (st, none) => .trap st

/-- The object with index `x` of the index space `as`, and its address. -/
def look {α : Type} (as : List Nat) (objs : List α) (x : Nat) : Option (Nat × α) :=
  as[x]?.bind fun a => objs[a]?.map fun o => (a, o)

/-- Instructions (4.4.1 to 4.4.5, 4.4.7) in an instance, with an amount of fuel that every nested execution decreases. -/
def exec (M : Machine) : Nat → Inst → Instr → Conf → Outcome
  | 0, _, _, _ => .timeout
  | n + 1, inst, i, c =>
    match i with
    | .unreachable => .trap c.store
    | .nop => .normal c
    | .block r body => leave r c.stack (execs (exec M n inst) body { c with stack := [] })
    | .loop r body =>
      match execs (exec M n inst) body { c with stack := [] } with
      | .br 0 c' => exec M n inst (.loop r body) { c' with stack := c.stack }
      | o => leave [] c.stack o
    | .ifElse r thn els =>
      popI32 c fun b c => leave r c.stack (execs (exec M n inst) (if b = 0 then els else thn) { c with stack := [] })
    | .elseMark | .endMark => .stuck
    | .br l => .br l.toNat c
    | .brIf l => popI32 c fun b c => if b = 0 then .normal c else .br l.toNat c
    | .brTable ls l => popI32 c fun k c => .br (ls[k.toNat]?.getD l).toNat c
    | .ret => .ret c
    | .call x =>
      match look inst.funcs c.store.funcs x.toNat with
      | some (_, fi) => call M (exec M n) fi c
      | none => .stuck
    | .callIndirect x y =>
      match look inst.tables c.store.tables y.toNat, inst.types[x.toNat]? with
      | some (_, tb), some t =>
        popI32 c fun k c =>
          match tb.elem[k.toNat]? with
          | some (some a) =>
            match c.store.funcs[a]? with
            | some fi => if fi.type = t then call M (exec M n) fi c else .trap c.store
            | none => .stuck
          | _ => .trap c.store
      | _, _ => .stuck
    | .drop => pop c fun _ c => .normal c
    | .select => popI32 c fun b c => pop c fun w c => pop c fun v c =>
        if v.type = w.type then push (if b = 0 then w else v) c else .stuck
    | .localGet x =>
      match c.locals[x.toNat]? with
      | some v => push v c
      | none => .stuck
    | .localSet x => pop c fun v c =>
        if x.toNat < c.locals.length then .normal { c with locals := c.locals.set x.toNat v } else .stuck
    | .localTee x => pop c fun v c =>
        if x.toNat < c.locals.length then push v { c with locals := c.locals.set x.toNat v } else .stuck
    | .globalGet x =>
      match look inst.globals c.store.globals x.toNat with
      | some (_, g) => push g.value c
      | none => .stuck
    | .globalSet x => pop c fun v c =>
        match look inst.globals c.store.globals x.toNat with
        | some (a, g) =>
          if g.mt = .var then .normal { c with store.globals := c.store.globals.set a { g with value := v } } else .stuck
        | none => .stuck
    | .load op _ offset =>
      match look inst.mems c.store.mems 0 with
      | some (_, m) => popI32 c fun a c =>
          let ea := a.toNat + offset.toNat
          let n := (loadType op).2
          if ea + n ≤ 65536 * m.pages then push (loaded op (readMem m ea n)) c else .trap c.store
      | none => .stuck
    | .store op _ offset =>
      match look inst.mems c.store.mems 0 with
      | some (y, m) => pop c fun v c => popI32 c fun a c =>
          let ea := a.toNat + offset.toNat
          let n := (storeType op).2
          if v.type = (storeType op).1 then
            if ea + n ≤ 65536 * m.pages then .normal { c with store.mems := c.store.mems.set y (writeMem m ea n v.bits) } else .trap c.store
          else .stuck
      | none => .stuck
    | .memSize x =>
      match look inst.mems c.store.mems x.toNat with
      | some (_, m) => push (.i32 (BitVec.ofNat 32 m.pages)) c
      | none => .stuck
    | .memGrow x =>
      match look inst.mems c.store.mems x.toNat with
      | some (y, m) => popI32 c fun n c =>
          let pages := m.pages + n.toNat
          let grown : MemInst := { m with pages, byte := fun a => if a < 65536 * m.pages then m.byte a else 0 }
          if pages ≤ pageLimit m ∧ M.grow c.store y pages = true then
            push (.i32 (BitVec.ofNat 32 m.pages)) { c with store.mems := c.store.mems.set y grown }
          else push (.i32 (BitVec.ofInt 32 (-1))) c
      | none => .stuck
    | .constI32 v => push (.i32 v) c
    | .constI64 v => push (.i64 v) c
    | .constF32 v => push (.f32 v) c
    | .constF64 v => push (.f64 v) c
    | .num op =>
      match popArgs (numType op).1 c.stack with
      | some (args, s) =>
        match M.num op args with
        | some v => .normal { c with stack := v :: s }
        | none => .trap c.store
      | none => .stuck

/-! ## Invocation from outside (4.5.5) -/

/-- What a call from outside leads to. -/
inductive Called where
  | values (vs : List Value) (st : Store)
  | trap (st : Store)
  | timeout
  | stuck

/-- Calls the function with address `a`. -/
def invoke (M : Machine) (fuel a : Nat) (args : List Value) (st : Store) : Called :=
  match st.funcs[a]? with
  | none => .stuck
  | some fi =>
    match call M (exec M fuel) fi ⟨st, [], args.reverse⟩ with
    | .normal c => .values c.stack.reverse c.store
    | .trap st => .trap st
    | .timeout => .timeout
    | _ => .stuck

/-! ## Instantiation (4.5.4) -/

/-- Evaluation of a constant expression. -/
def evalConst (M : Machine) (inst : Inst) (st : Store) (e : Expr) : Option Value :=
  match execs (exec M 1 inst) e ⟨st, [], []⟩ with
  | .normal ⟨_, _, [v]⟩ => some v
  | _ => none

/-- Evaluation of an offset. -/
def evalOffset (M : Machine) (inst : Inst) (st : Store) (e : Expr) : Option Nat :=
  match evalConst M inst st e with
  | some (.i32 v) => some v.toNat
  | _ => none

/-- The instance in which initial values of globals are computed: only the imported globals exist (step 7). -/
def auxInst (imports : List Extern) : Inst := { globals := imports.filterMap Extern.global? }

/-- The new instance: imports first, then new objects at the end of the store. -/
def newInst (m : Module) (imports : List Extern) (st : Store) : Inst where
  types := m.types
  funcs := imports.filterMap Extern.func? ++ (List.range m.funcs.length).map (st.funcs.length + ·)
  tables := imports.filterMap Extern.table? ++ (List.range m.tables.length).map (st.tables.length + ·)
  mems := imports.filterMap Extern.mem? ++ (List.range m.mems.length).map (st.mems.length + ·)
  globals := imports.filterMap Extern.global? ++ (List.range m.globals.length).map (st.globals.length + ·)

def newTable (t : TableTy) : TableInst := ⟨t.lim.max.map (·.toNat), List.replicate t.lim.min.toNat none⟩

def newFunc (m : Module) (inst : Inst) (f : Func) : Option FuncInst := m.types[f.ty.toNat]?.map (.own · inst f)

/-- The store after allocation (step 8), given the new functions and the initial values of the new globals. -/
def allocated (m : Module) (st : Store) (fs : List FuncInst) (gs : List Value) : Store where
  funcs := st.funcs ++ fs
  tables := st.tables ++ m.tables.map fun x => newTable x.ty
  mems := st.mems ++ m.mems.map fun x => newMem x.ty
  globals := st.globals ++ (m.globals.zip gs).map fun x => ⟨x.1.ty.mt, x.2⟩
  world := st.world

/-- A segment with its offset: does it fit (steps 9 and 10)? -/
def elemFits (inst : Inst) (st : Store) (e : Elem × Nat) : Option Bool :=
  match look inst.tables st.tables e.1.table.toNat with
  | some (_, tb) =>
    if e.1.init.all (fun x => decide (x.toNat < inst.funcs.length)) then some (decide (e.2 + e.1.init.length ≤ tb.elem.length)) else none
  | none => none

def dataFits (inst : Inst) (st : Store) (d : Data × Nat) : Option Bool :=
  (look inst.mems st.mems d.1.mem.toNat).map fun x => decide (d.2 + d.1.init.length ≤ 65536 * x.2.pages)

/-- Steps 13 and 14. -/
def writeElem (inst : Inst) (st : Store) (e : Elem × Nat) : Store :=
  match inst.tables[e.1.table.toNat]? with
  | some a => { st with tables := st.tables.modify a fun tb =>
      { tb with elem := overwrite e.2 (e.1.init.map fun x => inst.funcs[x.toNat]?) tb.elem } }
  | none => st

def writeData (inst : Inst) (st : Store) (d : Data × Nat) : Store :=
  match inst.mems[d.1.mem.toNat]? with
  | some a => { st with mems := st.mems.modify a fun x =>
      { x with byte := fun i => if d.2 ≤ i then d.1.init[i - d.2]?.getD (x.byte i) else x.byte i } }
  | none => st

/-- What instantiation leads to; `fail`: a segment does not fit. -/
inductive Started where
  | ok (inst : Inst) (st : Store)
  | fail (st : Store)
  | trap (st : Store)
  | timeout
  | stuck

def runStart (M : Machine) (m : Module) (inst : Inst) (fuel : Nat) (st : Store) : Started :=
  match m.start with
  | none => .ok inst st
  | some s =>
    match inst.funcs[s.func.toNat]? with
    | none => .stuck
    | some a =>
      match invoke M fuel a [] st with
      | .values [] st' => .ok inst st'
      | .trap st' => .trap st'
      | .timeout => .timeout
      | _ => .stuck

/-- Instantiation with these imports. That they have the required types (steps 3 and 4) is the business of `Resolved`, below. -/
def instantiate (M : Machine) (m : Module) (imports : List Extern) (fuel : Nat) (st : Store) : Started :=
  let inst := newInst m imports st
  match all (fun (g : Global) => evalConst M (auxInst imports) st g.init) m.globals, all (newFunc m inst) m.funcs with
  | some gs, some fs =>
    let st := allocated m st fs gs
    match all (fun (e : Elem) => evalOffset M inst st e.offset) m.elem, all (fun (d : Data) => evalOffset M inst st d.offset) m.data with
    | some eo, some dof =>
      let es := m.elem.zip eo
      let ds := m.data.zip dof
      match all (elemFits inst st) es, all (dataFits inst st) ds with
      | some be, some bd =>
        if be.all id && bd.all id then runStart M m inst fuel (ds.foldl (writeData inst) (es.foldl (writeElem inst) st)) else .fail st
      | _, _ => .stuck
    | _, _ => .stuck
  | _, _ => .stuck

/-- The value of an export. -/
def exportVal (inst : Inst) (e : Export) : Option Extern :=
  match e.desc with
  | .func x => inst.funcs[x.toNat]?.map .func
  | .table x => inst.tables[x.toNat]?.map .table
  | .mem x => inst.mems[x.toNat]?.map .mem
  | .global x => inst.globals[x.toNat]?.map .global

/-! ## Linking by types (4.5.3) -/

/-- Limits `a` are within limits `b`. -/
def LimitsMatch (a b : Limits) : Prop := b.min.toNat ≤ a.min.toNat ∧ ∀ n, b.max = some n → ∃ k, a.max = some k ∧ k.toNat ≤ n.toNat

/-- Something of the first type may be imported as something of the second. -/
inductive Matches : External → External → Prop
  | func (t : FuncTy) : Matches (.func t) (.func t)
  | table {a b : Limits} (e : ElemTy) : LimitsMatch a b → Matches (.table ⟨a, e⟩) (.table ⟨b, e⟩)
  | mem {a b : Limits} : LimitsMatch a b → Matches (.mem ⟨a⟩) (.mem ⟨b⟩)
  | global (t : GlobalTy) : Matches (.global t) (.global t)

/-- What can be imported, with the type that was reported for it. -/
abbrev Pool := List (Extern × External)

/-- The imports, of which the module's types are `ts`, are resolved by things in the pool. -/
def Resolved (pool : Pool) (ts : List External) (imports : List Extern) : Prop :=
  Each (fun t e => ∃ t', (e, t') ∈ pool ∧ Matches t' t) ts imports

/-- The store and what can be imported or called. -/
structure System where
  store : Store
  pool : Pool

/-- `s` can become `s'` by instantiating modules that are accepted with such imports and exports, and by calling functions of the pool from outside,
whatever this leads to. -/
inductive Reaches (M : Machine) (accepted : Module → ModuleResult → Prop) : System → System → Prop
  | refl (s : System) : Reaches M accepted s s
  | module {s s' : System} {m : Module} {r : ModuleResult} {imports : List Extern} {fuel : Nat} {inst : Inst} {st : Store} :
      Reaches M accepted s s' → accepted m r → Resolved s'.pool r.imports imports →
      instantiate M m imports fuel s'.store = .ok inst st →
      Reaches M accepted s ⟨st, s'.pool ++ (m.exports.filterMap (exportVal inst)).zip r.exports⟩
  | failed {s s' : System} {m : Module} {r : ModuleResult} {imports : List Extern} {fuel : Nat} {st : Store} :
      Reaches M accepted s s' → accepted m r → Resolved s'.pool r.imports imports →
      instantiate M m imports fuel s'.store = .fail st ∨ instantiate M m imports fuel s'.store = .trap st →
      Reaches M accepted s ⟨st, s'.pool⟩
  | call {s s' : System} {a fuel : Nat} {t : FuncTy} {args : List Value} {st : Store} :
      Reaches M accepted s s' → (.func a, .func t) ∈ s'.pool → args.map Value.type = t.params →
      (∃ vs, invoke M fuel a args s'.store = .values vs st) ∨ invoke M fuel a args s'.store = .trap st →
      Reaches M accepted s ⟨st, s'.pool⟩

/-! ## Well-formed stores (7.4) -/

/-- The external value has the type. -/
def ExternOk (st : Store) : Extern → External → Prop
  | .func a, .func t => ∃ fi, st.funcs[a]? = some fi ∧ fi.type = t
  | .table a, .table t => ∃ tb, st.tables[a]? = some tb ∧ t.lim.min.toNat ≤ tb.elem.length ∧
      ∀ n, t.lim.max = some n → ∃ k, tb.max = some k ∧ k ≤ n.toNat
  | .mem a, .mem t => ∃ x, st.mems[a]? = some x ∧ t.lim.min.toNat ≤ x.pages ∧ ∀ n, t.lim.max = some n → ∃ k, x.max = some k ∧ k ≤ n.toNat
  | .global a, .global t => ∃ g, st.globals[a]? = some g ∧ g.mt = t.mt ∧ g.value.type = t.val
  | _, _ => False

/-- An instance of module `m`. -/
structure InstOk (st : Store) (m : Module) (inst : Inst) : Prop where
  types : inst.types = m.types
  funcs : Each (fun t a => ExternOk st (.func a) (.func t)) (funcSpace m) inst.funcs
  tables : Each (fun t a => ExternOk st (.table a) (.table t)) (tableSpace m) inst.tables
  mems : Each (fun t a => ExternOk st (.mem a) (.mem t)) (memSpace m) inst.mems
  globals : Each (fun t a => ExternOk st (.global a) (.global t)) (globalSpace m) inst.globals

/-- Functions with code are well typed in their module, of which there is an instance. -/
def FuncOk (st : Store) : FuncInst → Prop
  | .own t inst f => ∃ m, InstOk st m inst ∧ HasTypes { bodyEnv .w3c m t f.locals with aligned := false } f.body [] t.results
  | .host _ _ => True

structure StoreOk (st : Store) : Prop where
  funcs : ∀ fi ∈ st.funcs, FuncOk st fi
  tables : ∀ tb ∈ st.tables, (∀ n, tb.max = some n → tb.elem.length ≤ n) ∧ ∀ a, some a ∈ tb.elem → a < st.funcs.length
  mems : ∀ x ∈ st.mems, x.pages ≤ pageLimit x

/-- What may happen to a store: objects are added, constants stay, memories grow, tables keep their size. -/
structure Extends (st st' : Store) : Prop where
  funcs : ∃ l, st'.funcs = st.funcs ++ l
  tables : ∀ (a : Nat) (tb : TableInst), st.tables[a]? = some tb → ∃ tb', st'.tables[a]? = some tb' ∧ tb'.max = tb.max ∧ tb'.elem.length = tb.elem.length
  mems : ∀ (a : Nat) (x : MemInst), st.mems[a]? = some x → ∃ y, st'.mems[a]? = some y ∧ y.max = x.max ∧ x.pages ≤ y.pages
  globals : ∀ (a : Nat) (g : GlobalInst), st.globals[a]? = some g → ∃ g', st'.globals[a]? = some g' ∧ g'.mt = g.mt ∧ g'.value.type = g.value.type ∧
    (g.mt = .const → g'.value = g.value)

/-- The numeric operators return values of the right type. -/
def NumOk (M : Machine) : Prop :=
  ∀ op args v, args.map Value.type = (numType op).1 → M.num op args = some v → [v.type] = (numType op).2

/-- Host functions return values of the right type and leave a well-formed store. -/
def HostOk (M : Machine) : Prop :=
  ∀ t id st args st' res, StoreOk st → .host t id ∈ st.funcs → args.map Value.type = t.params → M.host id st args = (st', res) →
    StoreOk st' ∧ Extends st st' ∧ ∀ vs, res = some vs → vs.map Value.type = t.results

/-- The store is well formed, and what can be imported has the type that was reported. -/
structure SystemOk (s : System) : Prop where
  store : StoreOk s.store
  pool : ∀ e t, (e, t) ∈ s.pool → ExternOk s.store e t

/-- The outcomes of a call allowed by validation. -/
def CallOk (s : System) (t : FuncTy) : Called → Prop
  | .values vs st => vs.map Value.type = t.results ∧ SystemOk ⟨st, s.pool⟩ ∧ Extends s.store st
  | .trap st => SystemOk ⟨st, s.pool⟩ ∧ Extends s.store st
  | .timeout => True
  | .stuck => False

/-- The outcomes of instantiation allowed by validation. -/
def StartedOk (s : System) (m : Module) (r : ModuleResult) : Started → Prop
  | .ok inst st => SystemOk ⟨st, s.pool ++ (m.exports.filterMap (exportVal inst)).zip r.exports⟩ ∧ Extends s.store st ∧
      (m.exports.filterMap (exportVal inst)).length = m.exports.length
  | .fail st => SystemOk ⟨st, s.pool⟩ ∧ Extends s.store st
  | .trap st => SystemOk ⟨st, s.pool⟩ ∧ Extends s.store st
  | .timeout => True
  | .stuck => False

end Whasm.Link
