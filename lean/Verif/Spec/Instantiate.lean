import Verif.Spec.Safety

/-!
# Instantiation of modules (W3C document, section 4.5.4)

As for instructions, `stuck` stands for the places where the document relies on validation.
-/

namespace Whasm.Run
open Spec

/-- What the host provides for the imports that are not functions (those are in the machine). -/
structure Provided where
  globals : List Value := []
  mems : List MemInst := []
  tables : List (List (Option Nat)) := []
  world : Nat := 0

/-- The imports have the types that the module asks for; `k` is the number of functions. -/
structure ProvidedOk (m : Module) (k : Nat) (p : Provided) : Prop where
  globals : p.globals.map Value.type = (importedGlobals m).map (·.val)
  mems : Each MemOk (importedMems m) p.mems
  tables : Each (TableOk k) (importedTables m) p.tables

/-- Evaluation of a constant expression. -/
def evalConst (M : Machine) (st : Store) (e : Expr) : Option Value :=
  match execs (exec M 1) e ⟨st, [], []⟩ with
  | .normal ⟨_, _, [v]⟩ => some v
  | _ => none

/-- Evaluation of an offset. -/
def evalOffset (M : Machine) (st : Store) (e : Expr) : Option Nat :=
  match evalConst M st e with
  | some (.i32 v) => some v.toNat
  | _ => none

/-- All results, if there are. -/
def all {α β : Type} (f : α → Option β) : List α → Option (List β)
  | [] => some []
  | x :: xs =>
    match f x, all f xs with
    | some y, some ys => some (y :: ys)
    | _, _ => none

def newMem (t : MemTy) : MemInst := ⟨t.lim.min.toNat, t.lim.max.map (·.toNat), fun _ => 0⟩

def newTable (t : TableTy) : List (Option Nat) := List.replicate t.lim.min.toNat none

/-- The store in which the initial values of globals are computed: only the imported globals exist (step 7). -/
def beforeGlobals (p : Provided) : Store := ⟨p.globals, [], [], p.world⟩

/-- The store after allocation (step 8). -/
def allocated (m : Module) (p : Provided) (gs : List Value) : Store where
  globals := p.globals ++ gs
  mems := p.mems ++ m.mems.map fun x => newMem x.ty
  tables := p.tables ++ m.tables.map fun x => newTable x.ty
  world := p.world

/-- A segment with its offset: does it fit (steps 9 and 10)? -/
def elemFits (M : Machine) (st : Store) (e : Elem × Nat) : Option Bool :=
  match st.tables[e.1.table.toNat]? with
  | some tb => if e.1.init.all (fun x => decide (x.toNat < M.funcs.length)) then some (decide (e.2 + e.1.init.length ≤ tb.length)) else none
  | none => none

def dataFits (st : Store) (d : Data × Nat) : Option Bool :=
  st.mems[d.1.mem.toNat]?.map fun x => decide (d.2 + d.1.init.length ≤ 65536 * x.pages)

/-- Writes the elements `xs` from position `o`. -/
def overwrite {α : Type} (o : Nat) (xs : List α) (l : List α) : List α :=
  l.mapIdx fun i a => if o ≤ i then xs[i - o]?.getD a else a

/-- Steps 13 and 14. -/
def writeElem (st : Store) (e : Elem × Nat) : Store :=
  { st with tables := st.tables.modify e.1.table.toNat (overwrite e.2 (e.1.init.map fun x => some x.toNat)) }

def writeData (st : Store) (d : Data × Nat) : Store :=
  { st with mems := st.mems.modify d.1.mem.toNat fun x =>
      { x with byte := fun a => if d.2 ≤ a then d.1.init[a - d.2]?.getD (x.byte a) else x.byte a } }

/-- What instantiation leads to; `fail`: a segment does not fit. -/
inductive Started where
  | ok (st : Store)
  | fail
  | trap (st : Store)
  | timeout
  | stuck

def runStart (M : Machine) (m : Module) (fuel : Nat) (st : Store) : Started :=
  match m.start with
  | none => .ok st
  | some s =>
    match invoke M fuel s.func.toNat [] st with
    | .values [] st' => .ok st'
    | .trap st' => .trap st'
    | .timeout => .timeout
    | _ => .stuck

/-- Instantiation, given the machine with the functions of the module. -/
def instantiate (M : Machine) (m : Module) (p : Provided) (fuel : Nat) : Started :=
  match all (fun (g : Global) => evalConst M (beforeGlobals p) g.init) m.globals with
  | none => .stuck
  | some gs =>
    let st := allocated m p gs
    match all (fun (e : Elem) => evalOffset M st e.offset) m.elem, all (fun (d : Data) => evalOffset M st d.offset) m.data with
    | some eo, some dof =>
      let es := m.elem.zip eo
      let ds := m.data.zip dof
      match all (elemFits M st) es, all (dataFits st) ds with
      | some be, some bd =>
        if be.all id && bd.all id then runStart M m fuel (ds.foldl writeData (es.foldl writeElem st)) else .fail
      | _, _ => .stuck
    | _, _ => .stuck

/-- The outcomes of instantiation allowed by validation, with `st` the store after allocation. -/
def StartedOk (m : Module) (M : Machine) (st : Store) : Started → Prop
  | .ok st' => StoreOk m M.all.length st' ∧ Evolves m st st'
  | .trap st' => StoreOk m M.all.length st' ∧ Evolves m st st'
  | .fail => True
  | .timeout => True
  | .stuck => False

/-- `st'` can be reached from `st` by calls of functions of the module from outside, whatever they lead to. -/
inductive Reaches (m : Module) (M : Machine) : Store → Store → Prop
  | refl (st : Store) : Reaches m M st st
  | values {st st' st'' : Store} {a fuel : Nat} {t : FuncTy} {args vs : List Value} : Reaches m M st st' → (funcSpace m)[a]? = some t →
      args.map Value.type = t.params → invoke M fuel a args st' = .values vs st'' → Reaches m M st st''
  | trap {st st' st'' : Store} {a fuel : Nat} {t : FuncTy} {args : List Value} : Reaches m M st st' → (funcSpace m)[a]? = some t →
      args.map Value.type = t.params → invoke M fuel a args st' = .trap st'' → Reaches m M st st''

end Whasm.Run
