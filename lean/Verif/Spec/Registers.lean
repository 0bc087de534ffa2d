import Verif.Spec.Stream

/-!
# Code on registers

A translation of opcodes to code without a stack, and a machine for that code. Each call has registers: the parameters and local variables come first, then one for every operand that can be there, the lowest first. An
instruction names the registers that it reads and writes, so the machine never counts operands. A branch copies the values that it takes along to where they have to be and goes to another place. One opcode becomes one
instruction, at the same number.

The translation knows two things at an opcode that the opcode does not say: how many operands there are, and how a branch leaves them. Both are on the stacks of the algorithm of the appendix when it has come there
(`heightAt` and `passTable`). Memories, tables, globals, numeric operators and functions of the host are those of `Spec/Run.lean`, on words without types as in `Spec/Words.lean`.
-/

namespace Whasm.Run
open Spec Spec.Pass

/-- A branch: the place where it goes on, and `count` registers from `src` that are copied to `dst`. -/
structure Move where
  pc : Nat
  src : Nat
  dst : Nat
  count : Nat
  deriving DecidableEq

/-- An instruction. `d`, `s` and `r` are registers; operands of `pick`, `num`, `load`, `store` and `memGrow` are in the registers from `d` on, the result is left in `d`. -/
inductive RInstr where
  | skip
  | trap
  | go (pc : Nat)
  | goUnless (r pc : Nat)
  | jump (b : Move)
  | jumpIf (r : Nat) (b : Move)
  | jumpTable (r : Nat) (bs : List Move) (b : Move)
  | const (d : Nat) (w : Cell)
  | copy (d s : Nat)
  | pick (d : Nat)
  | num (op : NumOp) (d : Nat)
  | globalGet (x d : Nat)
  | globalSet (x s : Nat)
  | load (op : LoadOp) (o d : Nat)
  | store (op : StoreOp) (o d : Nat)
  | memSize (x d : Nat)
  | memGrow (x d : Nat)
  /-- arguments from `d` on, where the results will be left -/
  | call (x d : Nat)
  | callIndirect (x y r d : Nat)
  /-- results from `s` on -/
  | leave (s : Nat)
  deriving DecidableEq

/-! ## The machine -/

/-- The registers of a call. -/
abbrev Regs := Nat → Cell

def low32 (w : Cell) : BitVec 32 := w.setWidth 32

/-- The contents of `n` registers from `d` on. -/
def window (g : Regs) (d n : Nat) : List Cell := (List.range n).map fun i => g (d + i)

def put (g : Regs) (d : Nat) (w : Cell) : Regs := fun i => if i = d then w else g i

/-- `ws` in the registers from `d` on. -/
def putAll (g : Regs) (d : Nat) (ws : List Cell) : Regs := fun i => if d ≤ i then ws.getD (i - d) (g i) else g i

def shift (g : Regs) (b : Move) : Regs := putAll g b.dst (window g b.src b.count)

/-- What an instruction does. -/
inductive REffect where
  | next (st : Store) (g : Regs)
  | trap (st : Store)
  | goto (pc : Nat) (g : Regs)
  | call (fi : FuncInst) (d : Nat)
  | leave (s : Nat)

def rexec (M : Machine) (st : Store) (g : Regs) : RInstr → REffect
  | .skip => .next st g
  | .trap => .trap st
  | .go pc => .goto pc g
  | .goUnless r pc => if low32 (g r) = 0 then .goto pc g else .next st g
  | .jump b => .goto b.pc (shift g b)
  | .jumpIf r b => if low32 (g r) = 0 then .next st g else .goto b.pc (shift g b)
  | .jumpTable r bs b => .goto (bs.getD (low32 (g r)).toNat b).pc (shift g (bs.getD (low32 (g r)).toNat b))
  | .const d w => .next st (put g d w)
  | .copy d s => .next st (put g d (g s))
  | .pick d => .next st (put g d (if low32 (g (d + 2)) = 0 then g (d + 1) else g d))
  | .num op d =>
    match M.num op (List.zipWith asValue (numType op).1 (window g d (numType op).1.length)) with
    | some v => .next st (put g d v.cell)
    | none => .trap st
  | .globalGet x d => .next st (put g d ((st.globals.map Value.cell).getD x 0))
  | .globalSet x s => .next { st with globals := st.globals.modify x fun old => asValue old.type (g s) } g
  | .load op o d =>
    match st.mems with
    | m :: _ =>
      if (low32 (g d)).toNat + o + (loadType op).2 ≤ 65536 * m.pages then .next st (put g d (loaded op (readMem m ((low32 (g d)).toNat + o) (loadType op).2)).cell) else .trap st
    | [] => .trap st
  | .store op o d =>
    match st.mems with
    | m :: ms =>
      if (low32 (g d)).toNat + o + (storeType op).2 ≤ 65536 * m.pages then
        .next { st with mems := writeMem m ((low32 (g d)).toNat + o) (storeType op).2 (g (d + 1)).toNat :: ms } g
      else .trap st
    | [] => .trap st
  | .memSize x d =>
    match st.mems[x]? with
    | some m => .next st (put g d ((BitVec.ofNat 32 m.pages).setWidth 64))
    | none => .trap st
  | .memGrow x d =>
    match st.mems[x]? with
    | some m =>
      if m.pages + (low32 (g d)).toNat ≤ pageLimit m ∧ M.grow st x (m.pages + (low32 (g d)).toNat) = true then
        .next { st with mems := st.mems.set x { m with pages := m.pages + (low32 (g d)).toNat, byte := fun a => if a < 65536 * m.pages then m.byte a else 0 } }
          (put g d ((BitVec.ofNat 32 m.pages).setWidth 64))
      else .next st (put g d ((BitVec.ofInt 32 (-1)).setWidth 64))
    | none => .trap st
  | .call x d =>
    match M.funcs[x]? with
    | some fi => .call fi d
    | none => .trap st
  | .callIndirect x y r d =>
    match ((st.tables.getD y []).getD (low32 (g r)).toNat none).bind (M.all[·]?) with
    | some fi => if some fi.type = M.types[x]? then .call fi d else .trap st
    | none => .trap st
  | .leave s => .leave s

/-- A call that is being executed. While it waits for another, `base` is where the results of that one are left. -/
structure RAct where
  type : FuncTy
  func : Func
  pc : Nat
  regs : Regs
  base : Nat

/-- A state: a call and those around it, or an end. -/
inductive RState where
  | running (st : Store) (a : RAct) (as : List RAct)
  | finished (st : Store) (vs : List Value)
  | trapped (st : Store)

/-- The end of a call, with these results. -/
def rleave (st : Store) (t : FuncTy) (ws : List Cell) : List RAct → RState
  | [] => .finished st (List.zipWith asValue t.results ws)
  | a :: as => .running st { a with pc := a.pc + 1, regs := putAll a.regs a.base ws } as

/-- The registers at the beginning of a call: the arguments, and zero. -/
def fresh (args : List Cell) : Regs := fun i => args.getD i 0

/-- The beginning of a call, with arguments from `d` on. -/
def rinvoke (M : Machine) (st : Store) (a : RAct) (as : List RAct) (d : Nat) : FuncInst → RState
  | .own t f => .running st ⟨t, f, 0, fresh (window a.regs d t.params.length), 0⟩ ({ a with base := d } :: as)
  | .host t id =>
    match M.host id st (List.zipWith asValue t.params (window a.regs d t.params.length)) with
    | (st', some us) => .running st' { a with pc := a.pc + 1, regs := putAll a.regs d (us.map Value.cell) } as
    | (st', none) => .trapped st'

/-- The code of each function. -/
abbrev RCodes := Func → List RInstr

/-- One step; the ends stay. -/
def rstep (M : Machine) (R : RCodes) : RState → RState
  | .running st a as =>
    match (R a.func)[a.pc]? with
    | none => .trapped st
    | some i =>
      match rexec M st a.regs i with
      | .next st' g => .running st' { a with pc := a.pc + 1, regs := g } as
      | .trap st' => .trapped st'
      | .goto pc g => .running st { a with pc := pc, regs := g } as
      | .call fi d => rinvoke M st a as d fi
      | .leave s => rleave st a.type (window a.regs s a.type.results.length) as
  | s => s

/-- `n` steps. -/
def rsteps (M : Machine) (R : RCodes) : Nat → RState → RState
  | 0, s => s
  | n + 1, s => rsteps M R n (rstep M R s)

/-- The state in which a function of the module is called, with these words as arguments. -/
def rentered (t : FuncTy) (f : Func) (args : List Cell) (st : Store) : RState := .running st ⟨t, f, 0, fresh args, 0⟩ []

/-! ## The translation -/

/-- An instruction that is an opcode: `n` registers are local variables and there are `h` operands. `B l h` is a branch to the label `l` from `h` operands, `P` and `Q` are the numbers of parameters of functions and types,
`k` is the number of results. -/
def rinstr (n h : Nat) (B : Nat → Nat → Move) (P Q : Nat → Nat) (k : Nat) : Instr → RInstr
  | .constI32 v => .const (n + h) (v.setWidth 64)
  | .constI64 v => .const (n + h) v
  | .constF32 v => .const (n + h) (v.setWidth 64)
  | .constF64 v => .const (n + h) v
  | .num op => .num op (n + h - (numType op).1.length)
  | .drop => .skip
  | .select => .pick (n + h - 3)
  | .localGet x => .copy (n + h) x.toNat
  | .localSet x => .copy x.toNat (n + h - 1)
  | .localTee x => .copy x.toNat (n + h - 1)
  | .globalGet x => .globalGet x.toNat (n + h)
  | .globalSet x => .globalSet x.toNat (n + h - 1)
  | .load op _ o => .load op o.toNat (n + h - 1)
  | .store op _ o => .store op o.toNat (n + h - 2)
  | .memSize x => .memSize x.toNat (n + h)
  | .memGrow x => .memGrow x.toNat (n + h - 1)
  | .nop => .skip
  | .unreachable => .trap
  | .br l => .jump (B l.toNat h)
  | .brIf l => .jumpIf (n + h - 1) (B l.toNat (h - 1))
  | .brTable ls l => .jumpTable (n + h - 1) (ls.map fun l => B l.toNat (h - 1)) (B l.toNat (h - 1))
  | .ret => .leave (n + h - k)
  | .call x => .call x.toNat (n + h - P x.toNat)
  | .callIndirect x y => .callIndirect x.toNat y.toNat (n + h - 1) (n + h - 1 - Q x.toNat)
  | _ => .trap

/-- The number of operands that the algorithm of the appendix has after the opcodes before the place. -/
def heightAt (m : Module) (K : Codes) (f : Func) (pc : Nat) : Nat :=
  ((m.types[f.ty.toNat]?.bind fun t => Pass.run (bodyEnv .code m t f.locals) (start t.results) ((K f).take pc)).map fun s => s.opds.length).getD 0

/-- A branch at a place with `n` local variables, from `h` operands. -/
def moveAt (m : Module) (K : Codes) (f : Func) (n pc l h : Nat) : Move :=
  let e := (passTable m K f pc l).getD (0, 0)
  ⟨goal (K f) pc l, n + h - e.1, n + e.2, e.1⟩

/-- The instruction for the opcode at a place. -/
def compileAt (m : Module) (K : Codes) (f : Func) (t : FuncTy) (pc : Nat) : RInstr :=
  let n := t.params.length + f.locals.length
  let h := heightAt m K f pc
  match (K f).drop pc with
  | [] => .trap
  | [.endOp] => .leave (n + h - t.results.length)
  | .endOp :: _ => .skip
  | .elseOp :: ops => .go (pc + 1 + scan 0 ops)
  | .block _ :: _ => .skip
  | .loop _ :: _ => .skip
  | .ifOp _ :: ops => .goUnless (n + h - 1) (pc + 1 + scanElse 0 ops)
  | .instr i :: _ =>
    rinstr n h (moveAt m K f n pc) (fun x => ((funcSpace m)[x]?.map fun t => t.params.length).getD 0) (fun x => (m.types[x]?.map fun t => t.params.length).getD 0) t.results.length i

/-- The code of a function. -/
def compile (m : Module) (K : Codes) : RCodes := fun f =>
  match m.types[f.ty.toNat]? with
  | some t => (List.range (K f).length).map (compileAt m K f t)
  | none => []

end Whasm.Run
