import Verif.Spec.Registers

/-!
# One memory for the registers of all calls

The machine of `Spec/Registers.lean` gives each call registers of its own, as many as there are numbers. This one has a single row of words for all calls, and each call a number from which its registers begin. A call begins
its registers where its caller has put the arguments, so no argument is copied; only the local variables are set to zero. It leaves its results in its first registers, which is where the caller looks for them.

`frame` is the number of registers that a function needs, by what one pass over its opcodes finds. After every step, all words beyond the registers of the call that is being executed are overwritten with whatever one likes
(`spoil`): a machine for which it makes no difference never needs them.
-/

namespace Whasm.Run
open Spec Spec.Pass

/-- A call that is being executed, or waits for another. -/
structure QAct where
  type : FuncTy
  func : Func
  pc : Nat
  base : Nat

/-- A state: a call and those around it, or an end. -/
inductive QState where
  | running (st : Store) (mem : Nat → Cell) (a : QAct) (as : List QAct)
  | finished (st : Store) (vs : List Value)
  | trapped (st : Store)

/-- The words from `b` on as registers. -/
def view (mem : Nat → Cell) (b : Nat) : Regs := fun i => mem (b + i)

/-- These registers as the words from `b` on. -/
def over (mem : Nat → Cell) (b : Nat) (g : Regs) : Nat → Cell := fun i => if b ≤ i then g (i - b) else mem i

/-- The end of a call whose registers begin at `b`. -/
def qleave (st : Store) (mem : Nat → Cell) (b : Nat) (t : FuncTy) (ws : List Cell) : List QAct → QState
  | [] => .finished st (List.zipWith asValue t.results ws)
  | a :: as => .running st (putAll mem b ws) { a with pc := a.pc + 1 } as

/-- The beginning of a call, with arguments in the registers from `d` on. -/
def qinvoke (M : Machine) (st : Store) (mem : Nat → Cell) (a : QAct) (as : List QAct) (d : Nat) : FuncInst → QState
  | .own t f => .running st (putAll mem (a.base + d + t.params.length) (f.locals.map fun _ => 0)) ⟨t, f, 0, a.base + d⟩ (a :: as)
  | .host t id =>
    match M.host id st (List.zipWith asValue t.params (window mem (a.base + d) t.params.length)) with
    | (st', some us) => .running st' (putAll mem (a.base + d) (us.map Value.cell)) { a with pc := a.pc + 1 } as
    | (st', none) => .trapped st'

/-- One step; the ends stay. -/
def qstep (M : Machine) (R : RCodes) : QState → QState
  | .running st mem a as =>
    match (R a.func)[a.pc]? with
    | none => .trapped st
    | some i =>
      match rexec M st (view mem a.base) i with
      | .next st' g => .running st' (over mem a.base g) { a with pc := a.pc + 1 } as
      | .trap st' => .trapped st'
      | .goto pc g => .running st (over mem a.base g) { a with pc := pc } as
      | .call fi d => qinvoke M st mem a as d fi
      | .leave s => qleave st mem a.base a.type (window (view mem a.base) s a.type.results.length) as
  | s => s

/-- All words beyond those of the call become those of `j`. -/
def spoil (N : Func → Nat) (j : Nat → Cell) : QState → QState
  | .running st mem a as => .running st (fun i => if i < a.base + N a.func then mem i else j i) a as
  | s => s

/-- `n` steps; `js` is what is found beyond the registers before each. -/
def qsteps (M : Machine) (R : RCodes) (N : Func → Nat) (js : Nat → Nat → Cell) (s : QState) : Nat → QState
  | 0 => spoil N (js 0) s
  | n + 1 => spoil N (js (n + 1)) (qstep M R (qsteps M R N js s n))

/-- The state in which a function of the module is called, with these words as arguments. -/
def qentered (t : FuncTy) (f : Func) (args : List Cell) (st : Store) : QState := .running st (fresh args) ⟨t, f, 0, 0⟩ []

/-- The number of registers of a function: its parameters and local variables, and as many operands as there are at most at one of its opcodes. -/
def frame (m : Module) (K : Codes) (f : Func) : Nat :=
  ((m.types[f.ty.toNat]?.map fun t => t.params.length).getD 0) + f.locals.length + ((List.range (K f).length).map (heightAt m K f)).foldl max 0

/-- The number of registers of all these calls. -/
def frames (N : Func → Nat) (as : List QAct) : Nat := (as.map fun a => N a.func).sum

end Whasm.Run
