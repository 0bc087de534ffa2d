import Verif.Spec.Frames

/-!
# The registers of an instruction

Whoever executes translated code without a check of the numbers of the registers wants to know that all of them are among those of the function.
-/

namespace Whasm.Run
open Spec

/-- The registers from which a branch copies and to which it does. -/
def Move.uses (b : Move) : List (Nat × Nat) := [(b.src, b.count), (b.dst, b.count)]

/-- The registers that an instruction of a function of type `t` of the module `m` may read or write, each time the first and how many; those of a call are where the arguments are, which become the first registers of the function
that is called, and where its results will be. -/
def RInstr.uses (m : Module) (t : FuncTy) : RInstr → List (Nat × Nat)
  | .goUnless r _ => [(r, 1)]
  | .jump b => b.uses
  | .jumpIf r b => (r, 1) :: b.uses
  | .jumpTable r bs b => (r, 1) :: (b.uses ++ bs.flatMap Move.uses)
  | .const d _ => [(d, 1)]
  | .copy d s => [(d, 1), (s, 1)]
  | .pick d => [(d, 3)]
  | .num op d => [(d, (numType op).1.length), (d, 1)]
  | .globalGet _ d => [(d, 1)]
  | .globalSet _ s => [(s, 1)]
  | .load _ _ d => [(d, 1)]
  | .store _ _ d => [(d, 2)]
  | .memSize _ d => [(d, 1)]
  | .memGrow _ d => [(d, 1)]
  | .call x d => ((funcSpace m)[x]?.map fun t => [(d, t.params.length), (d, t.results.length)]).getD []
  | .callIndirect x _ r d => (r, 1) :: (m.types[x]?.map fun t => [(d, t.params.length), (d, t.results.length)]).getD []
  | .leave s => [(s, t.results.length)]
  | _ => []

/-- The register is among these. -/
def RInstr.touches (m : Module) (t : FuncTy) (i : RInstr) (r : Nat) : Bool := (i.uses m t).any fun w => decide (w.1 ≤ r) && decide (r < w.1 + w.2)

/-- What an instruction does, but with `g` in the registers that are not among some. -/
def REffect.within (U : Nat → Bool) (g : Regs) : REffect → REffect
  | .next st h => .next st fun r => if U r then h r else g r
  | .goto pc h => .goto pc fun r => if U r then h r else g r
  | e => e

end Whasm.Run
