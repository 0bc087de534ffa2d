import Verif.Model.Place
import Verif.Spec.Reduce

/-!
# Places in the code of a function, and how execution gets there

By the reduction rules of `Spec/Reduce.lean`. A run that gets to a place has executed what comes before it in the innermost block, after it got to that block.
-/

namespace Whasm.Run
open Spec

/-- The instruction at a place. -/
def Place.instr : Place → List Instr → Option Instr
  | .here n, is => is[n]?
  | .inside n p, is =>
    match is[n]? with
    | some (.block _ b) => p.instr b
    | some (.loop _ b) => p.instr b
    | some (.ifElse _ a _) => p.instr a
    | _ => none
  | .inElse n p, is =>
    match is[n]? with
    | some (.ifElse _ _ b) => p.instr b
    | _ => none

/-- `At M is c p c'`: if `is` is executed from `c`, execution gets to the place `p`, with store, local variables and operands (of the innermost block) `c'`. -/
inductive At (M : Machine) : List Instr → Conf → Place → Conf → Prop
  | here {is c n k c'} (hn : n ≤ List.length is) (h : Steps M k c (plains (is.take n)) c' []) : At M is c (.here n) c'
  /-- back at the beginning of a loop -/
  | again {is c n r b c' j c''} (hn : is[n]? = some (.loop r b)) (h : At M is c (.here n) c')
    (hl : Steps M j c' [.plain (.loop r b)] c'' [.plain (.loop r b)]) : At M is c (.here n) c''
  | block {is c n r b c' p c''} (hn : is[n]? = some (.block r b)) (h : At M is c (.here n) c') (hb : At M b ⟨c'.store, c'.locals, []⟩ p c'') : At M is c (.inside n p) c''
  | loop {is c n r b c' p c''} (hn : is[n]? = some (.loop r b)) (h : At M is c (.here n) c') (hb : At M b ⟨c'.store, c'.locals, []⟩ p c'') : At M is c (.inside n p) c''
  | ifThen {is c n r a b st ls k vs p c''} (hn : is[n]? = some (.ifElse r a b)) (h : At M is c (.here n) ⟨st, ls, .i32 k :: vs⟩) (hk : k ≠ 0)
    (hb : At M a ⟨st, ls, []⟩ p c'') : At M is c (.inside n p) c''
  | ifElse {is c n r a b st ls k vs p c''} (hn : is[n]? = some (.ifElse r a b)) (h : At M is c (.here n) ⟨st, ls, .i32 k :: vs⟩) (hk : k = 0)
    (hb : At M b ⟨st, ls, []⟩ p c'') : At M is c (.inElse n p) c''

/-- The next step executes `i` with operands `us`, in the innermost label of a state with values `vs` and instructions `es`; not inside a call. -/
inductive Next : List Value → List Admin → Instr → List Value → Prop
  | here {vs i es} : Next vs (.plain i :: es) i vs
  | label {vs r k ws fs es i us} (h : Next ws fs i us) : Next vs (.label r k ws fs :: es) i us

end Whasm.Run
