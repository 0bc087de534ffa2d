import Verif.Model.GrantTypes
import Verif.Spec.Native
import Verif.Spec.Room
import Verif.Spec.Process

/-!
# What the tool may ask of the machine
-/

namespace Whasm.Spec
open Grant

/-- The machine grants all of a list of requests, one after the other. -/
def GrantsAll (ok : Machine) (t : List Ask) : Prop := ∀ h a rest, t = h ++ a :: rest → ok h a = true

/-- The machine grants the requests of `t` up to some request, which it refuses; `h` are those before. -/
def Refuses (ok : Machine) (t h : List Ask) : Prop := GrantsAll ok h ∧ ∃ a rest, t = h ++ a :: rest ∧ ok h a = false

/-- The calls of the operating system in a list of requests. -/
def systemCalls (t : List Ask) : List Process.Call := t.filterMap fun
  | .system c => some c
  | _ => none

/-- What a call of the operating system writes. -/
def bytesWritten : Process.Call → List Byte
  | .write b => b
  | _ => []

/-- What was written, in a list of requests. -/
def written (t : List Ask) : List Byte := (systemCalls t).flatMap bytesWritten

/-- The bytes that a file gives, from the `i`-th answer on, if at most so many answers are taken. -/
def given (answers : Nat → Process.ReadEvent) : Nat → Nat → Nat
  | 0, _ => 0
  | fuel + 1, i =>
    match answers i with
    | .bytes [] => 0
    | .bytes b => b.length + given answers fuel (i + 1)
    | .interrupted => given answers fuel (i + 1)
    | .failed _ => 0

/-- How a request changes the number of levels of a recursive function. -/
def change (w : Work) : Ask → Int
  | .call v => if v = w then 1 else 0
  | .back v => if v = w then -1 else 0
  | _ => 0

/-- The levels of a recursive function that are on the stack after some requests. -/
def levels (w : Work) : List Ask → Int
  | [] => 0
  | a :: t => change w a + levels w t

/-- The elements that vectors of the parser have asked for, taken together; nothing is freed. -/
def elementsAsked : List Ask → Nat
  | [] => 0
  | .part _ _ more :: t => more + elementsAsked t
  | _ :: t => elementsAsked t

/-- An amount of everything: elements for all vectors of the parser together, entries for each vector of the validator, bytes for the contents of the file, levels of recursive functions. -/
structure Budget where
  parts : Nat
  entries : Entry → Nat
  buffer : Nat
  levels : Work → Nat

/-- A request, after those of `h`, is within the budget. Calls of the operating system and what has a fixed size always are. -/
def Within (b : Budget) (h : List Ask) : Ask → Prop
  | .part _ len more => elementsAsked h + more ≤ b.parts ∧ len + more ≤ b.parts
  | .entry k len more => len + more ≤ b.entries k
  | .scratch n => n ≤ b.entries .names
  | .buffer len more => len + more ≤ b.buffer
  | .call w => Spec.levels w h + 1 ≤ b.levels w
  | .back _ => True
  | .system _ => True
  | .step => True

/-- The machine grants everything that is within the budget. -/
def Affords (ok : Machine) (b : Budget) : Prop := ∀ h a, Within b h a → ok h a = true

/-- A budget for every file of at most `n` bytes. -/
structure Ample (n : Nat) (b : Budget) : Prop where
  parts : 2 ^ 32 * (n + 2) ≤ b.parts
  entries : ∀ k, 2 ^ 32 * (n + 2) + n ≤ b.entries k
  buffer : n ≤ b.buffer
  levels : ∀ w, n + 1 ≤ b.levels w

/-- A budget for a file of `n` bytes that holds the module `m`: elements and entries for the bytes and for the local variables, which need not have a byte each, and levels for the blocks. -/
structure Covers (n : Nat) (m : Module) (b : Budget) : Prop where
  parts : n + localsOf m ≤ b.parts
  entries : ∀ k, k ≠ .locals → n ≤ b.entries k
  locals : ∀ f ∈ m.funcs, slots m.types f ≤ b.entries .locals
  buffer : n ≤ b.buffer
  levels : ∀ w, NestsAtMost (b.levels w) m

/-- The machine grants nothing that is not within the budget. -/
def StaysIn (ok : Machine) (b : Budget) : Prop := ∀ h a, ok h a = true → Within b h a

/-- What a budget has at least, if a file of `n` bytes with the module `m` is accepted, and printed or not. -/
structure Requires (n : Nat) (m : Module) (print : Prop) (b : Budget) : Prop where
  parts : elements m ≤ b.parts
  types : m.types.length ≤ b.entries .types
  funcs : (funcSpace m).length ≤ b.entries .funcs
  tables : (tableSpace m).length ≤ b.entries .tables
  mems : (memSpace m).length ≤ b.entries .mems
  globals : (globalSpace m).length ≤ b.entries .globals
  locals : ∀ f ∈ m.funcs, slots m.types f ≤ b.entries .locals
  frames : ∀ f ∈ m.funcs, depthL f.body < b.entries .frames
  imports : m.imports.length ≤ b.entries .externals
  exports : m.exports.length ≤ b.entries .externals
  names : m.exports.length ≤ b.entries .names
  buffer : n ≤ b.buffer
  levels : ∀ w, w ≠ .print ∨ print → NestsAtMost (b.levels w) m

end Whasm.Spec
