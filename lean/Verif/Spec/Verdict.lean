import Verif.Spec.Validity
import Verif.Spec.Depth
import Verif.Spec.Grammar

/-!
# Files with valid modules
-/

namespace Whasm.Spec

/-- The file holds a module (W3C document, chapter 5) that is valid (chapter 3). -/
def IsWasm (s : List Byte) : Prop := ∃ m, GModule .w3c s m ∧ Valid .w3c m

/-- Modules without the things about which the crate and the document disagree. -/
structure Common (m : Module) : Prop where
  /-- alignments are not more than natural -/
  aligned : ∀ f ∈ m.funcs, ∀ i, Occurs i f.body → AlignOk i
  /-- no branch has the whole body as its target -/
  branches : ∀ f ∈ m.funcs, ∀ i d, OccursAt i d f.body → ∀ l ∈ branchTargets i, l.toNat < d
  /-- globals are not initialised from other globals -/
  inits : ∀ g ∈ m.globals, ∀ x, .globalGet x ∉ g.init
  tables : (tableSpace m).length ≤ 1
  mems : (memSpace m).length ≤ 1
  /-- no memory has exactly 2^16 pages as a limit -/
  limits : ∀ t ∈ memSpace m, t.lim.min ≠ 65536 ∧ t.lim.max ≠ some 65536
  locals : ∀ f ∈ m.funcs, f.locals.length < 2 ^ 32

end Whasm.Spec
