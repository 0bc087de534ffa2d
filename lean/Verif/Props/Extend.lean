import Verif.Lemmas.Extend
import Verif.Lemmas.DecEq

/-!
# C63: definitions can be appended to an accepted module
-/

namespace Whasm
open Spec

/-- **C63, exactly the new definitions have to be checked.** An accepted module extended by further definitions is accepted iff the new
definitions are valid in the extended module; nothing that was accepted before can become invalid. -/
theorem C63_exact {m a : Module} {r : ModuleResult} (h : validateModule m = .ok r) (he : NoElse (extend m a)) :
    (∃ r', validateModule (extend m a) = .ok r') ↔ NewOk m a := by
  have hv := valid_of_ok h fun f hf => he f (List.mem_append_left _ hf)
  exact ⟨fun ⟨_, h'⟩ => (valid_extend hv).mp (valid_of_ok h' he), fun h' => ⟨_, ok_of_valid ((valid_extend hv).mpr h')⟩⟩

/-- **C63, the result**: the types of imports and of the previous exports stay, those of the new exports follow. -/
theorem C63_result {m a : Module} {r r' : ModuleResult} (h : validateModule m = .ok r) (he : NoElse (extend m a))
    (h' : validateModule (extend m a) = .ok r') :
    r'.imports = r.imports ∧ ∃ new, r'.exports = r.exports ++ new ∧ new.length = a.exports.length := by
  have hv := valid_of_ok h fun f hf => he f (List.mem_append_left _ hf)
  have hv' := valid_of_ok h' he
  have e := ok_of_valid hv
  have e' := ok_of_valid hv'
  rw [h] at e; rw [h'] at e'
  cases e; cases e'
  refine ⟨filterMap_same fun i hi => importType_extend hv hi, a.exports.filterMap (exportType (extend m a)), ?_, ?_⟩
  · show (m.exports ++ a.exports).filterMap _ = _
    rw [List.filterMap_append]
    refine congrArg (· ++ _) (filterMap_same fun e he => ?_)
    obtain ⟨t, ht⟩ := Option.isSome_iff_exists.mp (hv.exports e he)
    rw [exportType_extend hv ht, ht]
  · have : ∀ {l : List Export}, (∀ e ∈ l, (exportType (extend m a) e).isSome = true) → (l.filterMap (exportType (extend m a))).length = l.length := by
      intro l
      induction l with
      | nil => exact fun _ => rfl
      | cons x l ih =>
        intro hl
        obtain ⟨t, ht⟩ := Option.isSome_iff_exists.mp (hl x List.mem_cons_self)
        rw [List.filterMap_cons, ht, List.length_cons, List.length_cons, ih fun e he => hl e (List.mem_cons_of_mem _ he)]
    exact this fun e he => hv'.exports e (List.mem_append_right _ he)

/-- A module with a global and a function that reads it. -/
def readsGlobal : Module where
  types := [⟨[], [.i32]⟩]
  funcs := [⟨0, [], [.globalGet 0]⟩]
  globals := [⟨⟨.const, .i32⟩, [.constI32 7]⟩]
  exports := [⟨[0x66], .func 0⟩]

/-- **C63, imports are different**: they come first in the index spaces, so that a further import can invalidate an accepted module, although
the import itself is valid. -/
theorem C63_imports : (∃ r, validateModule readsGlobal = .ok r) ∧
    (∃ r, validateModule { imports := [⟨[], [], .global ⟨.const, .i64⟩⟩] } = .ok r) ∧
    ∀ r, validateModule { readsGlobal with imports := [⟨[], [], .global ⟨.const, .i64⟩⟩] } ≠ .ok r := by
  refine ⟨⟨⟨[], [.func ⟨[], [.i32]⟩]⟩, by decide +kernel⟩, ⟨⟨[.global ⟨.const, .i64⟩], []⟩, by decide +kernel⟩, fun r h => ?_⟩
  have : validateModule { readsGlobal with imports := [⟨[], [], .global ⟨.const, .i64⟩⟩] } = .error .invalid := by decide +kernel
  rw [this] at h
  cases h

/-- A second type, a function calling the first one, and its export. -/
def callsReader : Module where
  types := [⟨[.i64], []⟩]
  funcs := [⟨1, [], [.call 0, .drop]⟩]
  exports := [⟨[0x67], .func 1⟩]

example : validateModule (extend readsGlobal callsReader) = .ok ⟨[], [.func ⟨[], [.i32]⟩, .func ⟨[.i64], []⟩]⟩ := by decide +kernel
/-- The same name once more. -/
example : validateModule (extend readsGlobal { callsReader with exports := [⟨[0x66], .func 1⟩] }) = .error .invalid := by decide +kernel
/-- The new definitions alone are not valid: they refer to the old ones. -/
example : validateModule callsReader = .error .invalid := by decide +kernel

end Whasm
