import Verif.Lemmas.Linker
import Verif.Lemmas.DecEq

/-!
# C86: modules put together from accepted modules
-/

namespace Whasm
open Spec

/-- **C86**: a module put together from parts of accepted modules is accepted. -/
def C86 : Prop := ∀ (ss : List Source) (m' : Module), Assembled ss m' → (∀ s ∈ ss, ∃ r, validateModule s.m = .ok r) → ∃ r, validateModule m' = .ok r

/-- **C86, as far as the code satisfies it**: if the initializers of globals that read globals find the same in the list of the module's own globals, where the code
looks. -/
theorem C86_assembled_partial {ss : List Source} {m' : Module} (h : Assembled ss m') (hi : ∀ s ∈ ss, InitsAgree s.ρ s.m m')
    (hv : ∀ s ∈ ss, ∃ r, validateModule s.m = .ok r) : ∃ r, validateModule m' = .ok r :=
  ⟨_, validate_any_iff.mpr ⟨assembled_accepted h hi fun s hs => by
    obtain ⟨r, hr⟩ := hv s hs
    exact (validate_any_iff.mp hr).1, rfl⟩⟩

/-- **C86, the linker**: an accepted module whose imports are functions of another accepted module, linked to that module, is accepted. The imports of the library
remain, and the exports of both are there, with their types. -/
theorem C86_linker_partial {lib m : Module} {targets : List Idx} (hl : Linkable lib m targets) (hn : NoElse lib ∧ NoElse m) {r r' : ModuleResult}
    (hr : validateModule lib = .ok r) (hr' : validateModule m = .ok r') :
    validateModule (link lib m targets) = .ok ⟨r.imports, r.exports ++ r'.exports⟩ := by
  have ha := valid_of_ok hr hn.1
  have hm := valid_of_ok hr' hn.2
  have e := ok_of_valid ha
  have e' := ok_of_valid hm
  rw [hr] at e; rw [hr'] at e'
  cases e; cases e'
  rw [ok_of_valid (m := link lib m targets) ((valid_extend ha).mpr (newOk_link hl ha hm))]
  have hi : (link lib m targets).imports.filterMap (importType (link lib m targets)) = lib.imports.filterMap (importType lib) :=
    filterMap_same fun i hi => importType_extend ha hi
  unfold externals
  rw [hi, exports_link hl ha hm]

/-- A library: an imported function, a function that calls it, and a global. -/
def library : Module where
  types := [⟨[.i32], []⟩, ⟨[.i32, .i32], [.i64]⟩]
  funcs := [⟨1, [], [.localGet 0, .call 0, .localGet 1, .drop, .globalGet 0]⟩]
  globals := [⟨⟨.const, .i64⟩, [.constI64 5]⟩]
  imports := [⟨[0x65], [0x70], .func 0⟩]
  exports := [⟨[0x66], .func 1⟩]

/-- A program that imports a function of the library, and has a global, a memory and a start function. -/
def program : Module where
  types := [⟨[.i32, .i32], [.i64]⟩, ⟨[], []⟩]
  funcs := [⟨1, [], [.constI32 8, .constI32 1, .globalGet 0, .call 0, .store .i64Store 0 0, .block [] [.call 1]]⟩]
  mems := [⟨⟨⟨1, none⟩⟩⟩]
  globals := [⟨⟨.var, .i32⟩, [.constI32 3]⟩]
  start := some ⟨1⟩
  imports := [⟨[0x6c], [0x66], .func 0⟩]
  exports := [⟨[0x6d], .func 1⟩, ⟨[0x67], .global 0⟩]

/-- Both of them linked. -/
def linked : Module where
  types := [⟨[.i32], []⟩, ⟨[.i32, .i32], [.i64]⟩, ⟨[.i32, .i32], [.i64]⟩, ⟨[], []⟩]
  funcs := [⟨1, [], [.localGet 0, .call 0, .localGet 1, .drop, .globalGet 0]⟩,
    ⟨3, [], [.constI32 8, .constI32 1, .globalGet 1, .call 1, .store .i64Store 0 0, .block [] [.call 2]]⟩]
  mems := [⟨⟨⟨1, none⟩⟩⟩]
  globals := [⟨⟨.const, .i64⟩, [.constI64 5]⟩, ⟨⟨.var, .i32⟩, [.constI32 3]⟩]
  start := some ⟨2⟩
  imports := [⟨[0x65], [0x70], .func 0⟩]
  exports := [⟨[0x66], .func 1⟩, ⟨[0x6d], .func 2⟩, ⟨[0x67], .global 1⟩]

theorem link_program : link library program [1] = linked := by decide +kernel

theorem linkable_program : Linkable library program [1] where
  imports := by decide
  targets := by decide
  types := by decide
  funcs := by decide
  globals := by decide
  oneTable := by decide
  oneMem := by decide
  names := by decide
  inits := fun g hg x hx => by
    obtain rfl := List.mem_singleton.mp hg
    simp at hx

theorem noElse_program : NoElse library ∧ NoElse program := by
  refine ⟨fun f hf => ?_, fun f hf => ?_⟩ <;>
  · obtain rfl := List.mem_singleton.mp hf
    exact (plain_iff.mp (by simp [plainL, plainI])).2

example : validateModule linked = .ok ⟨[.func ⟨[.i32], []⟩], [.func ⟨[.i32, .i32], [.i64]⟩, .func ⟨[], []⟩, .global ⟨.var, .i32⟩]⟩ :=
  link_program ▸ C86_linker_partial linkable_program noElse_program (r := ⟨[.func ⟨[.i32], []⟩], [.func ⟨[.i32, .i32], [.i64]⟩]⟩)
    (r' := ⟨[.func ⟨[.i32, .i32], [.i64]⟩], [.func ⟨[], []⟩, .global ⟨.var, .i32⟩]⟩) (by decide +kernel) (by decide +kernel)

/-- Linked to a function of another type, the program is no longer accepted. -/
example : (match validateModule (link library program [0]) with | .ok _ => true | .error _ => false) = false := by decide +kernel

theorem occursFlat {e : List Instr} (h : e.all fun | .block _ _ => false | .loop _ _ => false | .ifElse _ _ _ => false | _ => true) {j : Instr}
    (hj : Occurs j e) : j ∈ e := by
  rw [List.all_eq_true] at h
  cases hj with
  | here hj => exact hj
  | block hj => cases h _ hj
  | loop hj => cases h _ hj
  | thn hj => cases h _ hj
  | els hj => cases h _ hj

theorem memPair {α : Type} {x a b : α} : x ∈ [a, b] ↔ x = a ∨ x = b := by simp

/-! ## Two modules that import a function from each other -/

def ping : Module where
  types := [⟨[], []⟩, ⟨[.i32], []⟩]
  funcs := [⟨0, [], [.constI32 1, .call 0]⟩]
  imports := [⟨[0x62], [0x67], .func 1⟩]
  exports := [⟨[0x66], .func 1⟩]

def pong : Module where
  types := [⟨[.i32], []⟩, ⟨[], []⟩]
  funcs := [⟨0, [], [.localGet 0, .drop, .call 0]⟩]
  imports := [⟨[0x61], [0x66], .func 1⟩]
  exports := [⟨[0x67], .func 1⟩]

/-- Without imports: the functions call each other. -/
def pingPong : Module where
  types := [⟨[], []⟩, ⟨[.i32], []⟩]
  funcs := [⟨0, [], [.constI32 1, .call 1]⟩, ⟨1, [], [.localGet 0, .drop, .call 0]⟩]
  exports := [⟨[0x66], .func 0⟩, ⟨[0x67], .func 1⟩]

def flip01 (x : Idx) : Idx := if x = 0 then 1 else 0

/-- Function 0 of `ping` is function 1 of `pingPong`, and conversely. -/
def pingSource : Source := ⟨{ funcs := flip01 }, ping⟩

/-- The types of `pong` change places. -/
def pongSource : Source := ⟨{ types := flip01 }, pong⟩

theorem assembled_pingPong : Assembled [pingSource, pongSource] pingPong := by
  have none_of {α : Type} {ss : List Source} {get : Module → List α} {R : Renaming → Module → α → α → Prop} : FromSome ss get R [] :=
    fun _ h => absurd h List.not_mem_nil
  refine {
    types := fun t ht => ⟨pingSource, by simp, t, ht, rfl⟩
    funcs := fun f hf => ?_
    tables := none_of, mems := none_of, globals := none_of, elem := none_of, data := none_of, imports := none_of
    start := fun _ h => by cases h
    exports := fun e he => ?_
    oneTable := by decide, oneMem := by decide, names := by decide }
  · have hf := memPair.mp hf
    rcases hf with rfl | rfl
    · refine ⟨pingSource, by simp, _, List.mem_singleton.mpr rfl, id, rfl, rfl, rfl, fun t ht j hj => ?_⟩
      have hj := occursFlat rfl hj
      simp only [List.mem_cons, List.not_mem_nil, or_false] at hj
      rcases hj with rfl | rfl <;> trivial
    · refine ⟨pongSource, by simp, _, List.mem_singleton.mpr rfl, id, rfl, rfl, rfl, fun t ht j hj => ?_⟩
      have hj := occursFlat rfl hj
      simp only [List.mem_cons, List.not_mem_nil, or_false] at hj
      rcases hj with rfl | rfl | rfl <;> trivial
  · have he := memPair.mp he
    rcases he with rfl | rfl
    · exact ⟨pingSource, by simp, _, List.mem_singleton.mpr rfl, rfl, rfl⟩
    · exact ⟨pongSource, by simp, _, List.mem_singleton.mpr rfl, rfl, rfl⟩

example : ∃ r, validateModule pingPong = .ok r := by
  refine C86_assembled_partial assembled_pingPong ?_ ?_
  · intro s hs
    have hs : s = pingSource ∨ s = pongSource := by simpa using hs
    rcases hs with rfl | rfl <;> exact fun _ h => absurd h List.not_mem_nil
  · intro s hs
    have hs : s = pingSource ∨ s = pongSource := by simpa using hs
    rcases hs with rfl | rfl
    · exact ⟨⟨[.func ⟨[.i32], []⟩], [.func ⟨[], []⟩]⟩, by decide +kernel⟩
    · exact ⟨⟨[.func ⟨[], []⟩], [.func ⟨[.i32], []⟩]⟩, by decide +kernel⟩

/-! ## Violation -/

/-- A module with a global. -/
def oneGlobal : Module := { globals := [⟨⟨.const, .i64⟩, [.constI64 0]⟩] }

/-- A module with a global initialized by an imported one. -/
def copyGlobal : Module := { globals := [⟨⟨.const, .i32⟩, [.globalGet 0]⟩], imports := [⟨[], [], .global ⟨.const, .i32⟩⟩] }

/-- Both put together. -/
def bothGlobals : Module :=
  { globals := [⟨⟨.const, .i64⟩, [.constI64 0]⟩, ⟨⟨.const, .i32⟩, [.globalGet 0]⟩], imports := [⟨[], [], .global ⟨.const, .i32⟩⟩] }

def oneSource : Source := ⟨{ globals := fun _ => 1 }, oneGlobal⟩
def copySource : Source := ⟨{ globals := fun x => if x = 0 then 0 else 2 }, copyGlobal⟩

theorem assembled_globals : Assembled [oneSource, copySource] bothGlobals := by
  have none_of {α : Type} {ss : List Source} {get : Module → List α} {R : Renaming → Module → α → α → Prop} : FromSome ss get R [] :=
    fun _ h => absurd h List.not_mem_nil
  refine {
    types := none_of, funcs := none_of, tables := none_of, mems := none_of, elem := none_of, data := none_of, exports := none_of
    globals := fun g hg => ?_
    start := fun _ h => by cases h
    imports := fun i hi => ⟨copySource, by simp, i, hi, ?_⟩
    oneTable := by decide, oneMem := by decide, names := by decide }
  · have hg := memPair.mp hg
    rcases hg with rfl | rfl
    · exact ⟨oneSource, by simp, _, List.mem_singleton.mpr rfl, rfl, rfl, fun x hx => by simp at hx⟩
    · refine ⟨copySource, by simp, _, List.mem_singleton.mpr rfl, rfl, rfl, fun x hx => ?_⟩
      obtain rfl : x = 0 := by simpa using hx
      rfl
  · obtain rfl := List.mem_singleton.mp hi
    rfl

/-- **The code violates C86**: two modules are accepted, and what is put together from them is not, although it is valid. -/
theorem C86_negation : ¬ C86 := by
  intro h
  obtain ⟨r, hr⟩ := h _ _ assembled_globals fun s hs => by
    have hs : s = oneSource ∨ s = copySource := by simpa using hs
    rcases hs with rfl | rfl
    · exact ⟨⟨[], []⟩, by decide +kernel⟩
    · exact ⟨⟨[.global ⟨.const, .i32⟩], []⟩, by decide +kernel⟩
  have h2 : validateModule bothGlobals = .error .invalid := by decide +kernel
  rw [h2] at hr
  cases hr

-- all of them are valid in the sense of the document
example : Valid .w3c oneGlobal ∧ Valid .w3c copyGlobal ∧ Valid .w3c bothGlobals := by
  have hg : ConstOk { globals := [⟨.const, .i32⟩], aligned := true } [.globalGet 0] .i32 := constOk_iff.mpr (.global rfl)
  have hc (gs : List GlobalTy) : ConstOk { globals := gs, aligned := true } [.constI64 0] .i64 := constOk_iff.mpr (.i64 0)
  refine ⟨⟨?_, by simp [oneGlobal]⟩, ⟨?_, by simp [copyGlobal]⟩, ?_, by simp [bothGlobals]⟩
  · constructor <;> simp [Rules.w3c, oneGlobal, importedTables, importedMems, importedGlobals, tableSpace, memSpace]
    exact hc _
  · constructor <;> simp [Rules.w3c, copyGlobal, importedTables, importedMems, importedGlobals, tableSpace, memSpace, importType]
    exact hg
  · constructor <;> simp [Rules.w3c, bothGlobals, importedTables, importedMems, importedGlobals, tableSpace, memSpace, importType]
    exact ⟨hc _, hg⟩

end Whasm
