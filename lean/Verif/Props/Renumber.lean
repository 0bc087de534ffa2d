import Verif.Lemmas.Renumber
import Verif.Lemmas.DecEq

/-!
# C74, C75: renumbering definitions and removing unused ones
-/

namespace Whasm
open Spec

/-! ## C74 -/

/-- **C74**: the verdict does not depend on the order and the numbers of the definitions. -/
def C74 : Prop := ∀ (ρ : Renaming) (m m' : Module), Renumbered ρ m m' →
  ((∃ r, validateModule m = .ok r) ↔ ∃ r, validateModule m' = .ok r)

/-- **C74, as far as the code satisfies it**: if the initializers of globals that read globals find the same in the list of the module's own globals,
where the code looks, then a renumbered module is accepted if and only if the module is. -/
theorem C74_verdict_partial {ρ : Renaming} {m m' : Module} (h : Renumbered ρ m m') (hi : InitsAgree ρ m m') :
    (∃ r, validateModule m = .ok r) ↔ ∃ r, validateModule m' = .ok r := by
  constructor
  · rintro ⟨r, hr⟩
    obtain ⟨⟨hd, hf⟩, _⟩ := validate_any_iff.mp hr
    exact ⟨_, validate_any_iff.mpr ⟨partOf_accepted h.toPartOf hi hd hf, rfl⟩⟩
  · rintro ⟨r, hr⟩
    obtain ⟨⟨hd, hf⟩, _⟩ := validate_any_iff.mp hr
    exact ⟨_, validate_any_iff.mpr ⟨renumbered_accepted h hi hd hf, rfl⟩⟩

/-- The same for modules in which no initializer reads a global. -/
theorem C74_constants_partial {ρ : Renaming} {m m' : Module} (h : Renumbered ρ m m') (hn : ∀ g ∈ m.globals, ∀ x, Instr.globalGet x ∉ g.init) :
    (∃ r, validateModule m = .ok r) ↔ ∃ r, validateModule m' = .ok r :=
  C74_verdict_partial h fun g hg x hx => absurd hx (hn g hg x)

/-- The result lists the same types. -/
theorem C74_results_partial {ρ : Renaming} {m m' : Module} (h : Renumbered ρ m m') {r r' : ModuleResult} (hr : validateModule m = .ok r)
    (hr' : validateModule m' = .ok r') : (∀ t, t ∈ r'.imports ↔ t ∈ r.imports) ∧ ∀ t, t ∈ r'.exports ↔ t ∈ r.exports := by
  obtain ⟨_, rfl⟩ := validate_any_iff.mp hr
  obtain ⟨_, rfl⟩ := validate_any_iff.mp hr'
  simp only [externals, List.mem_filterMap]
  refine ⟨fun t => ⟨?_, ?_⟩, fun t => ⟨?_, ?_⟩⟩
  · rintro ⟨i', hi', ht⟩
    obtain ⟨i, hi, hf⟩ := h.imports i' hi'
    exact ⟨i, hi, import_from hf ▸ ht⟩
  · rintro ⟨i, hi, ht⟩
    obtain ⟨i', hi', hf⟩ := h.allImports i hi
    exact ⟨i', hi', (import_from hf).trans ht⟩
  · rintro ⟨e', he', ht⟩
    obtain ⟨e, he, hf⟩ := h.exports e' he'
    exact ⟨e, he, export_from hf ▸ ht⟩
  · rintro ⟨e, he, ht⟩
    obtain ⟨e', he', hf⟩ := h.allExports e he
    exact ⟨e', he', (export_from hf).trans ht⟩

/-- Numbers 0 and 1 swapped. -/
def swap01 (x : Idx) : Idx := if x = 0 then 1 else if x = 1 then 0 else x

/-- Two types, and two functions that call each other, directly and through a table. -/
def firstOrder : Module :=
  { types := [⟨[], [.i32]⟩, ⟨[.i32, .i64], []⟩]
    funcs := [⟨0, [], [.constI32 7, .constI64 8, .call 1, .constI32 3]⟩,
      ⟨1, [], [.localGet 0, .callIndirect 0 0, .drop, .localGet 1, .drop]⟩]
    tables := [⟨⟨⟨1, none⟩, .funcRef⟩⟩]
    elem := [⟨0, [.constI32 0], [0, 1]⟩]
    imports := []
    exports := [⟨[0x61], .func 0⟩, ⟨[0x62], .func 1⟩] }

/-- The same module with types, functions and exports in the other order, and other names. -/
def otherOrder : Module :=
  { types := [⟨[.i32, .i64], []⟩, ⟨[], [.i32]⟩]
    funcs := [⟨0, [], [.localGet 0, .callIndirect 1 0, .drop, .localGet 1, .drop]⟩,
      ⟨1, [], [.constI32 7, .constI64 8, .call 0, .constI32 3]⟩]
    tables := [⟨⟨⟨1, none⟩, .funcRef⟩⟩]
    elem := [⟨0, [.constI32 0], [1, 0]⟩]
    imports := []
    exports := [⟨[0x63], .func 0⟩, ⟨[0x64], .func 1⟩] }

def swapBoth : Renaming := { types := swap01, funcs := swap01 }

theorem occurs_flat {e : List Instr} (h : e.all fun | .block _ _ => false | .loop _ _ => false | .ifElse _ _ _ => false | _ => true) {j : Instr}
    (hj : Occurs j e) : j ∈ e := by
  rw [List.all_eq_true] at h
  cases hj with
  | here hj => exact hj
  | block hj => cases h _ hj
  | loop hj => cases h _ hj
  | thn hj => cases h _ hj
  | els hj => cases h _ hj

theorem from_first : FuncFrom swapBoth firstOrder otherOrder ⟨0, [], [.constI32 7, .constI64 8, .call 1, .constI32 3]⟩
    ⟨1, [], [.constI32 7, .constI64 8, .call 0, .constI32 3]⟩ := by
  refine ⟨id, rfl, rfl, rfl, fun t ht j hj => ?_⟩
  have hj := occurs_flat rfl hj
  simp only [List.mem_cons, List.not_mem_nil, or_false] at hj
  rcases hj with rfl | rfl | rfl | rfl <;> trivial

theorem from_second : FuncFrom swapBoth firstOrder otherOrder ⟨1, [], [.localGet 0, .callIndirect 0 0, .drop, .localGet 1, .drop]⟩
    ⟨0, [], [.localGet 0, .callIndirect 1 0, .drop, .localGet 1, .drop]⟩ := by
  refine ⟨id, rfl, rfl, rfl, fun t ht j hj => ?_⟩
  have hj := occurs_flat rfl hj
  simp only [List.mem_cons, List.not_mem_nil, or_false] at hj
  rcases hj with rfl | rfl | rfl | rfl | rfl <;> trivial

theorem mem_pair {α : Type} {x a b : α} : x ∈ [a, b] ↔ x = a ∨ x = b := by simp

theorem from_pair {α : Type} {R : α → α → Prop} {a b a' b' : α} (ha : R a a') (hb : R b b') : AllFrom R [a, b] [b', a'] ∧ AllIn R [a, b] [b', a'] := by
  refine ⟨fun y hy => ?_, fun x hx => ?_⟩
  · rcases mem_pair.mp hy with rfl | rfl
    · exact ⟨b, by simp, hb⟩
    · exact ⟨a, by simp, ha⟩
  · rcases mem_pair.mp hx with rfl | rfl
    · exact ⟨a', by simp, ha⟩
    · exact ⟨b', by simp, hb⟩

theorem from_one {α : Type} {R : α → α → Prop} {a a' : α} (ha : R a a') : AllFrom R [a] [a'] ∧ AllIn R [a] [a'] :=
  ⟨fun y hy => ⟨a, by simp, List.mem_singleton.mp hy ▸ ha⟩, fun x hx => ⟨a', by simp, List.mem_singleton.mp hx ▸ ha⟩⟩

theorem from_none {α : Type} {R : α → α → Prop} : AllFrom R [] [] ∧ AllIn R [] [] :=
  ⟨fun _ h => absurd h List.not_mem_nil, fun _ h => absurd h List.not_mem_nil⟩

theorem renumbered_order : Renumbered swapBoth firstOrder otherOrder := by
  have t := from_pair (R := Eq) (a := (⟨[], [.i32]⟩ : FuncTy)) (b := ⟨[.i32, .i64], []⟩) rfl rfl
  have f := from_pair from_first from_second
  have tb := from_one (R := Eq) (a := (⟨⟨⟨1, none⟩, .funcRef⟩⟩ : Table)) rfl
  have e := from_one (R := ElemFrom swapBoth firstOrder otherOrder) (a := ⟨0, [.constI32 0], [0, 1]⟩) (a' := ⟨0, [.constI32 0], [1, 0]⟩)
    ⟨rfl, rfl, ⟨rfl, by simp⟩, rfl, fun x hx => by rcases mem_pair.mp hx with rfl | rfl <;> rfl⟩
  have x := from_pair (R := ExportFrom swapBoth firstOrder otherOrder) (a := ⟨[0x61], .func 0⟩) (b := ⟨[0x62], .func 1⟩)
    (a' := ⟨[0x64], .func 1⟩) (b' := ⟨[0x63], .func 0⟩) ⟨rfl, rfl⟩ ⟨rfl, rfl⟩
  exact {
    types := t.1, allTypes := t.2, funcs := f.1, allFuncs := f.2, tables := tb.1, allTables := tb.2, mems := from_none.1, allMems := from_none.2
    globals := from_none.1, allGlobals := from_none.2, elem := e.1, allElem := e.2, data := from_none.1, allData := from_none.2
    start := fun _ h => (by cases h), hasStart := fun _ h => (by cases h), imports := from_none.1, allImports := from_none.2
    exports := x.1, allExports := x.2, tableCount := Nat.le_refl _, sameTableCount := rfl, memCount := Nat.le_refl _, sameMemCount := rfl
    names := fun _ => by decide, sameNames := fun _ => by decide }

-- a renumbered module
example : ∃ r, validateModule otherOrder = .ok r :=
  (C74_constants_partial renumbered_order fun _ h => absurd h List.not_mem_nil).mp 
    ⟨⟨[], [.func ⟨[], [.i32]⟩, .func ⟨[.i32, .i64], []⟩]⟩, by decide +kernel⟩

/-- An imported global, one that is initialized from it, and another one. -/
def globalFirst : Module :=
  { globals := [⟨⟨.const, .i32⟩, [.globalGet 0]⟩, ⟨⟨.const, .i64⟩, [.constI64 0]⟩], imports := [⟨[], [], .global ⟨.const, .i32⟩⟩] }

/-- The module's own globals in the other order. -/
def globalSecond : Module :=
  { globals := [⟨⟨.const, .i64⟩, [.constI64 0]⟩, ⟨⟨.const, .i32⟩, [.globalGet 0]⟩], imports := [⟨[], [], .global ⟨.const, .i32⟩⟩] }

def swapGlobals : Renaming := { globals := fun x => if x = 1 then 2 else if x = 2 then 1 else x }

theorem renumbered_globals : Renumbered swapGlobals globalFirst globalSecond := by
  have g := from_pair (R := GlobalFrom swapGlobals globalFirst globalSecond) (a := ⟨⟨.const, .i32⟩, [.globalGet 0]⟩)
    (b := ⟨⟨.const, .i64⟩, [.constI64 0]⟩) (a' := ⟨⟨.const, .i32⟩, [.globalGet 0]⟩) (b' := ⟨⟨.const, .i64⟩, [.constI64 0]⟩)
    ⟨rfl, rfl, fun x hx => by
      obtain rfl : x = 0 := by simpa using hx
      rfl⟩ ⟨rfl, rfl, fun x hx => by simp at hx⟩
  have i := from_one (R := ImportFrom swapGlobals globalFirst globalSecond) (a := ⟨[], [], .global ⟨.const, .i32⟩⟩)
    (a' := ⟨[], [], .global ⟨.const, .i32⟩⟩) rfl
  exact {
    types := from_none.1, allTypes := from_none.2, funcs := from_none.1, allFuncs := from_none.2, tables := from_none.1, allTables := from_none.2
    mems := from_none.1, allMems := from_none.2, globals := g.1, allGlobals := g.2, elem := from_none.1, allElem := from_none.2
    data := from_none.1, allData := from_none.2, start := fun _ h => (by cases h), hasStart := fun _ h => (by cases h)
    imports := i.1, allImports := i.2, exports := from_none.1, allExports := from_none.2, tableCount := Nat.le_refl _, sameTableCount := rfl
    memCount := Nat.le_refl _, sameMemCount := rfl, names := fun _ => by decide, sameNames := fun _ => by decide }

/-- **The code violates C74**: a module is accepted, and rejected when its own globals are listed in the other order. -/
theorem C74_negation : ¬ C74 := by
  intro h
  obtain ⟨r, hr⟩ := (h _ _ _ renumbered_globals).mp ⟨⟨[.global ⟨.const, .i32⟩], []⟩, by decide +kernel⟩
  have h2 : validateModule globalSecond = .error .invalid := by decide +kernel
  rw [h2] at hr
  cases hr

-- both are valid in the sense of the document
example : Valid .w3c globalFirst ∧ Valid .w3c globalSecond := by
  have hg : ConstOk { globals := [⟨.const, .i32⟩], aligned := true } [.globalGet 0] .i32 := constOk_iff.mpr (.global rfl)
  have hc : ConstOk { globals := [⟨.const, .i32⟩], aligned := true } [.constI64 0] .i64 := constOk_iff.mpr (.i64 0)
  refine ⟨⟨?_, by simp [globalFirst]⟩, ?_, by simp [globalSecond]⟩
  · constructor <;> simp [Rules.w3c, globalFirst, importedTables, importedMems, tableSpace, memSpace, importType]
    exact ⟨hg, hc⟩
  · constructor <;> simp [Rules.w3c, globalSecond, importedTables, importedMems, tableSpace, memSpace, importType]
    exact ⟨hc, hg⟩

/-! ## C75 -/

/-- **C75**: a module that consists of parts of an accepted module, with indices adapted, is accepted. -/
def C75 : Prop := ∀ (ρ : Renaming) (m m' : Module), PartOf ρ m m' → (∃ r, validateModule m = .ok r) → ∃ r, validateModule m' = .ok r

/-- **C75, as far as the code satisfies it**: under the same condition on the initializers of globals as in C74. -/
theorem C75_parts_partial {ρ : Renaming} {m m' : Module} (h : PartOf ρ m m') (hi : InitsAgree ρ m m') {r : ModuleResult}
    (hr : validateModule m = .ok r) : ∃ r', validateModule m' = .ok r' := by
  obtain ⟨⟨hd, hf⟩, _⟩ := validate_any_iff.mp hr
  exact ⟨_, validate_any_iff.mpr ⟨partOf_accepted h hi hd hf, rfl⟩⟩

/-- An unused function can be removed from an accepted module; it may call itself. -/
theorem C75_function {m : Module} {r : ModuleResult} (hr : validateModule m = .ok r) {k : Nat}
    (hu : FuncUnused { m with funcs := m.funcs.eraseIdx k } (funcNumber m k)) : ∃ r', validateModule (dropFunc m k) = .ok r' := by
  obtain ⟨⟨hd, hf⟩, _⟩ := validate_any_iff.mp hr
  exact C75_parts_partial (partOf_dropFunc hd hf hu) (initsAgree_same rfl (ownGlobals_renameAll _ _)) hr

/-- An unused type can be removed from an accepted module. -/
theorem C75_type {m : Module} {r : ModuleResult} (hr : validateModule m = .ok r) {n : Nat} (hu : TypeUnused m n) :
    ∃ r', validateModule (dropType m n) = .ok r' :=
  C75_parts_partial (partOf_dropType hu) (initsAgree_same rfl (ownGlobals_renameAll _ _)) hr

/-- An unused function that calls itself, between two used ones, and an unused type. -/
def deadCode : Module :=
  { types := [⟨[], []⟩, ⟨[.i32], []⟩, ⟨[], [.f32]⟩]
    funcs := [⟨0, [], [.call 1]⟩, ⟨1, [], [.localGet 0, .call 2]⟩, ⟨0, [], [.constI32 1, .call 0, .call 3]⟩]
    imports := [⟨[], [], .func 1⟩]
    exports := [⟨[], .func 3⟩] }

example : dropFunc deadCode 1 =
    { types := [⟨[], []⟩, ⟨[.i32], []⟩, ⟨[], [.f32]⟩]
      funcs := [⟨0, [], [.call 1]⟩, ⟨0, [], [.constI32 1, .call 0, .call 2]⟩]
      imports := [⟨[], [], .func 1⟩]
      exports := [⟨[], .func 2⟩] } := rfl

example : dropType deadCode 2 = { deadCode with types := [⟨[], []⟩, ⟨[.i32], []⟩] } := rfl

example : (∃ r, validateModule (dropFunc deadCode 1) = .ok r) ∧ ∃ r, validateModule (dropType deadCode 2) = .ok r := by
  have h : validateModule deadCode = .ok ⟨[.func ⟨[.i32], []⟩], [.func ⟨[], []⟩]⟩ := by decide +kernel
  constructor
  · refine C75_function h ⟨fun f hf x hx => ?_, by simp [deadCode], by simp [deadCode], fun e he x hx => ?_⟩
    · rcases mem_pair.mp hf with rfl | rfl
      · have hx := occurs_flat rfl hx
        simp at hx
        subst hx
        decide
      · have hx := occurs_flat rfl hx
        simp at hx
        rcases hx with rfl | rfl <;> decide
    · obtain rfl := List.mem_singleton.mp he
      cases hx
      decide
  · refine C75_type h ⟨fun f hf => ?_, fun f hf x y hx => ?_, fun i hi x hx => ?_⟩
    · simp only [deadCode, List.mem_cons, List.not_mem_nil, or_false] at hf
      rcases hf with rfl | rfl | rfl <;> decide
    · simp only [deadCode, List.mem_cons, List.not_mem_nil, or_false] at hf
      rcases hf with rfl | rfl | rfl <;> simpa using occurs_flat rfl hx
    · obtain rfl := List.mem_singleton.mp hi
      cases hx
      decide

/-- An imported global, an unused one, and one that is initialized from the imported one. -/
def deadGlobal : Module :=
  { globals := [⟨⟨.const, .i32⟩, [.constI32 0]⟩, ⟨⟨.var, .i32⟩, [.globalGet 0]⟩], imports := [⟨[], [], .global ⟨.const, .i32⟩⟩] }

/-- The same module without the unused global: `importedInit` with another type. -/
def liveGlobal : Module := { globals := [⟨⟨.var, .i32⟩, [.globalGet 0]⟩], imports := [⟨[], [], .global ⟨.const, .i32⟩⟩] }

/-- **The code violates C75**: an accepted module is rejected when an unused global is removed. -/
theorem C75_negation : ¬ C75 := by
  intro h
  have hp : PartOf { globals := closeUp 1 } deadGlobal liveGlobal := {
    types := from_none.1, funcs := from_none.1, tables := from_none.1, mems := from_none.1
    globals := fun g hg => ⟨g, List.mem_cons_of_mem _ hg, by
      obtain rfl := List.mem_singleton.mp hg
      refine ⟨rfl, rfl, fun x hx => ?_⟩
      obtain rfl : x = 0 := by simpa using hx
      rfl⟩
    elem := from_none.1, data := from_none.1, start := fun _ h => (by cases h)
    imports := (from_one (R := ImportFrom _ _ _) (a := ⟨[], [], .global ⟨.const, .i32⟩⟩) rfl).1
    exports := from_none.1, tableCount := Nat.le_refl _, memCount := Nat.le_refl _, names := id }
  obtain ⟨r, hr⟩ := h _ _ _ hp ⟨⟨[.global ⟨.const, .i32⟩], []⟩, by decide +kernel⟩
  have h2 : validateModule liveGlobal = .error .invalid := by decide +kernel
  rw [h2] at hr
  cases hr

-- here, too, both are valid in the sense of the document
example : Valid .w3c deadGlobal ∧ Valid .w3c liveGlobal := by
  have hg : ConstOk { globals := [⟨.const, .i32⟩], aligned := true } [.globalGet 0] .i32 := constOk_iff.mpr (.global rfl)
  have hc : ConstOk { globals := [⟨.const, .i32⟩], aligned := true } [.constI32 0] .i32 := constOk_iff.mpr (.i32 0)
  refine ⟨⟨?_, by simp [deadGlobal]⟩, ?_, by simp [liveGlobal]⟩
  · constructor <;> simp [Rules.w3c, deadGlobal, importedTables, importedMems, tableSpace, memSpace, importType]
    exact ⟨hc, hg⟩
  · constructor <;> simp [Rules.w3c, liveGlobal, importedTables, importedMems, tableSpace, memSpace, importType]
    exact hg

end Whasm
