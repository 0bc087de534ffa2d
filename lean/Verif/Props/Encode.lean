import Verif.Lemmas.Encode
import Verif.Props.Module

/-!
# Encoding of modules: C27
-/

namespace Whasm
open Spec

/-- **C27.** What the encoder makes of an encodable module is parsed to that module. -/
theorem C27_roundtrip {m : Module} (h : Encodable .code m) : parseModule (encModule m) = (.ok m, []) :=
  (C23_module _ _ _).mpr ⟨rfl, makes_module canonical_code h⟩

/-- **C27, exactly the encodable modules can be the result of parsing.** -/
theorem C27_exact (m : Module) : (∃ s r, parseModule s = (.ok m, r)) ↔ Encodable .code m := by
  constructor
  · rintro ⟨s, r, h⟩
    exact encodable_of_grammar canonical_code ((C23_module _ _ _).mp h).2
  · intro h
    exact ⟨_, _, C27_roundtrip h⟩

/-- **C27, the encoding is the shortest one that is parsed to the module.** -/
theorem C27_shortest {s r : List Byte} {m : Module} (h : parseModule s = (.ok m, r)) : (encModule m).length ≤ s.length :=
  (module_length ((C23_module _ _ _).mp h).2).1

/-- **C27, normal form**: whatever is parsed can be encoded again. -/
theorem C27_again {s r : List Byte} {m : Module} (h : parseModule s = (.ok m, r)) : parseModule (encModule m) = (.ok m, []) :=
  C27_roundtrip ((C27_exact m).mp ⟨s, r, h⟩)

/-- **C27, the document**: the modules that have an encoding according to W3C are those with zero reserved bytes and less than 2^32 locals
in each function; and the encoding is then one according to W3C. -/
theorem C27_w3c (m : Module) : ((∃ s, GModule .w3c s m) ↔ Encodable .w3c m) ∧ (Encodable .w3c m → GModule .w3c (encModule m) m) :=
  ⟨⟨fun ⟨_, h⟩ => encodable_of_grammar canonical_w3c h, fun h => ⟨_, makes_module canonical_w3c h⟩⟩, makes_module canonical_w3c⟩

/-- **C27, different modules have different encodings.** -/
theorem C27_injective {m m' : Module} (h : Encodable .code m) (h' : Encodable .code m') (he : encModule m = encModule m') : m = m' := by
  have h1 := C27_roundtrip h
  rw [he, C27_roundtrip h'] at h1
  cases h1; rfl

/-- A module with all kinds of sections. -/
def richModule : Module :=
  { types := [⟨[.i32, .f64], [.i64]⟩, ⟨[], []⟩]
    imports := [⟨[0x6D], [0xC3, 0xA9], .func 1⟩, ⟨[], [0x78], .global ⟨.var, .f32⟩⟩]
    funcs := [⟨0, [.i32, .i32, .f32, .i32], [.block [.i64] [.constI64 (-3), .brTable [0, 1] 0],
      .localGet 300, .ifElse [] [.nop] [.constF32 0x7fc00000, .drop], .ifElse [] [.call 0] []]⟩]
    tables := [⟨⟨⟨1, some 200⟩, .funcRef⟩⟩]
    mems := [⟨⟨⟨0x10000, none⟩⟩⟩]
    globals := [⟨⟨.const, .i32⟩, [.constI32 (-64)]⟩]
    exports := [⟨[0x66], .func 1⟩]
    start := some ⟨0⟩
    elem := [⟨0, [.constI32 65], [0, 1]⟩]
    data := [⟨0, [.globalGet 0], [1, 2, 3]⟩] }

example : parseModule (encModule richModule) = (.ok richModule, []) ∧ (encModule richModule).length = 136 := by decide +kernel

-- runs of locals; nothing at all; and a module that has no encoding
example : runs [.i32, .i32, .f32, .i32] = [(2, .i32), (1, .f32), (1, .i32)] ∧ encModule {} = preamble := by decide +kernel

example : ¬ ∃ s r, parseModule s = (.ok { globals := [⟨⟨.const, .i32⟩, [.endMark]⟩] }, r) := by
  rw [C27_exact]
  intro h
  exact h.exprs [.endMark] (by simp [exprsOf]) .endMark (.here (by simp))

end Whasm
