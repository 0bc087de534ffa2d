import Verif.Lemmas.Shortest
import Verif.Props.Encode

/-!
# C66: the shortest binary of a module
-/

namespace Whasm
open Spec

/-- **C66.** A byte string that is parsed to a module with fewer than 2^32 locals in each function is what the encoder makes of the module,
or it is longer. -/
theorem C66_longer {s r : List Byte} {m : Module} (h : parseModule s = (.ok m, r)) (hl : ∀ f ∈ m.funcs, f.locals.length < 2 ^ 32)
    (hs : s ≠ encModule m) : (encModule m).length < s.length :=
  (near_module ((C23_module _ _ _).mp h).2 hl).resolve_left hs

/-- **C66, without mention of an encoder**: of the byte strings that are parsed to the module there is only one of minimal length. -/
theorem C66_unique {s s' r r' : List Byte} {m : Module} (h : parseModule s = (.ok m, r)) (h' : parseModule s' = (.ok m, r'))
    (hl : ∀ f ∈ m.funcs, f.locals.length < 2 ^ 32) (hs : ∀ t q, parseModule t = (.ok m, q) → s.length ≤ t.length)
    (hs' : ∀ t q, parseModule t = (.ok m, q) → s'.length ≤ t.length) : s = s' := by
  have k := hs _ _ (C27_again h)
  have k' := hs' _ _ (C27_again h)
  rcases near_module ((C23_module _ _ _).mp h).2 hl with e | e
  · rcases near_module ((C23_module _ _ _).mp h').2 hl with e' | e'
    · exact e.trans e'.symm
    · omega
  · omega

/-- **C66, the document**: there the number of locals is no condition. -/
theorem C66_w3c {s : List Byte} {m : Module} (h : GModule .w3c s m) : s = encModule m ∨ (encModule m).length < s.length :=
  near_module (gmodule_mono w3c_le_code h) (encodable_of_grammar canonical_w3c h).locals

/-- Two streams that differ in the order of their two runs of locals. -/
def runsUp : List Byte := preamble ++ [0x03, 0x02, 0x01, 0x00, 0x0A, 0x0C, 0x01, 0x0A, 0x02, 0x02, 0x7F, 0xFF, 0xFF, 0xFF, 0xFF, 0x0F, 0x7F, 0x0B]

def runsDown : List Byte := preamble ++ [0x03, 0x02, 0x01, 0x00, 0x0A, 0x0C, 0x01, 0x0A, 0x02, 0xFF, 0xFF, 0xFF, 0xFF, 0x0F, 0x7F, 0x02, 0x7F, 0x0B]

/-- A module with these runs of locals in its only function, which is empty. -/
theorem parse_twoRuns {b : List Byte} {rs : List (Nat × Val)} (hg : GVec .code (GLocals .code) b rs) (hb : b.length = 9) :
    parseModule (preamble ++ ([0x03, 0x02, 0x01, 0x00] ++ ([0x0A, 0x0C, 0x01, 0x0A] ++ (b ++ [0x0B])))) =
      (.ok { funcs := [⟨0, expand rs, []⟩] }, []) := by
  refine (C23_module _ _ _).mpr ⟨rfl, ?_⟩
  have hf : GFunc .code (b ++ ([] ++ [0x0B])) (expand rs, []) := .mk hg trivial (.mk .nil)
  have hs : GSized .code (GFunc .code) ([0x0A] ++ (b ++ ([] ++ [0x0B]))) (expand rs, []) :=
    .mk (len := 10) ⟨by decide, by decide⟩ (by simp [hb]) hf
  have hv : GVec .code (GSized .code (GFunc .code)) ([0x01] ++ (([0x0A] ++ (b ++ ([] ++ [0x0B]))) ++ [])) [(expand rs, [])] :=
    .mk (len := 1) ⟨by decide, by decide⟩ rfl (.cons hs .nil)
  have hc := GVecSection.present (GSection.mk (id := 0x0A) (GSized.mk (D := .code) (n := [0x0C]) (len := 12) ⟨by decide, by decide⟩ (by simp [hb]) hv))
  have ht : GVecSection .code 0x03 Dialect.code.u32 [0x03, 0x02, 0x01, 0x00] [0] :=
    .present (.mk (.mk (n := [0x02]) (len := 2) ⟨by decide, by decide⟩ rfl
      (GVec.mk (D := .code) (n := [0x01]) (bs := [0x00] ++ []) (len := 1) ⟨by decide, by decide⟩ rfl (.cons ⟨by decide, by decide⟩ .nil))))
  have := GModule.mk (m := { funcs := [⟨0, expand rs, []⟩] }) .nil .absent .nil .absent .nil ht .nil .absent .nil .absent .nil .absent .nil .absent
    .nil .absent .nil .absent .nil (.paired hc rfl) .nil .absent .nil
  simpa [preamble] using this

theorem expand_two (n k : Nat) (t : Val) : expand [(n, t), (k, t)] = List.replicate (n + k) t := by
  simp [expand, List.replicate_append_replicate]

/-- **C66, the number of locals matters**: a module with 2^32 + 1 locals in a function has two shortest binaries. -/
theorem C66_locals : ∃ m : Module, parseModule runsUp = (.ok m, []) ∧ parseModule runsDown = (.ok m, []) ∧ runsUp ≠ runsDown ∧
    (∀ t q, parseModule t = (.ok m, q) → runsUp.length ≤ t.length) ∧ (∀ t q, parseModule t = (.ok m, q) → runsDown.length ≤ t.length) := by
  have gu : GVec .code (GLocals .code) ([0x02] ++ (([0x02] ++ [0x7F]) ++ (([0xFF, 0xFF, 0xFF, 0xFF, 0x0F] ++ [0x7F]) ++ []))) [(2, .i32), (2 ^ 32 - 1, .i32)] :=
    .mk (len := 2) ⟨by decide, by decide⟩ rfl (.cons (.mk (n := 2) ⟨by decide, by decide⟩ .i32)
      (.cons (.mk (n := 0xFFFFFFFF) ⟨by decide, by decide⟩ .i32) .nil))
  have gd : GVec .code (GLocals .code) ([0x02] ++ (([0xFF, 0xFF, 0xFF, 0xFF, 0x0F] ++ [0x7F]) ++ (([0x02] ++ [0x7F]) ++ []))) [(2 ^ 32 - 1, .i32), (2, .i32)] :=
    .mk (len := 2) ⟨by decide, by decide⟩ rfl (.cons (.mk (n := 0xFFFFFFFF) ⟨by decide, by decide⟩ .i32)
      (.cons (.mk (n := 2) ⟨by decide, by decide⟩ .i32) .nil))
  have pu := parse_twoRuns gu rfl
  have pd := parse_twoRuns gd rfl
  have hr : runs (expand [(2, .i32), (2 ^ 32 - 1, .i32)]) = [(2, .i32), (2 ^ 32 - 1, .i32)] := by
    have e : expand [(2, .i32), (2 ^ 32 - 1, .i32)] = List.replicate (1 + 1) .i32 ++ (List.replicate ((2 ^ 32 - 2) + 1) .i32 ++ []) := rfl
    rw [e, runs_replicate _ _ 1 (by decide), runs_replicate _ _ (2 ^ 32 - 2) (by decide)]
    decide +kernel
  have hx : expand [(2 ^ 32 - 1, .i32), (2, .i32)] = expand [(2, .i32), (2 ^ 32 - 1, .i32)] := by
    rw [expand_two, expand_two, Nat.add_comm]
  rw [hx] at pd
  generalize expand [(2, .i32), (2 ^ 32 - 1, .i32)] = L at hr pu pd
  have he : (encModule { funcs := [⟨0, L, []⟩] }).length = 26 := by
    simp only [encModule, contents, List.map_cons, List.map_nil, encVec, encFunc, List.flatMap_cons, List.flatMap_nil, hr,
      encSection, List.isEmpty, List.length_cons, List.length_nil]
    decide +kernel
  exact ⟨{ funcs := [⟨0, L, []⟩] }, pu, pd, by decide, fun t q h => by have := C27_shortest h; rw [he] at this; exact this,
    fun t q h => by have := C27_shortest h; rw [he] at this; exact this⟩

-- a size field, a constant, an explicit empty `else` and a custom section that are longer than necessary
example : encModule { globals := [⟨⟨.const, .i32⟩, [.constI32 (-1)]⟩] } = preamble ++ [0x06, 0x06, 0x01, 0x7F, 0x00, 0x41, 0x7F, 0x0B] ∧
    parseModule (preamble ++ [0x06, 0x06, 0x01, 0x7F, 0x00, 0x41, 0x7F, 0x0B]) = (.ok { globals := [⟨⟨.const, .i32⟩, [.constI32 (-1)]⟩] }, []) ∧
    parseModule (preamble ++ [0x06, 0x86, 0x00, 0x01, 0x7F, 0x00, 0x41, 0x7F, 0x0B]) = (.ok { globals := [⟨⟨.const, .i32⟩, [.constI32 (-1)]⟩] }, []) ∧
    parseModule (preamble ++ [0x06, 0x07, 0x01, 0x7F, 0x00, 0x41, 0xFF, 0x7F, 0x0B]) = (.ok { globals := [⟨⟨.const, .i32⟩, [.constI32 (-1)]⟩] }, []) ∧
    parseModule (preamble ++ [0x00, 0x01, 0x00, 0x06, 0x06, 0x01, 0x7F, 0x00, 0x41, 0x7F, 0x0B]) =
      (.ok { globals := [⟨⟨.const, .i32⟩, [.constI32 (-1)]⟩] }, []) := by decide +kernel

example : parseModule (preamble ++ [0x06, 0x0A, 0x01, 0x7F, 0x00, 0x41, 0x00, 0x04, 0x40, 0x05, 0x0B, 0x0B]) =
      (.ok { globals := [⟨⟨.const, .i32⟩, [.constI32 0, .ifElse [] [] []]⟩] }, []) ∧
    encModule { globals := [⟨⟨.const, .i32⟩, [.constI32 0, .ifElse [] [] []]⟩] } =
      preamble ++ [0x06, 0x09, 0x01, 0x7F, 0x00, 0x41, 0x00, 0x04, 0x40, 0x0B, 0x0B] := by decide +kernel

-- the conditions of `C66_unique` hold of a module that is shortest
example (s r : List Byte) (h : parseModule s = (.ok richModule, r)) (hs : s.length = 136) : s = encModule richModule := by
  refine C66_unique h (C27_again h) (by decide) (fun t q ht => ?_) fun t q ht => C27_shortest ht
  have := C27_shortest ht
  have e : (encModule richModule).length = 136 := by decide +kernel
  omega

end Whasm
