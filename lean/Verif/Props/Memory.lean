import Verif.Lemmas.MemoryOver
import Verif.Lemmas.DecEq

/-!
# C82: the memory that parsing needs

The property: if every vector can have as many elements as the input has bytes (or a fixed multiple), then `Module::parse` returns what it returns with unlimited memory. It is false:
`C82_negation` for rejected and `C82_accepted_negation` for accepted inputs. What is proved is when exactly an accepted input is too large, and how much room is enough for all inputs.
-/

namespace Whasm
open Spec

/-- **C82, no third way, partial.** With any memory and on any input, the process panics or is aborted, or the outcome is that with unlimited memory: too little memory never changes a result.
Missing for C82: that the first case does not occur, see `C82_negation`. -/
theorem C82_same_partial (room : Kind → Nat) (s : List Byte) :
    (Memory.parseModule room s).out.1 = .error .panic ∨ (Memory.parseModule room s).out = parseModule s := (Memory.cost_module room s).same

/-- A module with two functions, in 44 bytes: a block with a `br_table`, and two runs of 5 and 4 local variables. -/
def smallCode : List Byte := preamble ++ [0x01, 0x04, 0x01, 0x60, 0x00, 0x00] ++ [0x03, 0x03, 0x02, 0x00, 0x00] ++
  [0x0A, 0x17, 0x02, 0x0C, 0x00, 0x02, 0x40, 0x41, 0x00, 0x0E, 0x02, 0x00, 0x01, 0x00, 0x0B, 0x0B, 0x08, 0x02, 0x05, 0x7F, 0x04, 0x7E, 0x01, 0x01, 0x0B]

/-- There is room for 9 elements in every vector: enough for the 9 locals of the second function. -/
example : (Memory.parseModule (fun _ => 9) smallCode).out = parseModule smallCode ∧ (parseModule smallCode).1 ≠ .error .panic := by decide +kernel

/-- Room for 8 is not enough, though the longest run has 5. -/
example : (Memory.parseModule (fun _ => 8) smallCode).out.1 = .error .panic := by decide +kernel

/-- **C82, accepted inputs, partial.** If an input of `n` bytes is read as `m`, and a vector can have `n` bytes and `n` indices: the result is `m` with limited memory, too, iff
every vector of `m` has room, and otherwise it is a panic. (The bytes and indices are for the names of custom sections and for the function section, which are not in `m`.) -/
theorem C82_exact_partial {s r : List Byte} {m : Module} (h : parseModule s = (.ok m, r)) {room : Kind → Nat} (hb : s.length ≤ room .byte) (hi : s.length ≤ room .idx) :
    (HasRoom room m → (Memory.parseModule room s).out = (.ok m, r)) ∧ (¬ HasRoom room m → (Memory.parseModule room s).out.1 = .error .panic) := by
  refine ⟨fun hr => Memory.enough_module room s m r hb hi h hr, fun hr => ?_⟩
  rcases C82_same_partial room s with hs | hs
  · exact hs
  · rw [h] at hs
    exact absurd ((Memory.makes_module room s m r hs).1 fun u hu => by cases hu) hr

/-- The vectors of the module, the empty ones left out: the type, the functions, the block with its body and labels, the locals and the body of the second function. -/
example : ((parseModule smallCode).1.toOption.map fun m => (vectors m).filter fun v => v.2 ≠ 0) =
    some [(.functype, 1), (.func, 2), (.instr, 1), (.instr, 2), (.idx, 2), (.local, 9), (.instr, 2)] := by decide +kernel

/-- Vectors of all kinds can have 40 elements, but those of instructions only one: too few for the block and for the second body. -/
example : (Memory.parseModule (fun k => if k = .instr then 1 else 40) smallCode).out.1 = .error .panic ∧
    (Memory.parseModule (fun k => if k = .instr then 2 else 40) smallCode).out = parseModule smallCode := by decide +kernel

/-- **C82, how much is requested, partial.** Reading `m` from `n` bytes, memory is requested for `n` elements and for the local variables of `m` at most, and for all elements of the vectors of `m` at least. -/
theorem C82_slots_partial {s r : List Byte} {m : Module} {room : Kind → Nat} (h : (Memory.parseModule room s).out = (.ok m, r)) :
    elements m ≤ (Memory.parseModule room s).slots ∧ (Memory.parseModule room s).slots + r.length ≤ s.length + localsOf m := by
  have h1 := (Memory.makes_module room s m r h).2
  have h2 := ((Memory.cost_module room s).ok m r h).1
  refine ⟨?_, by omega⟩
  simp only [Memory.sum, total, Nat.zero_add] at h1
  exact h1

/-- 21 elements: the 19 of the module and the function section with 2. -/
example : (Memory.parseModule (fun _ => 9) smallCode).slots = 21 ∧ ((parseModule smallCode).1.toOption.map elements) = some 19 ∧ smallCode.length = 44 := by decide +kernel

/-- **C82, only local variables, partial.** If every vector can have as many elements as the input has bytes, and the input is accepted, then only the local variables of a function can be too many. -/
theorem C82_locals_partial {s r : List Byte} {m : Module} (h : parseModule s = (.ok m, r)) {room : Kind → Nat} (hr : ∀ k, s.length ≤ room k) :
    (Memory.parseModule room s).out = (.ok m, r) ↔ ∀ f ∈ m.funcs, f.locals.length ≤ room .local := by
  constructor
  · intro ho f hf
    have := (Memory.makes_module room s m r ho).1 (fun u hu => by cases hu) _ (Memory.locals_mem hf)
    exact this
  · intro hl
    refine (C82_exact_partial h (hr _) (hr _)).1 fun v hv => ?_
    have hall := Memory.enough_module (fun k => max s.length (elements m)) s m r (Nat.le_max_left ..) (Nat.le_max_left ..) h fun u hu =>
      Nat.le_trans (Memory.mem_sum hu) (Nat.le_max_right ..)
    have hs := C82_slots_partial hall
    rcases Memory.other_vectors hv with ho | ⟨f, hf, rfl⟩
    · have := hr v.1
      omega
    · exact hl f hf

/-- The 9 locals of `smallCode` are no problem: the input is longer than that. 100 locals in one run are, if the vector can have 99. -/
example : let s := preamble ++ [0x03, 0x02, 0x01, 0x00] ++ [0x0A, 0x06, 0x01, 0x04, 0x01, 0x64, 0x7E, 0x0B]
    s.length = 20 ∧ (parseModule s).1 = .ok { funcs := [⟨0, List.replicate 100 .i64, []⟩] } ∧ (Memory.parseModule (fun _ => 99) s).out.1 = .error .panic ∧
    (Memory.parseModule (fun k => if k = .local then 100 else 20) s).out = parseModule s := by decide +kernel

/-- **C82, room enough, partial.** Whatever the input, memory is requested for fewer than `2^32` elements for each byte read and two vectors more. -/
theorem C82_worst_partial (room : Kind → Nat) (s : List Byte) : (Memory.parseModule room s).slots ≤ 2 ^ 32 * (s.length + 2) := by
  have h := Memory.cost_module room s
  rcases ho : (Memory.parseModule room s).out with ⟨_ | m, r⟩
  · have := h.err _ _ ho
    omega
  · have := (h.ok _ _ ho).2
    omega

/-- So there is room that is enough for all inputs of a given length. -/
theorem C82_enough_partial {room : Kind → Nat} {s : List Byte} (h : ∀ k, 2 ^ 32 * (s.length + 2) ≤ room k) : (Memory.parseModule room s).out = parseModule s := by
  rcases C82_same_partial room s with hs | hs
  · obtain ⟨k, hk⟩ := Memory.over_module room s _ (Prod.ext hs rfl)
    have := C82_worst_partial room s
    have := h k
    omega
  · exact hs

theorem le_pushRoom {first n k : Nat} (hf : 0 < first) (h : first * 2 ^ k ≤ n) : first * 2 ^ k ≤ pushRoom first n := by
  have h1 : first ≤ n := Nat.le_trans (Nat.le_mul_of_pos_right _ (Nat.two_pow_pos k)) h
  unfold pushRoom
  rw [if_neg (by omega)]
  refine Nat.mul_le_mul_left _ (Nat.pow_le_pow_right (by omega) ?_)
  have h2 : 2 ^ k ≤ n / first := (Nat.le_div_iff_mul_le hf).mpr (by rw [Nat.mul_comm]; exact h)
  exact (Nat.le_log2 (by have := Nat.two_pow_pos k; omega)).mpr h2

theorem le_targetRoom {size : Kind → Nat} (hs : ∀ k, 0 < size k ∧ size k ≤ 128) {bits n : Nat} (h : 2 ^ (n + 8) ≤ 2 ^ (bits - 1)) (hn : 3 ≤ n) (k : Kind) : 2 ^ n ≤ targetRoom bits size k := by
  have hk : ∀ k, 2 ^ n ≤ (2 ^ (bits - 1) - 1) / size k := fun k => by
    refine Nat.le_trans ?_ (Nat.div_le_div_left (hs k).2 (hs k).1)
    rw [Nat.le_div_iff_mul_le (by omega)]
    have : 2 ^ (n + 8) = 2 ^ n * 256 := by rw [Nat.pow_add]
    have := Nat.two_pow_pos n
    omega
  obtain ⟨j, rfl⟩ := Nat.exists_eq_add_of_le hn
  have h8 : 2 ^ (3 + j) = 8 * 2 ^ j := by rw [Nat.pow_add]
  have h4 : 2 ^ (3 + j) = 4 * 2 ^ (j + 1) := by rw [Nat.pow_succ]; omega
  cases k <;> first
    | exact hk _
    | (show _ ≤ pushRoom 8 _; rw [h8]; exact le_pushRoom (by omega) (h8 ▸ hk _))
    | (show _ ≤ pushRoom 4 _; rw [h4]; exact le_pushRoom (by omega) (h4 ▸ hk _))

/-- **C82, targets, partial.** If `usize` has 64 bits and an element of every kind has at most 128 bytes, then no input of less than 8 MB, accepted or not, panics because a vector is longer than `isize::MAX` bytes. -/
theorem C82_target_partial {size : Kind → Nat} (hs : ∀ k, 0 < size k ∧ size k ≤ 128) {s : List Byte} (hl : s.length + 2 ≤ 2 ^ 23) :
    (Memory.parseModule (targetRoom 64 size) s).out = parseModule s := by
  refine C82_enough_partial fun k => ?_
  refine Nat.le_trans ?_ (le_targetRoom hs (n := 55) (Nat.le_refl _) (by omega) k)
  omega

/-- **C82, 32-bit targets, partial.** With 32 bits and values of one byte, an accepted input of at most 8 MB panics iff some function has more than `2^30` local variables. -/
theorem C82_target32_partial {size : Kind → Nat} (hs : ∀ k, 0 < size k ∧ size k ≤ 128) (hv : size .local = 1) {s r : List Byte} {m : Module} (hl : s.length ≤ 2 ^ 23) (h : parseModule s = (.ok m, r)) :
    (Memory.parseModule (targetRoom 32 size) s).out = (.ok m, r) ↔ ∀ f ∈ m.funcs, f.locals.length ≤ 2 ^ 30 := by
  rw [C82_locals_partial h fun k => Nat.le_trans hl (le_targetRoom hs (n := 23) (Nat.le_refl _) (by omega) k)]
  have : targetRoom 32 size .local = 2 ^ 30 := by
    show pushRoom 8 ((2 ^ 31 - 1) / size .local) = _
    rw [hv]
    decide +kernel
  rw [this]

/-- Sizes for which this can be used: one for bytes and values, four for indices, 128 for the rest. -/
def sizes32 : Kind → Nat
  | .byte | .val | .local => 1
  | .idx => 4
  | _ => 128

example : (∀ k, 0 < sizes32 k ∧ sizes32 k ≤ 128) ∧ sizes32 .local = 1 := ⟨fun k => by cases k <;> decide, rfl⟩

example : (Memory.parseModule (targetRoom 32 sizes32) smallCode).out = parseModule smallCode ∧ (Memory.parseModule (targetRoom 64 sizes32) smallCode).out = parseModule smallCode ∧
    (Memory.parseModule (targetRoom 8 sizes32) smallCode).out.1 = .error .panic := by decide +kernel

/-- A type section of 5 bytes that announces `2^32 - 1` types and ends there. -/
def manyTypes : List Byte := preamble ++ [0x01, 0x05, 0xFF, 0xFF, 0xFF, 0xFF, 0x0F]

/-- It is rejected, and with less room it is a panic. -/
theorem manyTypes_panics {room : Kind → Nat} (h : room .functype < 2 ^ 32 - 1) :
    parseModule manyTypes = (.error .unexpectedEndOfFile, []) ∧ (Memory.parseModule room manyTypes).out.1 = .error .panic := by
  refine ⟨by decide +kernel, ?_⟩
  have h1 : (Memory.parseVec .functype Memory.parseFuncTy room [0xFF, 0xFF, 0xFF, 0xFF, 0x0F]).out = (.error .panic, []) := by
    show ((Memory.lift parseU32 >>= _) room _).out = _
    rw [Memory.bind_ok' (p := Memory.lift parseU32) (x := 0xFFFFFFFF#32) (t := []) rfl]
    dsimp only
    rw [Memory.bind_err' (p := Memory.request .functype 0 (0xFFFFFFFF#32).toNat) (e := .panic) (t := [])]
    rw [Memory.request_panic (by show ¬ 0 + 4294967295 ≤ _; omega)]
  have h2 : (Memory.parseSized (Memory.parseVec .functype Memory.parseFuncTy) room [0x05, 0xFF, 0xFF, 0xFF, 0xFF, 0x0F]).out = (.error .panic, []) :=
    Memory.sized_err (n := 5#32) (t := [0xFF, 0xFF, 0xFF, 0xFF, 0x0F]) rfl h1
  have h3 : (Memory.parseIteration {} room [0x01, 0x05, 0xFF, 0xFF, 0xFF, 0xFF, 0x0F]).out = (.error .panic, []) := by
    unfold Memory.parseIteration
    rw [Memory.bind_ok' (p := Memory.lift parseByte) (x := 0x01) (t := [0x05, 0xFF, 0xFF, 0xFF, 0xFF, 0x0F]) rfl]
    rw [if_pos (by decide), if_neg (by decide)]
    show ((Memory.parseSized (Memory.parseVec .functype Memory.parseFuncTy) >>= _) room _).out = _
    rw [Memory.bind_err' h2]
  unfold Memory.parseModule
  rw [Memory.bind_ok' (p := Memory.lift (parseN 4 parseByte)) (x := [0x00, 0x61, 0x73, 0x6D]) (t := [0x01, 0x00, 0x00, 0x00, 0x01, 0x05, 0xFF, 0xFF, 0xFF, 0xFF, 0x0F]) rfl]
  rw [if_neg (by decide)]
  rw [Memory.bind_ok' (p := Memory.lift (parseN 4 parseByte)) (x := [0x01, 0x00, 0x00, 0x00]) (t := [0x01, 0x05, 0xFF, 0xFF, 0xFF, 0xFF, 0x0F]) rfl]
  rw [if_neg (by decide)]
  show ((Memory.parseIteration {} >>= _) room [0x01, 0x05, 0xFF, 0xFF, 0xFF, 0xFF, 0x0F]).out.1 = _
  rw [Memory.bind_err' h3]

/-- The code does not have the property: a factor below `2^28` is not enough. -/
theorem C82_negation : ¬ ∃ a, a < 2 ^ 28 ∧ ∀ (room : Kind → Nat) (s : List Byte), (∀ k, a * s.length ≤ room k) → (Memory.parseModule room s).out = parseModule s := by
  rintro ⟨a, ha, h⟩
  have h := h (fun _ => a * manyTypes.length) manyTypes fun _ => Nat.le_refl _
  have hl : manyTypes.length = 15 := rfl
  have hp := manyTypes_panics (room := fun _ => a * manyTypes.length) (by show a * _ < _; rw [hl]; omega)
  rw [h, hp.1] at hp
  cases hp.2

/-- One function with `2^32 - 1` local variables, in 30 bytes. -/
def hugeFrame : List Byte := preamble ++ [0x01, 0x04, 0x01, 0x60, 0x00, 0x00] ++ [0x03, 0x02, 0x01, 0x00] ++
  [0x0A, 0x0A, 0x01, 0x08, 0x01, 0xFF, 0xFF, 0xFF, 0xFF, 0x0F, 0x7F, 0x0B]

theorem hugeFrame_parses : parseModule hugeFrame = (.ok { types := [⟨[], []⟩], funcs := [⟨0, List.replicate 0xFFFFFFFF .i32 ++ [], []⟩] }, []) := rfl

/-- Nor does it have the property for accepted inputs. -/
theorem C82_accepted_negation : ¬ ∃ a, a < 2 ^ 27 ∧ ∀ (room : Kind → Nat) (s : List Byte) (m : Module), (∀ k, a * s.length ≤ room k) → (parseModule s).1 = .ok m →
    (Memory.parseModule room s).out.1 = .ok m := by
  rintro ⟨a, ha, h⟩
  have hl : hugeFrame.length = 30 := rfl
  have h := h (fun _ => (a + 1) * hugeFrame.length) hugeFrame _ (fun _ => Nat.mul_le_mul_right _ (Nat.le_succ a)) (by rw [hugeFrame_parses])
  have hm := (Memory.makes_module _ _ _ _ (Prod.ext h rfl)).1 (fun u hu => by cases hu) _ (Memory.locals_mem (List.mem_cons_self ..))
  simp only [List.length_append, List.length_replicate, hl] at hm
  simp at hm
  omega

end Whasm
