import Verif.Lemmas.Raw
import Verif.Lemmas.DecEq

/-!
# C97: the unsafe code

`size` is `size_of::<T>()`, `slot` is where the compiler has put the variable `result : T`. That the variable has `size` bytes, and that no object is larger
than `isize::MAX`, is guaranteed by Rust: these are hypotheses here.
-/

namespace Whasm
open Raw (RawMem Slot Next Apart quiet)

/-- **C97, no undefined behaviour.** On a target of any width, wherever the variable is, whatever is in memory, whatever the iterator does, as long as
it leaves the variable alone (it has no reference to it). -/
theorem C97_defined {σ : Type} {w : Nat} (h0 : 0 < w) (host : Endian) {size : Nat} {slot : Slot} (hs : slot.size = size) (hw : size < 2 ^ (w - 1))
    {next : Next σ} (ha : Apart next slot) (st : σ) (mem : RawMem) :
    (Raw.parseFloat w host next size slot st mem).1 ≠ .error .undefined := by
  subst hs
  obtain ⟨h1, h2⟩ := Raw.loop_inside hw h0 ha slot.size 0 st (Raw.zero slot mem) (by omega) (Raw.full_zero slot mem)
  unfold Raw.parseFloat
  generalize Raw.loop w next ⟨slot, slot.base⟩ slot.size 0 st (Raw.zero slot mem) = r at h1 h2
  obtain ⟨x, st', mem'⟩ := r
  cases x with
  | error e => exact fun h => h1 (by cases h; rfl)
  | ok u =>
    obtain ⟨bs, hb⟩ := Raw.load_full h2
    simp only [hb]
    exact fun h => by cases h

/-- **C97, nothing else is written.** A byte outside the variable that the iterator does not change is not changed, whatever the sizes are. -/
theorem C97_outside {σ : Type} (w : Nat) (host : Endian) (size : Nat) (slot : Slot) {next : Next σ} {a : Nat} (ho : ¬ (slot.base ≤ a ∧ a < slot.base + slot.size))
    (hi : ∀ st mem, (next st mem).2.2 a = mem a) (st : σ) (mem : RawMem) :
    (Raw.parseFloat w host next size slot st mem).2.2 a = mem a := by
  have h := Raw.loop_outside (w := w) slot.base ho hi size 0 st (Raw.zero slot mem)
  have hz : Raw.zero slot mem a = mem a := by
    have : ¬ slot.Has a := ho
    simp only [Raw.zero, if_neg this]
  rw [hz] at h
  unfold Raw.parseFloat
  generalize Raw.loop w next ⟨slot, slot.base⟩ size 0 st (Raw.zero slot mem) = r at h
  obtain ⟨x, st', mem'⟩ := r
  cases x with
  | error e => exact h
  | ok u =>
    dsimp only
    cases Raw.load? slot mem' <;> exact h

/-- **C97, the value.** The number returned is the one of which the next bytes of the iterator are the memory image; errors and the state of the iterator are
those of reading the bytes. -/
theorem C97_value {σ : Type} {w : Nat} (h0 : 0 < w) (host : Endian) {size : Nat} {slot : Slot} (hs : slot.size = size) (hw : size < 2 ^ (w - 1))
    (next : Iter.Next σ) (fuel : Nat) (st : σ) (mem : RawMem) :
    (∀ bs st', Iter.parseN size Iter.parseByte σ next fuel st = (.ok bs, st') →
      ∃ mem', Raw.parseFloat w host (quiet next) size slot st mem = (.ok (loadBits host (8 * size) bs), st', mem')) ∧
    (∀ e st', Iter.parseN size Iter.parseByte σ next fuel st = (.error e, st') →
      ∃ mem', Raw.parseFloat w host (quiet next) size slot st mem = (.error (.error e), st', mem')) := by
  subst hs
  obtain ⟨h1, h2⟩ := Raw.loop_quiet (next := next) hw h0 fuel slot.size 0 st (Raw.zero slot mem) (by omega)
  refine ⟨fun bs st' h => ?_, fun e st' h => ?_⟩
  · obtain ⟨h3, h4⟩ := h1 bs st' h
    exact ⟨_, by simp only [Raw.parseFloat, h4, Nat.add_zero, Raw.load_put h3]; rfl⟩
  · obtain ⟨mem', h4⟩ := h2 e st' h
    exact ⟨mem', by simp only [Raw.parseFloat, h4]⟩

/-- **C97, the models without memory.** On little-endian hosts the function is the one of the other models. -/
theorem C97_same {σ : Type} {w : Nat} (h0 : 0 < w) {size : Nat} {slot : Slot} (hs : slot.size = size) (hw : size < 2 ^ (w - 1))
    (next : Iter.Next σ) (fuel : Nat) (st : σ) (mem : RawMem) (v : BitVec (8 * size)) (st' : σ) :
    (∃ mem', Raw.parseFloat w .little (quiet next) size slot st mem = (.ok v, st', mem')) ↔
      Iter.parseFloat size σ next fuel st = (.ok v, st') := by
  obtain ⟨h1, h2⟩ := C97_value h0 .little hs hw next fuel st mem
  have hp : Iter.parseFloat size σ next fuel st =
      (match Iter.parseN size Iter.parseByte σ next fuel st with
       | (.ok bs, st) => (.ok (leBits (8 * size) bs), st)
       | (.error e, st) => (.error e, st)) := by
    show (Iter.parseN size Iter.parseByte >>= fun bs => pure (leBits (8 * size) bs)) σ next fuel st = _
    simp only [bind, Iter.IP.bind]
    generalize Iter.parseN size Iter.parseByte σ next fuel st = r
    obtain ⟨x, st2⟩ := r
    cases x <;> rfl
  rw [hp]
  generalize Iter.parseN size Iter.parseByte σ next fuel st = r at h1 h2
  obtain ⟨x, st2⟩ := r
  cases x with
  | ok bs =>
    obtain ⟨mem1, h3⟩ := h1 bs st2 rfl
    rw [h3]
    constructor
    · rintro ⟨mem', h⟩; cases h; rfl
    · intro h; cases h; exact ⟨mem1, rfl⟩
  | error e =>
    obtain ⟨mem1, h3⟩ := h2 e st2 rfl
    rw [h3]
    constructor
    · rintro ⟨mem', h⟩; cases h
    · intro h; cases h

/-- **C97, exact.** The bound of the loop is right: with any larger one the function would write behind the variable. -/
theorem C97_exact {w : Nat} (h0 : 0 < w) (host : Endian) (size : Nat) {slot : Slot} (hw : slot.size < 2 ^ (w - 1)) :
    (∀ (σ : Type) (next : Next σ), Apart next slot → ∀ st mem, (Raw.parseFloat w host next size slot st mem).1 ≠ .error .undefined) ↔
      size ≤ slot.size := by
  constructor
  · intro h
    refine Nat.le_of_not_lt fun hlt => ?_
    refine h Unit (quiet fun _ => (some 0, ())) (fun _ _ _ _ => rfl) () (fun _ => none) ?_
    have h1 := Raw.loop_over hw h0 size 0 (Raw.zero slot fun _ => none) (by omega) (by omega)
    unfold Raw.parseFloat
    generalize Raw.loop w (quiet fun _ : Unit => (some 0, ())) ⟨slot, slot.base⟩ size 0 () (Raw.zero slot fun _ => none) = r at h1
    obtain ⟨x, st', mem'⟩ := r
    cases h1
    rfl
  · intro hs σ next ha st mem
    obtain ⟨h1, h2⟩ := Raw.loop_inside hw h0 ha size 0 st (Raw.zero slot mem) (by omega) (Raw.full_zero slot mem)
    unfold Raw.parseFloat
    generalize Raw.loop w next ⟨slot, slot.base⟩ size 0 st (Raw.zero slot mem) = r at h1 h2
    obtain ⟨x, st', mem'⟩ := r
    cases x with
    | error e => exact fun h => h1 (by cases h; rfl)
    | ok u =>
      obtain ⟨bs, hb⟩ := Raw.load_full h2
      simp only [hb]
      exact fun h => by cases h

/-! ## Examples -/

/-- An iterator that yields the bytes of the number π and writes its position to address 50. -/
def piIter : Next Nat := fun n mem => ([0xDB, 0x0F, 0x49, 0x40][n]?, n + 1, fun a => if a = 50 then some (UInt8.ofNat n) else mem a)

/-- What is at the addresses 99 to 104 after the call, and at 50. -/
def around (r : Except Raw.Stop (BitVec 32) × Nat × RawMem) : Except Raw.Stop (BitVec 32) × Nat × List (Option Byte) :=
  (r.1, r.2.1, [99, 100, 101, 102, 103, 104, 50].map r.2.2)

example : around (Raw.parseFloat 64 .little piIter 4 ⟨100, 4⟩ 0 fun _ => some 7) =
    (.ok 0x40490FDB#32, 4, [some 7, some 0xDB, some 0x0F, some 0x49, some 0x40, some 7, some 3]) := by decide +kernel

/-- Two bytes are missing. -/
example : around (Raw.parseFloat 64 .little piIter 4 ⟨100, 4⟩ 2 fun _ => none) =
    (.error (.error .unexpectedEndOfFile), 5, [none, some 0x49, some 0x40, some 0, some 0, none, some 4]) := by decide +kernel

/-- A variable that is too small. -/
example : (Raw.parseFloat 64 .little piIter 4 ⟨100, 3⟩ 0 fun _ => none).1 = .error .undefined := by decide +kernel

/-- Where `isize` has too few bits, the offset becomes negative: the hypothesis on the width is needed. -/
example : (Raw.parseFloat 2 .little piIter 4 ⟨100, 4⟩ 0 fun _ => none).1 = .error .undefined := by decide +kernel

example : Apart piIter ⟨100, 4⟩ := by
  intro st mem a h
  have : a ≠ 50 := fun e => by have := h.1; simp [e] at this
  simp [piIter, this]

example (st : Nat) (mem : RawMem) : (Raw.parseFloat 32 .big piIter 4 ⟨100, 4⟩ st mem).1 ≠ .error .undefined :=
  C97_defined (w := 32) (slot := ⟨100, 4⟩) (by decide) .big rfl (by decide) (fun st mem a h => by
    have : a ≠ 50 := fun e => by have := h.1; simp [e] at this
    simp [piIter, this]) st mem

example (st : Nat) (mem : RawMem) : (Raw.parseFloat 32 .big piIter 8 ⟨100, 4⟩ st mem).2.2 104 = mem 104 :=
  C97_outside 32 .big 8 ⟨100, 4⟩ (by decide) (fun st mem => by simp [piIter]) st mem

end Whasm
