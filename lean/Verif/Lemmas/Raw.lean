import Verif.Model.Raw

/-!
# Lemmas on the unsafe code (C97)
-/

namespace Whasm.Raw

section
variable {σ : Type}

theorem asIsize_of_lt {w n : Nat} (h : n < 2 ^ (w - 1)) (hw : 0 < w) : asIsize w n = n := by
  have h1 : 2 ^ w = 2 * 2 ^ (w - 1) := by
    obtain ⟨v, rfl⟩ := Nat.exists_eq_succ_of_ne_zero (Nat.ne_of_gt hw)
    simp [Nat.pow_succ, Nat.mul_comm]
  unfold asIsize
  rw [BitVec.toInt_eq_toNat_cond, BitVec.toNat_ofNat, Nat.mod_eq_of_lt (by omega), if_pos (by omega)]

/-- A pointer into a variable, `n` bytes after its beginning. -/
theorem offset_eq {slot : Slot} {n : Nat} (h : n ≤ slot.size) :
    Ptr.offset? ⟨slot, slot.base⟩ (n : Int) = some ⟨slot, slot.base + n⟩ := by
  have h1 : ((slot.base : Int) ≤ (slot.base : Int) + n ∧ (slot.base : Int) + n ≤ (slot.base + slot.size : Int)) := by omega
  simp only [Ptr.offset?, if_pos h1]
  congr 1

theorem write_eq {slot : Slot} {n : Nat} (h : n < slot.size) (b : Byte) (mem : RawMem) :
    Ptr.write? ⟨slot, slot.base + n⟩ b mem = some fun a => if a = slot.base + n then some b else mem a := by
  have h1 : slot.Has (slot.base + n) := ⟨by omega, by omega⟩
  simp only [Ptr.write?, if_pos h1]

theorem write_none {slot : Slot} (b : Byte) (mem : RawMem) : Ptr.write? ⟨slot, slot.base + slot.size⟩ b mem = none := by
  have h1 : ¬ slot.Has (slot.base + slot.size) := fun h => by have := h.2; omega
  simp only [Ptr.write?, if_neg h1]

/-- One round of the loop inside the variable. -/
theorem loop_step {w : Nat} {next : Next σ} {slot : Slot} {k n : Nat} (hn : n < slot.size) (hw : slot.size < 2 ^ (w - 1)) (h0 : 0 < w)
    {st st1 : σ} {mem mem1 : RawMem} {b : Byte} (e : next st mem = (some b, st1, mem1)) :
    loop w next ⟨slot, slot.base⟩ (k + 1) n st mem =
      loop w next ⟨slot, slot.base⟩ k (n + 1) st1 (fun a => if a = slot.base + n then some b else mem1 a) := by
  rw [loop, e]
  simp only [asIsize_of_lt (w := w) (n := n) (by omega) h0, offset_eq (Nat.le_of_lt hn), write_eq hn]

theorem loop_end {w : Nat} {next : Next σ} {p : Ptr} {k n : Nat} {st st1 : σ} {mem mem1 : RawMem} (e : next st mem = (none, st1, mem1)) :
    loop w next p (k + 1) n st mem = (.error (.error .unexpectedEndOfFile), st1, mem1) := by
  rw [loop, e]

/-- All bytes of the variable have a value. -/
def Full (slot : Slot) (mem : RawMem) : Prop := ∀ a, slot.Has a → mem a ≠ none

theorem full_zero (slot : Slot) (mem : RawMem) : Full slot (zero slot mem) := fun a h => by
  simp only [zero, if_pos h]
  exact fun h => by cases h

theorem mapM_some {α β : Type} {f : α → Option β} : ∀ {l : List α}, (∀ x ∈ l, f x ≠ none) → ∃ r, l.mapM f = some r
  | [], _ => ⟨[], rfl⟩
  | x :: l, h => by
    obtain ⟨r, e⟩ := mapM_some fun y hy => h y (List.mem_cons_of_mem _ hy)
    have hx := h x (List.mem_cons_self ..)
    cases e1 : f x with
    | none => exact (hx e1).elim
    | some y => exact ⟨y :: r, by rw [List.mapM_cons, e1, e]; rfl⟩

theorem load_full {slot : Slot} {mem : RawMem} (h : Full slot mem) : ∃ bs, load? slot mem = some bs :=
  mapM_some fun i hi => h _ ⟨by omega, by have := List.mem_range.mp hi; omega⟩

/-- What the loop does as long as it stays inside the variable. -/
theorem loop_inside {w : Nat} {next : Next σ} {slot : Slot} (hw : slot.size < 2 ^ (w - 1)) (h0 : 0 < w) (ha : Apart next slot) :
    ∀ (k n : Nat) (st : σ) (mem : RawMem), n + k ≤ slot.size → Full slot mem →
      (loop w next ⟨slot, slot.base⟩ k n st mem).1 ≠ .error .undefined ∧ Full slot (loop w next ⟨slot, slot.base⟩ k n st mem).2.2
  | 0, _, _, _, _, hf => ⟨(fun h => by cases h), hf⟩
  | k + 1, n, st, mem, hk, hf => by
    have hm := ha st mem
    generalize e : next st mem = r at hm
    obtain ⟨o, st1, mem1⟩ := r
    have hf1 : Full slot mem1 := fun a h => by rw [show mem1 a = mem a from hm a h]; exact hf a h
    cases o with
    | none =>
      rw [loop_end e]
      exact ⟨(fun h => by cases h), hf1⟩
    | some b =>
      rw [loop_step (by omega) hw h0 e]
      refine loop_inside hw h0 ha k (n + 1) st1 _ (by omega) fun a h => ?_
      by_cases hx : a = slot.base + n
      · simp [hx]
      · simp only [if_neg hx]
        exact hf1 a h

/-- The loop changes nothing outside the variable. -/
theorem loop_outside {w : Nat} {next : Next σ} {slot : Slot} (base : Nat) {a : Nat} (ho : ¬ slot.Has a)
    (hi : ∀ st mem, (next st mem).2.2 a = mem a) :
    ∀ (k n : Nat) (st : σ) (mem : RawMem), (loop w next ⟨slot, base⟩ k n st mem).2.2 a = mem a
  | 0, _, _, _ => rfl
  | k + 1, n, st, mem => by
    have hm := hi st mem
    generalize e : next st mem = r at hm
    obtain ⟨o, st1, mem1⟩ := r
    rw [loop, e]
    cases o with
    | none => exact hm
    | some b =>
      dsimp only
      generalize ho1 : Ptr.offset? ⟨slot, base⟩ (asIsize w n) = o
      cases o with
      | none => exact hm
      | some p =>
        have hp : p.slot = slot := by
          simp only [Ptr.offset?] at ho1
          split at ho1
          · cases ho1; rfl
          · cases ho1
        dsimp only
        generalize hq : p.write? b mem1 = q
        cases q with
        | none => exact hm
        | some mem2 =>
          refine (loop_outside base ho hi k (n + 1) st1 mem2).trans ?_
          simp only [Ptr.write?, hp] at hq
          split at hq
          · next hh =>
            cases hq
            have hne : a ≠ p.addr := fun h => ho (h ▸ hh)
            simp only [if_neg hne]
            exact hm
          · cases hq

/-! ## The value -/

/-- The memory with these bytes from this address on. -/
def put (base : Nat) (bs : List Byte) (mem : RawMem) : RawMem := fun a => if base ≤ a ∧ a < base + bs.length then bs[a - base]? else mem a

theorem put_nil (base : Nat) (mem : RawMem) : put base [] mem = mem := by
  funext a
  have : ¬ (base ≤ a ∧ a < base + ([] : List Byte).length) := by simp
  simp only [put, if_neg this]

theorem put_cons (base : Nat) (b : Byte) (bs : List Byte) (mem : RawMem) :
    put base (b :: bs) mem = put (base + 1) bs (fun a => if a = base then some b else mem a) := by
  funext a
  simp only [put, List.length_cons]
  by_cases h : a = base
  · subst h
    have h2 : ¬ (a + 1 ≤ a ∧ a < a + 1 + bs.length) := by omega
    simp [if_neg h2]
  · by_cases h1 : base ≤ a ∧ a < base + (bs.length + 1)
    · have h2 : base + 1 ≤ a ∧ a < base + 1 + bs.length := by omega
      rw [if_pos h1, if_pos h2]
      obtain ⟨j, rfl⟩ : ∃ j, a = base + (j + 1) := ⟨a - base - 1, by omega⟩
      have e1 : base + (j + 1) - base = j + 1 := by omega
      have e2 : base + (j + 1) - (base + 1) = j := by omega
      rw [e1, e2, List.getElem?_cons_succ]
    · have h2 : ¬ (base + 1 ≤ a ∧ a < base + 1 + bs.length) := by omega
      rw [if_neg h1, if_neg h2, if_neg h]

/-- How the loop ends is how reading that many bytes ends, and then they are in memory. -/
theorem loop_quiet {w : Nat} {next : Iter.Next σ} {slot : Slot} (hw : slot.size < 2 ^ (w - 1)) (h0 : 0 < w) (fuel : Nat) :
    ∀ (k n : Nat) (st : σ) (mem : RawMem), n + k ≤ slot.size →
      (∀ bs st', Iter.parseN k Iter.parseByte σ next fuel st = (.ok bs, st') → bs.length = k ∧
        loop w (quiet next) ⟨slot, slot.base⟩ k n st mem = (.ok (), st', put (slot.base + n) bs mem)) ∧
      (∀ e st', Iter.parseN k Iter.parseByte σ next fuel st = (.error e, st') →
        ∃ mem', loop w (quiet next) ⟨slot, slot.base⟩ k n st mem = (.error (.error e), st', mem'))
  | 0, n, st, mem, _ => by
    refine ⟨fun bs st' h => ?_, fun e st' h => ?_⟩
    · cases h
      exact ⟨rfl, by rw [put_nil]; rfl⟩
    · cases h
  | k + 1, n, st, mem, hk => by
    generalize e : next st = r
    obtain ⟨o, st1⟩ := r
    cases o with
    | none =>
      have hl : loop w (quiet next) ⟨slot, slot.base⟩ (k + 1) n st mem = (.error (.error .unexpectedEndOfFile), st1, mem) :=
        loop_end (by simp only [quiet, e])
      have hp : Iter.parseN (k + 1) Iter.parseByte σ next fuel st = (.error .unexpectedEndOfFile, st1) := by
        show (Iter.parseByte >>= fun x => Iter.parseN k Iter.parseByte >>= fun xs => pure (x :: xs)) σ next fuel st = _
        have h1 : Iter.parseByte σ next fuel st = (.error .unexpectedEndOfFile, st1) := by
          show (Iter.nextByte >>= _) σ next fuel st = _
          simp only [bind, Iter.IP.bind, Iter.nextByte, e]
          rfl
        simp only [bind, Iter.IP.bind, h1]
      refine ⟨fun bs st' h => ?_, fun e' st' h => ?_⟩
      · rw [hp] at h; cases h
      · rw [hp] at h; cases h; exact ⟨mem, hl⟩
    | some b =>
      have hl : loop w (quiet next) ⟨slot, slot.base⟩ (k + 1) n st mem =
          loop w (quiet next) ⟨slot, slot.base⟩ k (n + 1) st1 (fun a => if a = slot.base + n then some b else mem a) :=
        loop_step (by omega) hw h0 (by simp only [quiet, e])
      have h1 : Iter.parseByte σ next fuel st = (.ok b, st1) := by
        show (Iter.nextByte >>= _) σ next fuel st = _
        simp only [bind, Iter.IP.bind, Iter.nextByte, e]
        rfl
      obtain ⟨ih1, ih2⟩ := loop_quiet (next := next) hw h0 fuel k (n + 1) st1
        (fun a => if a = slot.base + n then some b else mem a) (by omega)
      have hp : Iter.parseN (k + 1) Iter.parseByte σ next fuel st =
          (match Iter.parseN k Iter.parseByte σ next fuel st1 with
           | (.ok xs, st) => (.ok (b :: xs), st)
           | (.error e, st) => (.error e, st)) := by
        show (Iter.parseByte >>= fun x => Iter.parseN k Iter.parseByte >>= fun xs => pure (x :: xs)) σ next fuel st = _
        simp only [bind, Iter.IP.bind, h1]
        generalize Iter.parseN k Iter.parseByte σ next fuel st1 = r
        obtain ⟨x, st2⟩ := r
        cases x <;> rfl
      rw [hp, hl]
      generalize hr : Iter.parseN k Iter.parseByte σ next fuel st1 = r at ih1 ih2
      obtain ⟨x, st2⟩ := r
      refine ⟨fun bs st' h => ?_, fun e' st' h => ?_⟩
      · cases x with
        | error => cases h
        | ok xs =>
          cases h
          obtain ⟨h2, h3⟩ := ih1 xs st2 rfl
          exact ⟨by simp [h2], by rw [h3, put_cons, Nat.add_assoc]⟩
      · cases x with
        | error => cases h; exact ih2 _ _ rfl
        | ok xs => cases h

theorem mapM_map {α β : Type} {f : α → Option β} : ∀ {l : List α} {r : List β}, l.map f = r.map some → l.mapM f = some r
  | [], [], _ => rfl
  | [], _ :: _, h => by cases h
  | _ :: _, [], h => by cases h
  | x :: l, y :: r, h => by
    rw [List.map_cons, List.map_cons] at h
    injection h with h1 h2
    rw [List.mapM_cons, h1, mapM_map h2]
    rfl

theorem load_put {slot : Slot} {bs : List Byte} (h : bs.length = slot.size) (mem : RawMem) : load? slot (put slot.base bs mem) = some bs := by
  refine mapM_map (List.ext_getElem (by simp [h]) fun i h1 h2 => ?_)
  have hi : i < bs.length := by simpa using h2
  have hc : slot.base ≤ slot.base + i ∧ slot.base + i < slot.base + bs.length := by omega
  simp only [List.getElem_map, List.getElem_range, put, if_pos hc]
  rw [show slot.base + i - slot.base = i by omega, List.getElem?_eq_getElem hi]

/-- The loop goes wrong in the byte after the variable, if it gets that far. -/
theorem loop_over {w : Nat} {slot : Slot} (hw : slot.size < 2 ^ (w - 1)) (h0 : 0 < w) :
    ∀ (k n : Nat) (mem : RawMem), n ≤ slot.size → slot.size < n + k →
      (loop w (quiet fun _ : Unit => (some 0, ())) ⟨slot, slot.base⟩ k n () mem).1 = .error .undefined
  | 0, n, mem, h, h' => by omega
  | k + 1, n, mem, h, h' => by
    by_cases hn : n < slot.size
    · rw [loop_step (st1 := ()) (mem1 := mem) (b := 0) hn hw h0 rfl]
      exact loop_over hw h0 k (n + 1) _ hn (by omega)
    · have : n = slot.size := by omega
      subst this
      rw [loop]
      simp only [quiet, asIsize_of_lt hw h0, offset_eq (Nat.le_refl _), write_none]

end
end Whasm.Raw
