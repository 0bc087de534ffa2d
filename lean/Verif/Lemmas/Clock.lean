import Verif.Model.Clock
import Verif.Spec.Cost
import Verif.Lemmas.Parser

/-!
# The cost of parsing
-/

namespace Whasm.Clock
open Spec

/-- Steps for each byte. -/
abbrev K : Int := 12

/-- Copies for each byte. -/
abbrev B : Nat := 2 ^ 32 - 1

/-- What is claimed of one run of a parser on `s`, where `q` is the parser without cost: it returns the same; with result `x` it spares `post x` of the steps that the bytes
read pay for; with an error it overdraws by `e` at most; after `j` copies before there are `k x`. -/
structure FitsAt {α : Type} (j : Nat) (r : Run α) (q : Except Error α × List Byte) (s : List Byte) (post : α → Int) (e : Int) (k : α → Nat) : Prop where
  out : r.out = q
  ok : ∀ x t, r.out = (.ok x, t) → r.steps + post x + K * t.length ≤ K * s.length ∧ j + r.copies = k x
  err : ∀ x t, r.out = (.error x, t) → r.steps + K * t.length ≤ K * s.length + e
  copies : r.copies + B * r.out.2.length ≤ B * s.length

/-- The same for all inputs, with at most `D` adapters around the iterator. -/
def Fits {α : Type} (D j : Nat) (p : M α) (q : P α) (post : α → Int) (e : Int) (k : α → Nat) : Prop :=
  ∀ d ≤ D, ∀ s, FitsAt j (p d s) (q s) s post e k

theorem bind_ok' {α β : Type} {p : M α} {f : α → M β} {d : Nat} {s t : List Byte} {x : α} (h : (p d s).out = (.ok x, t)) :
    (p >>= f) d s = ⟨(f x d t).out, (p d s).steps + (f x d t).steps, (p d s).copies + (f x d t).copies⟩ := by
  show M.bind p f d s = _
  unfold M.bind
  rcases hp : p d s with ⟨o, n, k⟩
  rw [hp] at h
  dsimp only at h
  subst h
  rfl

theorem bind_err' {α β : Type} {p : M α} {f : α → M β} {d : Nat} {s t : List Byte} {e : Error} (h : (p d s).out = (.error e, t)) :
    (p >>= f) d s = ⟨(.error e, t), (p d s).steps, (p d s).copies⟩ := by
  show M.bind p f d s = _
  unfold M.bind
  rcases hp : p d s with ⟨o, n, k⟩
  rw [hp] at h
  dsimp only at h
  subst h
  rfl

section
variable {α β : Type} {D j : Nat}

theorem fits_bind_of {p : M α} {q : P α} {f : α → M β} {g : α → P β} {mid : α → Int} {post : β → Int} {e : Int} {i : α → Nat} {k : β → Nat}
    (h : Fits D j p q mid e i) (hf : ∀ x s t, q s = (.ok x, t) → Fits D (i x) (f x) (g x) (fun y => post y - mid x) (e + mid x) k) :
    Fits D j (p >>= f) (q >>= g) post e k := by
  intro d hd s
  have h := h d hd s
  rcases hp : (p d s).out with ⟨_ | x, t⟩
  · rename_i er
    have h1 := h.out
    have h4 := h.copies
    rw [hp] at h1 h4
    rw [bind_err' hp]
    exact ⟨(bind_of_error h1.symm).symm, fun x u hx => (by cases hx), fun x u hx => by
      cases hx
      exact h.err _ _ hp, h4⟩
  · have h1 := h.out
    have h4 := h.copies
    rw [hp] at h1 h4
    have h2 := h.ok _ _ hp
    have hf := hf x s t h1.symm d hd t
    rw [bind_ok' hp]
    refine ⟨hf.out.trans (bind_of_ok h1.symm).symm, fun y u hy => ?_, fun y u hy => ?_, ?_⟩
    · have h3 := hf.ok _ _ hy
      dsimp only at h3 h4 ⊢
      omega
    · have h3 := hf.err _ _ hy
      dsimp only at h3 h4 ⊢
      omega
    · have h3 := hf.copies
      dsimp only at h3 h4 ⊢
      omega

theorem fits_bind {p : M α} {q : P α} {f : α → M β} {g : α → P β} {mid : α → Int} {post : β → Int} {e : Int} {i : α → Nat} {k : β → Nat}
    (h : Fits D j p q mid e i) (hf : ∀ x, Fits D (i x) (f x) (g x) (fun y => post y - mid x) (e + mid x) k) :
    Fits D j (p >>= f) (q >>= g) post e k := fits_bind_of h fun x _ _ _ => hf x

theorem Fits.mono {p : M α} {q : P α} {post post' : α → Int} {e e' : Int} {k : α → Nat} (h : Fits D j p q post e k) (hp : ∀ x, post' x ≤ post x) (he : e ≤ e') :
    Fits D j p q post' e' k := by
  intro d hd s
  have h := h d hd s
  refine ⟨h.out, fun x t hx => ?_, fun x t hx => ?_, h.copies⟩
  · have := h.ok _ _ hx; have := hp x; omega
  · have := h.err _ _ hx; omega

theorem Fits.depth {D' : Nat} {p : M α} {q : P α} {post : α → Int} {e : Int} {k : α → Nat} (h : Fits D j p q post e k) (hD : D' ≤ D) : Fits D' j p q post e k :=
  fun d hd s => h d (Nat.le_trans hd hD) s

theorem fits_pure (x : α) {post : α → Int} {e : Int} {k : α → Nat} (hp : post x ≤ 0) (hk : j = k x) : Fits D j (pure x : M α) (pure x) post e k := by
  intro d _ s
  refine ⟨rfl, fun y t hy => ?_, fun y t hy => (by cases hy), ?_⟩
  · cases hy
    show ((0 : Nat) : Int) + post x + _ ≤ _ ∧ j + 0 = k x
    omega
  · show 0 + _ ≤ _
    exact Nat.le_of_eq (Nat.zero_add _)

theorem fits_fail (er : Error) {post : α → Int} {e : Int} {k : α → Nat} (he : 0 ≤ e) : Fits D j (M.fail er : M α) (P.fail er) post e k := by
  intro d _ s
  refine ⟨rfl, fun y t hy => (by cases hy), fun y t hy => ?_, ?_⟩
  · cases hy
    show ((0 : Nat) : Int) + _ ≤ _
    omega
  · show 0 + _ ≤ _
    exact Nat.le_of_eq (Nat.zero_add _)

theorem fits_tick {f : Unit → M β} {g : P β} {n : Nat} {post : β → Int} {e : Int} {k : β → Nat}
    (h : Fits D j (f ()) g (fun y => post y + n) (e - n) k) : Fits D j (tick n >>= f) g post e k := by
  intro d hd s
  have h := h d hd s
  rw [bind_ok' (p := tick n) (x := ()) (t := s) rfl]
  show FitsAt j ⟨_, n + _, 0 + _⟩ _ _ _ _ _
  refine ⟨h.out, fun y u hy => ?_, fun y u hy => ?_, ?_⟩
  · have h3 := h.ok _ _ hy
    dsimp only at h3 ⊢
    omega
  · have h3 := h.err _ _ hy
    dsimp only at h3 ⊢
    omega
  · have h3 := h.copies
    dsimp only at h3 ⊢
    omega

theorem fits_byte {e : Int} (he : (D : Int) + 2 ≤ e) {post : Byte → Int} (hp : ∀ x, post x + D + 2 ≤ K) : Fits D j parseByte Whasm.parseByte post e (fun _ => j) := by
  intro d hd s
  rcases s with _ | ⟨b, s⟩
  · refine ⟨rfl, fun y t hy => (by cases hy), fun y t hy => ?_, Nat.le_refl _⟩
    cases hy
    show ((d + 2 : Nat) : Int) + _ ≤ _
    omega
  · refine ⟨rfl, fun y t hy => ?_, fun y t hy => (by cases hy), ?_⟩
    · cases hy
      show ((d + 2 : Nat) : Int) + post b + _ ≤ _ ∧ j + 0 = j
      have := hp b
      simp only [List.length_cons, K] at this ⊢
      omega
    · show 0 + B * s.length ≤ B * (s.length + 1)
      simp only [B]; omega


theorem fits_peek {f : Bool → M β} {g : Bool → P β} {post : β → Int} {e : Int} {k : β → Nat}
    (h : ∀ s : List Byte, ∀ d ≤ D, FitsAt j (f (!s.isEmpty) d s) (g (!s.isEmpty) s) s (fun y => post y + D + 1) (e - D - 1) k) :
    ∀ d ≤ D, ∀ s, FitsAt j ((peek >>= f) d s) (g (!s.isEmpty) s) s post e k := by
  intro d hd s
  have h := h s d hd
  rw [bind_ok' (p := peek) (x := !s.isEmpty) (t := s) rfl]
  show FitsAt j ⟨_, d + 1 + _, 0 + _⟩ _ _ _ _ _
  refine ⟨h.out, fun y u hy => ?_, fun y u hy => ?_, ?_⟩
  · have h3 := h.ok _ _ hy
    dsimp only at h3 ⊢
    omega
  · have h3 := h.err _ _ hy
    dsimp only at h3 ⊢
    omega
  · have h3 := h.copies
    dsimp only at h3 ⊢
    omega

theorem fitsAt_more {r : Run α} {q : Except Error α × List Byte} {s : List Byte} {b : Byte} {d : Nat} {w : Int} (hd : d ≤ D) (hw : w + D + 3 ≤ K)
    (h : FitsAt j r q s (fun _ => w) (D + 3) (fun _ => j)) (hw0 : 0 ≤ w):
    FitsAt j { r with steps := d + 3 + r.steps } q (b :: s) (fun _ => w) (D + 3) (fun _ => j) := by
  refine ⟨h.out, fun x t hx => ?_, fun x t hx => ?_, ?_⟩
  · have h1 := h.ok x t hx
    simp only [List.length_cons, K] at h1 hw ⊢
    omega
  · have h1 := h.err x t hx
    simp only [List.length_cons, K] at h1 hw ⊢
    omega
  · have h1 := h.copies
    simp only [List.length_cons, B] at h1 ⊢
    omega

theorem fitsAt_ok {s : List Byte} {b : Byte} {d : Nat} {x : α} {w : Int} (hd : d ≤ D) (hw : w + D + 3 ≤ K) :
    FitsAt j ⟨(.ok x, s), d + 3, 0⟩ (.ok x, s) (b :: s) (fun _ => w) (D + 3) (fun _ => j) := by
  refine ⟨rfl, fun x t hx => ?_, fun x t hx => (by cases hx), ?_⟩
  · cases hx
    simp only [List.length_cons, K] at hw ⊢
    omega
  · simp only [List.length_cons, B]
    omega

theorem fitsAt_err {s : List Byte} {b : Byte} {d : Nat} {er : Error} {w : Int} (hd : d ≤ D) :
    FitsAt (α := α) j ⟨(.error er, s), d + 3, 0⟩ (.error er, s) (b :: s) (fun _ => w) (D + 3) (fun _ => j) := by
  refine ⟨rfl, fun x t hx => (by cases hx), fun x t hx => ?_, ?_⟩
  · cases hx
    simp only [List.length_cons, K]
    omega
  · simp only [List.length_cons, B]
    omega

theorem fitsAt_eof {d : Nat} {er : Error} {w : Int} (hd : d ≤ D) :
    FitsAt (α := α) j ⟨(.error er, []), d + 3, 0⟩ (.error er, []) [] (fun _ => w) (D + 3) (fun _ => j) := by
  refine ⟨rfl, fun x t hx => (by cases hx), fun x t hx => ?_, ?_⟩
  · cases hx
    simp only [K]
    omega
  · simp only [B]
    omega

theorem fits_unsignedLoop {N : Nat} (hD : D ≤ 5) : ∀ (s : List Byte) (shift : Nat) (res : BitVec N), ∀ d ≤ D,
    FitsAt j (unsignedLoop shift res d s) (Whasm.unsignedLoop shift res s) s (fun _ => 9 - D) (D + 3) (fun _ => j)
  | [], shift, res, d, hd => fitsAt_eof hd
  | b :: s, shift, res, d, hd => by
    have hw : (9 - D : Int) + D + 3 ≤ K := by simp only [K]; omega
    have ih := fits_unsignedLoop (N := N) hD s
    unfold unsignedLoop Whasm.unsignedLoop
    dsimp only
    split
    · split
      · exact fitsAt_err hd
      · split
        · exact fitsAt_ok hd hw
        · exact fitsAt_more hd hw (ih _ _ d hd) (by omega)
    · rcases shl? (BitVec.ofNat N (b &&& 0x7F).toNat) shift with _ | shifted
      · exact fitsAt_err hd
      · dsimp only
        rcases ushr? shifted shift with _ | back
        · exact fitsAt_err hd
        · dsimp only
          split
          · exact fitsAt_err hd
          · split
            · exact fitsAt_ok hd hw
            · exact fitsAt_more hd hw (ih _ _ d hd) (by omega)

theorem fits_signedLoop {N : Nat} (hD : D ≤ 5) : ∀ (s : List Byte) (shift : Nat) (res : BitVec N) (pos : Bool), ∀ d ≤ D,
    FitsAt j (signedLoop shift res pos d s) (Whasm.signedLoop shift res pos s) s (fun _ => 9 - D) (D + 3) (fun _ => j)
  | [], shift, res, pos, d, hd => fitsAt_eof hd
  | b :: s, shift, res, pos, d, hd => by
    have hw : (9 - D : Int) + D + 3 ≤ K := by simp only [K]; omega
    have ih := fits_signedLoop (N := N) hD s
    unfold signedLoop Whasm.signedLoop
    dsimp only
    split
    · split
      · split
        · exact fitsAt_ok hd hw
        · exact fitsAt_more hd hw (ih _ _ _ d hd) (by omega)
      · exact fitsAt_err hd
    · rcases shl? (BitVec.ofNat N (b &&& 0x7F).toNat) shift with _ | shifted
      · exact fitsAt_err hd
      · dsimp only
        rcases sshr? shifted shift with _ | back
        · exact fitsAt_err hd
        · dsimp only
          split
          · exact fitsAt_err hd
          · split
            · split
              · rcases shl? (~~~ 0#N) (shift + 7) with _ | ext
                · exact fitsAt_err hd
                · exact fitsAt_ok hd hw
              · exact fitsAt_ok hd hw
            · exact fitsAt_more hd hw (ih _ _ _ d hd) (by omega)

theorem fits_unsigned {N : Nat} (hD : D ≤ 5) : Fits D j (parseUnsigned N) (Whasm.parseUnsigned N) (fun _ => 8 - D) (D + 4) (fun _ => j) :=
  fits_tick (Fits.mono (fun d hd s => fits_unsignedLoop hD s _ _ d hd) (fun _ => by omega) (by omega))

theorem fits_signed {N : Nat} (hD : D ≤ 5) : Fits D j (parseSigned N) (Whasm.parseSigned N) (fun _ => 8 - D) (D + 4) (fun _ => j) :=
  fits_tick (Fits.mono (fun d hd s => fits_signedLoop hD s _ _ _ d hd) (fun _ => by omega) (by omega))

theorem fits_u32 (hD : D ≤ 5) : Fits D j parseU32 Whasm.parseU32 (fun _ => 8 - D) (D + 4) (fun _ => j) := fits_unsigned hD

theorem fits_n {p : M α} {q : P α} {g h : α → Nat} {e : Int} (he : 0 ≤ e) (hp : ∀ i, Fits D i p q (fun x => 1 + g x) e (fun x => i + h x)) :
    ∀ (n j : Nat), Fits D j (parseN n p) (Whasm.parseN n q) (fun xs => total g xs) e (fun xs => j + total h xs)
  | 0, j => fits_pure _ (by show ((0 : Nat) : Int) ≤ 0; omega) rfl
  | n + 1, j => by
    refine fits_bind ((hp j).mono (fun x => Int.le_refl _) (Int.le_refl _)) fun x => fits_tick ?_
    refine fits_bind ((fits_n he hp n (j + h x)).mono (fun x => Int.le_refl _) (by omega)) fun xs => fits_pure _ ?_ ?_
    · simp only [total]; omega
    · simp only [total]; omega


/-- A parser that copies nothing. -/
def Plain (D : Nat) (p : M α) (q : P α) (w e : Int) : Prop := ∀ j, Fits D j p q (fun _ => w) e (fun _ => j)

theorem plain_n {p : M α} {q : P α} {g : Nat} {e : Int} (he : 0 ≤ e) (hp : Plain D p q (1 + g) e) (n : Nat) :
    Fits D j (parseN n p) (Whasm.parseN n q) (fun xs => g * xs.length) e (fun _ => j) := by
  have h0 : ∀ xs : List α, total (fun _ => 0) xs = 0 := by intro xs; induction xs with | nil => rfl | cons x xs ih => simp [total, ih]
  have hg : ∀ xs : List α, total (fun _ => g) xs = g * xs.length := by
    intro xs; induction xs with | nil => rfl | cons x xs ih => simp [total, ih, Nat.mul_add]; omega
  have h := fits_n (g := fun _ => g) (h := fun _ => 0) he (fun i => hp i) n j
  simp only [h0, hg, Nat.add_zero] at h
  exact h.mono (fun xs => by simp) (Int.le_refl _)

theorem Fits.congr {p : M α} {q q' : P α} {post : α → Int} {e : Int} {k : α → Nat} (h : Fits D j p q post e k) (hq : q = q') : Fits D j p q' post e k := hq ▸ h

theorem Plain.mono {p : M α} {q : P α} {w w' e e' : Int} (h : Plain D p q w e) (hw : w' ≤ w) (he : e ≤ e') : Plain D p q w' e' :=
  fun j => (h j).mono (fun _ => hw) he

theorem plain_byte : Plain D parseByte Whasm.parseByte (10 - D) (D + 2) := fun _ => fits_byte (by omega) (fun _ => by simp only [K]; omega)

theorem plain_u32 (hD : D ≤ 5) : Plain D parseU32 Whasm.parseU32 (8 - D) (D + 4) := fun _ => fits_unsigned hD

theorem plain_idx (hD : D ≤ 5) : Plain D parseIdx Whasm.parseIdx (7 - D) (D + 5) := fun _ => fits_tick ((fits_u32 hD).mono (fun _ => by omega) (by omega))

theorem plain_float (hD : D ≤ 5) (n : Nat) : Plain D (parseFloat n) (Whasm.parseFloat n) (-1) (D + 3) := fun j =>
  fits_tick (fits_bind ((plain_n (g := 0) (by omega) (plain_byte.mono (by omega) (Int.le_refl _)) n).mono (fun _ => Int.le_refl _) (by omega))
    fun _ => fits_pure _ (by omega) rfl)

theorem fits_vec {p : M α} {q : P α} {g : Nat} {e e' : Int} (hD : D ≤ 5) (he : 0 ≤ e) (hp : Plain D p q (1 + g) e) (h1 : e ≤ e' + 7 - D) (h2 : (D : Int) + 5 ≤ e') :
    Fits D j (parseVec p) (Whasm.parseVec q) (fun xs => 7 - D + g * xs.length) e' (fun _ => j) :=
  fits_tick (fits_bind ((fits_u32 hD).mono (fun _ => Int.le_refl _) (by omega)) fun n =>
    ((plain_n he hp n.toNat).mono (fun _ => by omega) (by omega)))

theorem plain_vec {p : M α} {q : P α} {e e' : Int} (hD : D ≤ 5) (he : 0 ≤ e) (hp : Plain D p q 1 e) (h1 : e ≤ e' + 7 - D) (h2 : (D : Int) + 5 ≤ e') :
    Plain D (parseVec p) (Whasm.parseVec q) (7 - D) e' :=
  fun _ => (fits_vec (g := 0) hD he hp h1 h2).mono (fun _ => by omega) (by omega)

theorem bind_pure_id {p : P α} : (p >>= fun x => pure x) = p := by
  funext s
  show P.bind p (fun x => pure x) s = p s
  unfold P.bind
  rcases hp : p s with ⟨_ | x, t⟩ <;> rfl

theorem fits_bytes (hD : D ≤ 5) {e : Int} (he : (D : Int) + 5 ≤ e) :
    Fits D j (parseUnwrappingVec (fun b : Byte => b) parseByte) (Whasm.parseUnwrappingVec (fun b : Byte => b) Whasm.parseByte)
      (fun xs => 7 - D + 4 * xs.length) e (fun _ => j) := by
  refine fits_tick (fits_bind ((fits_u32 hD).mono (fun _ => Int.le_refl _) (by omega)) fun n =>
    ((plain_n (g := 4) (e := D + 2) (by omega) (fun i => ?_) n.toNat).mono (fun _ => by omega) (by omega)))
  exact fits_bind (plain_byte.mono (Int.le_refl _) (Int.le_refl _) i) fun x => fits_pure _ (by omega) rfl

theorem plain_string (hD : D ≤ 5) : Plain D parseString Whasm.parseString (6 - D) (D + 6) := by
  intro j
  refine fits_tick (fits_bind (fits_bytes hD (by omega)) fun raw => fits_tick ?_)
  by_cases h : validUtf8 raw = true
  · rw [if_pos h, if_pos h]; exact fits_pure _ (by omega) rfl
  · rw [if_neg h, if_neg h]; exact fits_fail _ (by omega)


theorem fits_plain {p : M α} {q : P α} {f : α → M β} {g : α → P β} {w e : Int} {post : β → Int} {e' : Int} {k : β → Nat}
    (h : Plain D p q w e) (he : e ≤ e') (hf : ∀ x, Fits D j (f x) (g x) (fun y => post y - w) (e' + w) k) :
    Fits D j (p >>= f) (q >>= g) post e' k :=
  fits_bind ((h j).mono (fun _ => Int.le_refl _) he) hf

theorem fits_last {p : M α} {q : P α} {f : α → β} {w e : Int} {post : β → Int} {e' : Int}
    (h : Plain D p q w e) (he : e ≤ e') (hp : ∀ x, post (f x) ≤ w) :
    Fits D j (p >>= fun x => pure (f x)) (q >>= fun x => pure (f x)) post e' (fun _ => j) :=
  fits_plain h he fun x => fits_pure _ (by have := hp x; omega) rfl

/-! ## Types -/

theorem plain_limits (hD : D ≤ 5) : Plain D parseLimits Whasm.parseLimits (9 - D) (D + 3) := by
  intro j
  refine fits_tick (fits_plain plain_byte (by omega) fun b => ?_)
  generalize b.toNat = n
  split
  · exact fits_last (plain_u32 hD) (by omega) (fun _ => by omega)
  · exact fits_plain (plain_u32 hD) (by omega) fun _ => fits_last (plain_u32 hD) (by omega) (fun _ => by omega)
  · split
    · exact absurd rfl ‹_›
    · exact absurd rfl ‹_›
    · exact fits_fail _ (by omega)

theorem plain_val : Plain D parseVal Whasm.parseVal (9 - D) (D + 3) := by
  intro j
  refine fits_tick (fits_plain plain_byte (by omega) fun b => ?_)
  generalize b.toNat = n
  split
  · exact fits_pure _ (by omega) rfl
  · exact fits_pure _ (by omega) rfl
  · exact fits_pure _ (by omega) rfl
  · exact fits_pure _ (by omega) rfl
  · split <;> first | exact absurd rfl ‹_› | exact fits_fail _ (by omega)

theorem plain_elemTy : Plain D parseElemTy Whasm.parseElemTy (9 - D) (D + 3) := by
  intro j
  refine fits_tick (fits_plain plain_byte (by omega) fun b => ?_)
  generalize b.toNat = n
  split
  · exact fits_pure _ (by omega) rfl
  · split <;> first | exact absurd rfl ‹_› | exact fits_fail _ (by omega)

theorem plain_mut : Plain D parseMut Whasm.parseMut (9 - D) (D + 3) := by
  intro j
  refine fits_tick (fits_plain plain_byte (by omega) fun b => ?_)
  generalize b.toNat = n
  split
  · exact fits_pure _ (by omega) rfl
  · exact fits_pure _ (by omega) rfl
  · split <;> first | exact absurd rfl ‹_› | exact fits_fail _ (by omega)

theorem plain_retVal : Plain D parseRetVal Whasm.parseRetVal (6 - D) (D + 3) := by
  intro j
  refine fits_tick (fits_plain plain_byte (by omega) fun b => ?_)
  have hv := plain_val (D := 0) 0 0 (Nat.le_refl 0) [b]
  have hc : (parseVal 0 [b]).copies = 0 ∧ (parseVal 0 [b]).steps = 3 := by
    show (parseVal 0 [b]).copies = 0 ∧ _
    unfold parseVal
    rw [bind_ok' (p := tick 1) (x := ()) (t := [b]) rfl, bind_ok' (p := parseByte) (x := b) (t := []) rfl]
    dsimp only
    generalize b.toNat = n
    split <;> exact ⟨rfl, rfl⟩
  have hj : Fits D j ((again parseVal b >>= fun v => pure [v]) : M RetVal) (match Whasm.parseVal [b] with
      | (.ok v, _) => pure [v]
      | (.error e, _) => P.fail e) (fun y => 6 - (D : Int) + (1 : Nat) - (10 - D)) ((D : Int) + 3 - (1 : Nat) + (10 - D)) (fun _ => j) := by
    rw [← hv.out]
    rcases hr : (parseVal 0 [b]).out with ⟨_ | v, t⟩
    · rename_i er
      intro d hd s
      have ha : (again parseVal b d s).out = (.error er, s) := by show ((parseVal 0 [b]).out.1, s) = _; rw [hr]
      rw [bind_err' ha]
      refine ⟨rfl, fun y u hy => (by cases hy), fun y u hy => ?_, ?_⟩
      · cases hy
        show (((parseVal 0 [b]).steps : Nat) : Int) + _ ≤ _
        rw [hc.2]; omega
      · show (parseVal 0 [b]).copies + _ ≤ _
        rw [hc.1]; exact Nat.le_of_eq (Nat.zero_add _)
    · intro d hd s
      have ha : (again parseVal b d s).out = (.ok v, s) := by show ((parseVal 0 [b]).out.1, s) = _; rw [hr]
      rw [bind_ok' ha]
      refine ⟨rfl, fun y u hy => ?_, fun y u hy => (by cases hy), ?_⟩
      · cases hy
        show (((parseVal 0 [b]).steps + 0 : Nat) : Int) + _ + _ ≤ _ ∧ j + ((parseVal 0 [b]).copies + 0) = j
        rw [hc.1, hc.2]; omega
      · show (parseVal 0 [b]).copies + 0 + _ ≤ _
        rw [hc.1]; exact Nat.le_of_eq (Nat.zero_add _)
  generalize b.toNat = n
  split
  · exact fits_pure _ (by omega) rfl
  · split
    · exact absurd rfl ‹_›
    · exact hj

theorem plain_funcTy (hD : D ≤ 5) : Plain D parseFuncTy Whasm.parseFuncTy (9 - D) (D + 3) := by
  intro j
  refine fits_tick (fits_plain plain_byte (by omega) fun b => ?_)
  generalize b.toNat = n
  have hv : Plain D (parseVec parseVal) (Whasm.parseVec Whasm.parseVal) (7 - D) (D + 5) :=
    plain_vec hD (by omega) (plain_val.mono (by omega) (Int.le_refl _)) (by omega) (by omega)
  split
  · exact fits_plain hv (by omega) fun _ => fits_last hv (by omega) (fun _ => by omega)
  · split <;> first | exact absurd rfl ‹_› | exact fits_fail _ (by omega)

theorem plain_tableTy (hD : D ≤ 5) : Plain D parseTableTy Whasm.parseTableTy (8 - D) (D + 4) := fun _ =>
  fits_tick (fits_plain plain_elemTy (by omega) fun _ => fits_last (plain_limits hD) (by omega) (fun _ => by omega))

theorem plain_memTy (hD : D ≤ 5) : Plain D parseMemTy Whasm.parseMemTy (8 - D) (D + 4) := fun _ =>
  fits_tick (fits_last (plain_limits hD) (by omega) (fun _ => by omega))

theorem plain_globalTy (hD : D ≤ 5) : Plain D parseGlobalTy Whasm.parseGlobalTy (8 - D) (D + 4) := fun _ =>
  fits_tick (fits_plain plain_val (by omega) fun _ => fits_last plain_mut (by omega) (fun _ => by omega))


/-! ## Instructions -/

theorem plain_instrTail (hD : D ≤ 5) (b : Byte) : Plain D (instrTail b) (Whasm.instrTail b) 0 12 := by
  intro j
  unfold instrTail Whasm.instrTail
  rcases loadTable.lookup b.toNat with _ | op
  · dsimp only
    rcases storeTable.lookup b.toNat with _ | op
    · dsimp only
      rcases numTable.lookup b.toNat with _ | op
      · exact fits_fail _ (by omega)
      · exact fits_pure _ (by omega) rfl
    · exact fits_plain (plain_u32 hD) (by omega) fun _ => fits_last (plain_u32 hD) (by omega) (fun _ => by omega)
  · exact fits_plain (plain_u32 hD) (by omega) fun _ => fits_last (plain_u32 hD) (by omega) (fun _ => by omega)

theorem plain_exprOf {sub : M SubExpr} {sub' : P SubExpr} (h : Plain D sub sub' (7 - D) (D + 4)) : Plain D (exprOf sub) (Whasm.exprOf sub') (6 - D) (D + 5) := by
  intro j
  refine fits_tick (fits_plain h (by omega) fun se => ?_)
  rcases se with ⟨is, next⟩
  dsimp only
  cases next with
  | endMark => exact fits_pure _ (by omega) rfl
  | elseMark => exact fits_fail _ (by omega)
  | _ => exact fits_fail _ (by omega)

theorem plain_ifOf {sub : M SubExpr} {sub' : P SubExpr} (hD : D ≤ 5) (h : Plain D sub sub' (7 - D) (D + 4)) : Plain D (ifOf sub) (Whasm.ifOf sub') 0 12 := by
  intro j
  refine fits_tick (fits_plain plain_retVal (by omega) fun ret => fits_plain h (by omega) fun s1 => ?_)
  have he : Plain D (elsePart sub s1) (Whasm.elsePart sub' s1) 0 (D + 4) := by
    intro j
    unfold elsePart Whasm.elsePart
    by_cases hn : s1.next.isElse = true
    · rw [if_pos hn, if_pos hn]
      exact fits_last h (by omega) (fun _ => by omega)
    · rw [if_neg hn, if_neg hn]
      exact fits_pure _ (by omega) rfl
  refine fits_plain he (by omega) fun bn => ?_
  by_cases hn : bn.2.isEnd = true
  · rw [if_pos hn, if_pos hn]
    exact fits_pure _ (by omega) rfl
  · rw [if_neg hn, if_neg hn]
    exact fits_fail _ (by omega)

theorem plain_instrAt {sub : M SubExpr} {sub' : P SubExpr} (hD : D ≤ 5) (h : Plain D sub sub' (7 - D) (D + 4)) (b : Byte) :
    Plain D (instrAt sub b) (Whasm.instrAt sub' b) (-1) 12 := by
  have ht := plain_instrTail hD b
  intro j
  have ht := (ht j).mono (post' := fun _ => -1) (fun _ => by omega) (Int.le_refl _)
  unfold instrAt Whasm.instrAt
  generalize b.toNat = n
  split
  case h_27 =>
    split
    case h_27 => exact ht
    all_goals exact absurd rfl ‹_›
  case h_3 | h_4 => exact fits_plain plain_retVal (by omega) fun _ => fits_last (plain_exprOf h) (by omega) (fun _ => by omega)
  case h_10 =>
    exact fits_plain (plain_vec (e' := D + 5) hD (by omega) ((plain_idx hD).mono (by omega) (Int.le_refl _)) (by omega) (by omega)) (by omega) fun _ =>
      fits_last (plain_idx hD) (by omega) (fun _ => by omega)
  case h_5 => exact (plain_ifOf hD h j).mono (fun _ => by omega) (by omega)
  all_goals first
    | exact fits_pure _ (by omega) rfl
    | exact fits_last (plain_idx hD) (by omega) (fun _ => by omega)
    | exact fits_plain (plain_idx hD) (by omega) fun _ => fits_last (plain_idx hD) (by omega) (fun _ => by omega)
    | exact fits_last (w := 8 - D) (e := D + 4) (fun _ => fits_signed hD) (by omega) (fun _ => by omega)
    | exact fits_last (plain_float hD _) (by omega) (fun _ => by omega)


theorem plain_instrOf {sub : M SubExpr} {sub' : P SubExpr} (hD : D ≤ 5) (h : Plain D sub sub' (7 - D) (D + 4)) :
    Plain D (instrOf sub) (Whasm.instrOf sub') (8 - D) (D + 3) := fun j =>
  fits_tick (fits_plain plain_byte (by omega) fun b => ((plain_instrAt hD h b j).mono (fun _ => by omega) (by omega)))

theorem plain_subExpr (hD : D ≤ 5) : ∀ fuel, Plain D (parseSubExpr fuel) (Whasm.parseSubExpr fuel) (7 - D) (D + 4)
  | 0 => fun j => fits_fail _ (by omega)
  | fuel + 1 => by
    intro j
    have ih := plain_subExpr hD fuel
    refine fits_tick (fits_plain (plain_instrOf hD ih) (by omega) fun i => ?_)
    unfold subStep Whasm.subStep
    cases i with
    | endMark => exact fits_pure _ (by omega) rfl
    | elseMark => exact fits_pure _ (by omega) rfl
    | _ => exact fits_tick (fits_last ih (by omega) (fun _ => by omega))

theorem plain_expr (hD : D ≤ 5) : Plain D parseExpr Whasm.parseExpr (6 - D) (D + 5) :=
  fun j d hd s => plain_exprOf (plain_subExpr hD _) j d hd s

theorem plain_constExpr (hD : D ≤ 5) : Plain D parseConstExpr Whasm.parseConstExpr (5 - D) (D + 6) := fun _ =>
  fits_tick ((plain_expr hD _).mono (fun _ => by omega) (by omega))

/-! ## Local variables -/

theorem bind_assoc' {γ : Type} (p : M α) (f : α → M β) (g : β → M γ) : (p >>= f) >>= g = p >>= fun x => f x >>= g := by
  funext d s
  rcases hp : (p d s).out with ⟨_ | x, t⟩
  · rw [bind_err' hp, bind_err' (p := p >>= f) (e := _) (t := t) (by rw [bind_err' hp]), bind_err' hp]
  · rw [bind_ok' hp]
    rcases hq : (f x d t).out with ⟨_ | y, u⟩
    · rw [bind_err' hq, bind_err' (p := p >>= f) (e := _) (t := u) (by rw [bind_ok' hp]; exact hq), bind_ok' hp]
    · rw [bind_ok' hq, bind_ok' (p := p >>= f) (x := y) (t := u) (by rw [bind_ok' hp]; exact hq), bind_ok' hp]
      simp only [Nat.add_assoc]

theorem pure_bind' (x : α) (f : α → M β) : (pure x : M α) >>= f = f x := by
  funext d s
  rw [bind_ok' (p := pure x) (x := x) (t := s) rfl]
  show Run.mk _ (0 + _) (0 + _) = _
  rw [Nat.zero_add, Nat.zero_add]

theorem fits_copy {p : M α} {q : P α} {f : α → M β} {g : α → P β} {c : α → Nat} {mid : α → Int} {post : β → Int} {e : Int} {k : β → Nat}
    (h : Fits D j p q mid e (fun _ => j)) (hm : ∀ x, 0 < mid x) (hc : ∀ x, c x ≤ B)
    (hf : ∀ x, Fits D (j + c x) (f x) (g x) (fun y => post y - mid x) (e + mid x) k) :
    Fits D j (p >>= fun x => copy (c x) >>= fun _ => f x) (q >>= g) post e k := by
  intro d hd s
  have h := h d hd s
  rcases hp : (p d s).out with ⟨_ | x, t⟩
  · rename_i er
    have h1 := h.out
    have h4 := h.copies
    rw [hp] at h1 h4
    rw [bind_err' hp]
    exact ⟨(bind_of_error h1.symm).symm, fun x u hx => (by cases hx), fun x u hx => by
      cases hx
      exact h.err _ _ hp, h4⟩
  · have h1 := h.out
    rw [hp] at h1
    have h2 := h.ok _ _ hp
    have hf := hf x d hd t
    have hm := hm x
    have hc := hc x
    rw [bind_ok' hp, bind_ok' (p := copy (c x)) (x := ()) (t := t) rfl]
    show FitsAt j ⟨_, (p d s).steps + (0 + _), (p d s).copies + (c x + _)⟩ _ _ _ _ _
    refine ⟨hf.out.trans (bind_of_ok h1.symm).symm, fun y u hy => ?_, fun y u hy => ?_, ?_⟩
    · have h3 := hf.ok _ _ hy
      dsimp only at h3 ⊢
      omega
    · have h3 := hf.err _ _ hy
      dsimp only at h3 ⊢
      omega
    · have h3 := hf.copies
      have ht : t.length < s.length := by
        have := h2.1
        simp only [K] at this
        omega
      dsimp only at h3 ⊢
      simp only [B] at hc h3 ⊢
      omega

theorem fits_runs (hD : D ≤ 5) {p : M α} {q : P α} (hp : Plain D p q 0 (D + 3)) : ∀ (n j : Nat),
    Fits D j (parseRuns n p) (Whasm.parseRuns n q) (fun _ => 0) (D + 4) (fun xs => j + xs.length)
  | 0, j => fits_pure _ (by omega) rfl
  | n + 1, j => by
    have h1 : Fits D j (parseU32 >>= fun m => p >>= fun v => pure (m, v) : M (U32 × α)) (Whasm.parseU32 >>= fun m => q >>= fun v => pure (m, v) : P (U32 × α))
        (fun _ => 8 - D) (D + 4) (fun _ => j) :=
      fits_plain (plain_u32 hD) (by omega) fun m => fits_last hp (by omega) (fun _ => by omega)
    have h2 : parseRuns (n + 1) p = ((parseU32 >>= fun m => p >>= fun v => pure (m, v) : M (U32 × α)) >>= fun x => copy x.1.toNat >>= fun _ =>
        (parseRuns n p >>= fun rest => pure (List.replicate x.1.toNat x.2 ++ rest))) := by
      rw [bind_assoc']
      show (parseU32 >>= fun m => _) = _
      congr 1
      funext m
      rw [bind_assoc']
      congr 1
      funext v
      rw [pure_bind']
    have h3 : Whasm.parseRuns (n + 1) q = ((Whasm.parseU32 >>= fun m => q >>= fun v => pure (m, v) : P (U32 × α)) >>= fun x =>
        (Whasm.parseRuns n q >>= fun rest => pure (List.replicate x.1.toNat x.2 ++ rest))) := by
      funext s
      show P.bind _ _ s = P.bind (P.bind _ _) _ s
      unfold P.bind
      rcases Whasm.parseU32 s with ⟨_ | m, t⟩
      · rfl
      · dsimp only
        show P.bind _ _ t = P.bind (P.bind _ _) _ t
        unfold P.bind
        rcases q t with ⟨_ | v, u⟩ <;> rfl
    rw [h2, h3]
    refine fits_copy h1 (fun _ => by omega) (fun x => by have := x.1.isLt; simp only [B]; omega) fun x => ?_
    refine fits_bind ((fits_runs hD hp n (j + x.1.toNat)).mono (fun _ => Int.le_refl _) (by omega)) fun rest => fits_pure _ (by omega) ?_
    simp only [List.length_append, List.length_replicate]
    omega

theorem fits_func (hD : D ≤ 5) : Fits D j parseFunc Whasm.parseFunc (fun _ => 12 - 2 * D) (D + 6) (fun f => j + f.locals.length) := by
  refine fits_tick (fits_bind (mid := fun _ => 7 - D) (i := fun xs => j + xs.length) ?_ fun xs => ?_)
  · exact fits_tick (fits_plain (plain_u32 hD) (by omega) fun n => ((fits_runs hD (plain_val.mono (by omega) (Int.le_refl _)) n.toNat j).mono (fun _ => by omega) (by omega)))
  · exact fits_plain (plain_expr hD) (by omega) fun is => fits_pure _ (by omega) rfl

/-! ## Modules -/

theorem plain_table (hD : D ≤ 5) : Plain D parseTable Whasm.parseTable (7 - D) (D + 5) := fun _ => fits_tick (fits_last (plain_tableTy hD) (by omega) (fun _ => by omega))

theorem plain_mem (hD : D ≤ 5) : Plain D parseMem Whasm.parseMem (7 - D) (D + 5) := fun _ => fits_tick (fits_last (plain_memTy hD) (by omega) (fun _ => by omega))

theorem plain_global (hD : D ≤ 5) : Plain D parseGlobal Whasm.parseGlobal (7 - D) (D + 5) := fun _ =>
  fits_tick (fits_plain (plain_globalTy hD) (by omega) fun _ => fits_last (plain_constExpr hD) (by omega) (fun _ => by omega))

theorem plain_elem (hD : D ≤ 5) : Plain D parseElem Whasm.parseElem (6 - D) (D + 6) := fun _ =>
  fits_tick (fits_plain (plain_idx hD) (by omega) fun _ => fits_plain (plain_constExpr hD) (by omega) fun _ =>
    fits_last (plain_vec (e' := D + 5) hD (by omega) ((plain_idx hD).mono (by omega) (Int.le_refl _)) (by omega) (by omega)) (by omega) (fun _ => by omega))

theorem plain_data (hD : D ≤ 5) : Plain D parseData Whasm.parseData (6 - D) (D + 6) := fun _ =>
  fits_tick (fits_plain (plain_idx hD) (by omega) fun _ => fits_plain (plain_constExpr hD) (by omega) fun _ =>
    fits_bind (fits_bytes hD (by omega)) fun _ => fits_pure _ (by omega) rfl)

theorem plain_start (hD : D ≤ 5) : Plain D parseStart Whasm.parseStart (6 - D) (D + 6) := fun _ => fits_tick (fits_last (plain_idx hD) (by omega) (fun _ => by omega))

theorem plain_importDesc (hD : D ≤ 5) : Plain D parseImportDesc Whasm.parseImportDesc (9 - D) (D + 3) := by
  intro j
  refine fits_tick (fits_plain plain_byte (by omega) fun b => ?_)
  generalize b.toNat = n
  split
  · exact fits_last (plain_idx hD) (by omega) (fun _ => by omega)
  · exact fits_last (plain_tableTy hD) (by omega) (fun _ => by omega)
  · exact fits_last (plain_memTy hD) (by omega) (fun _ => by omega)
  · exact fits_last (plain_globalTy hD) (by omega) (fun _ => by omega)
  · split <;> first | exact absurd rfl ‹_› | exact fits_fail _ (by omega)

theorem plain_exportDesc (hD : D ≤ 5) : Plain D parseExportDesc Whasm.parseExportDesc (9 - D) (D + 3) := by
  intro j
  refine fits_tick (fits_plain plain_byte (by omega) fun b => ?_)
  generalize b.toNat = n
  split
  · exact fits_last (plain_idx hD) (by omega) (fun _ => by omega)
  · exact fits_last (plain_idx hD) (by omega) (fun _ => by omega)
  · exact fits_last (plain_idx hD) (by omega) (fun _ => by omega)
  · exact fits_last (plain_idx hD) (by omega) (fun _ => by omega)
  · split <;> first | exact absurd rfl ‹_› | exact fits_fail _ (by omega)

theorem plain_import (hD : D ≤ 5) : Plain D parseImport Whasm.parseImport (5 - D) (D + 7) := fun _ =>
  fits_tick (fits_plain (plain_string hD) (by omega) fun _ => fits_plain (plain_string hD) (by omega) fun _ =>
    fits_last (plain_importDesc hD) (by omega) (fun _ => by omega))

theorem plain_export (hD : D ≤ 5) : Plain D parseExport Whasm.parseExport (5 - D) (D + 7) := fun _ =>
  fits_tick (fits_plain (plain_string hD) (by omega) fun _ => fits_last (plain_exportDesc hD) (by omega) (fun _ => by omega))

theorem plain_consume (hD : D ≤ 5) : Plain D parseConsume Whasm.parseConsume (-2 - D) 0 := by
  intro j d hd s
  refine ⟨rfl, fun y t hy => ?_, fun y t hy => (by cases hy), ?_⟩
  · cases hy
    refine ⟨?_, rfl⟩
    show ((1 + (d + 1) * (s.length + 1) : Nat) : Int) + _ + K * ((0 : Nat) : Int) ≤ _
    have h1 : (d + 1) * s.length ≤ 12 * s.length := Nat.mul_le_mul_right _ (by omega)
    have h2 : (d + 1) * (s.length + 1) = (d + 1) * s.length + (d + 1) := by rw [Nat.mul_add, Nat.mul_one]
    simp only [K]
    omega
  · show 0 + B * 0 ≤ _
    omega

theorem plain_custom (hD : D ≤ 5) : Plain D parseCustom Whasm.parseCustom (3 - 2 * D) (D + 7) := fun _ =>
  fits_tick (fits_plain (plain_string hD) (by omega) fun _ => fits_last (plain_consume hD) (by omega) (fun _ => by omega))

theorem fits_sized {p : M α} {q : P α} {post : α → Int} {e e' : Int} {k : α → Nat} (hD : D ≤ 5) (h : Fits (D + 2) j p q post e k)
    (he : e ≤ e' + 7 - D) (hp : ∀ x, - post x ≤ e' + 7 - D) (h0 : (D : Int) + 5 ≤ e') :
    Fits D j (parseSized p) (Whasm.parseSized q) (fun x => post x + 7 - D) e' k := by
  refine fits_tick (fits_plain (plain_u32 hD) (by omega) fun n d hd s => ?_)
  have h := h (d + 2) (by omega) (s.take n.toNat)
  have hl : s.length = (s.take n.toNat).length + (s.drop n.toNat).length := by
    rw [← List.length_append, List.take_append_drop]
  rcases hr : p (d + 2) (s.take n.toNat) with ⟨⟨_ | x, t⟩, m, c⟩
  · rename_i er
    rw [hr] at h
    have h1 : q (s.take n.toNat) = (.error er, t) := h.out.symm
    have h2 := h.err _ _ rfl
    have h3 := h.copies
    dsimp only at h2 h3
    dsimp only
    rw [hr, h1]
    refine ⟨rfl, fun y u hy => (by cases hy), fun y u hy => ?_, ?_⟩
    · cases hy
      simp only [List.length_append, K] at h2 ⊢
      omega
    · simp only [List.length_append, B] at h3 ⊢
      omega
  · rw [hr] at h
    have h1 : q (s.take n.toNat) = (.ok x, t) := h.out.symm
    have h2 := h.ok _ _ rfl
    have h3 := h.copies
    have hp := hp x
    dsimp only at h2 h3
    dsimp only
    rw [hr, h1]
    dsimp only
    by_cases hc : n.toNat ≠ (s.take n.toNat).length - t.length
    · rw [if_pos hc, if_pos hc]
      refine ⟨rfl, fun y u hy => (by cases hy), fun y u hy => ?_, ?_⟩
      · cases hy
        simp only [List.length_append, K] at h2 ⊢
        omega
      · simp only [List.length_append, B] at h3 ⊢
        omega
    · rw [if_neg hc, if_neg hc]
      refine ⟨rfl, fun y u hy => ?_, fun y u hy => (by cases hy), ?_⟩
      · cases hy
        simp only [List.length_append, K] at h2 ⊢
        omega
      · simp only [List.length_append, B] at h3 ⊢
        omega


/-- `plain_n` for functions, which copy. -/
theorem fits_bodies {p : M Func} {q : P Func} {e e' : Int} (hD : D ≤ 5) (he : 0 ≤ e) (hp : ∀ i, Fits D i p q (fun _ => 2) e (fun f => i + f.locals.length))
    (h1 : e ≤ e' + 7 - D) (h2 : (D : Int) + 5 ≤ e') :
    Fits D j (parseUnwrappingVec (fun f : Func => f) p) (Whasm.parseUnwrappingVec (fun f : Func => f) q) (fun fs => 7 - D + fs.length) e'
      (fun fs => j + total (fun f => f.locals.length) fs) := by
  have hg : ∀ xs : List Func, total (fun _ => 1) xs = xs.length := by
    intro xs; induction xs with | nil => rfl | cons x xs ih => simp [total, ih]; omega
  refine fits_tick (fits_plain (plain_u32 hD) (by omega) fun n => ?_)
  refine Fits.mono (fits_n (g := fun _ => 1) (h := fun f : Func => f.locals.length) he (fun i => ?_) n.toNat j) (fun fs => ?_) (by omega)
  · exact fits_bind ((hp i).mono (fun _ => Int.le_refl _) (Int.le_refl _)) fun f => fits_pure _ (by omega) rfl
  · rw [hg]
    omega

end

/-- The locals of the functions read so far. -/
def had (st : LoopState) : Nat := localsOf st.result

theorem assignTys_length {tys : List Idx} {n : Nat} {fs gs : List Func} (h : assignTys tys n fs = some gs) :
    total (fun f => f.locals.length) gs = total (fun f => f.locals.length) fs := by
  unfold assignTys at h
  revert fs
  induction List.range n with
  | nil => intro fs h; cases h; rfl
  | cons i is ih =>
    intro fs h
    rw [List.foldlM_cons] at h
    cases h1 : setTy tys fs i with
    | none => rw [h1] at h; cases h
    | some hs =>
      rw [h1] at h
      rw [ih h]
      unfold setTy at h1
      split at h1
      · rename_i f ty hf hty
        cases h1
        clear h ih hty
        revert i
        induction fs with
        | nil => intro i hf; simp at hf
        | cons g fs ih =>
          intro i hf
          cases i with
          | zero => simp at hf; subst hf; rfl
          | succ i => simp only [List.set_cons_succ, total]; rw [ih i (by simpa using hf)]
      · cases h1

theorem fits_section (id : Byte) (st : LoopState) (hst : id.toNat = 10 → st.result.funcs = []) :
    Fits 1 (had st) (parseSection id st) (Whasm.parseSection id st) (fun _ => 0) 12 had := by
  have hv : ∀ {α : Type} {p : M α} {q : P α}, Plain 3 p q 1 12 → Plain 1 (parseSized (parseVec p)) (Whasm.parseSized (Whasm.parseVec q)) 4 12 := by
    intro α p q hp i
    refine Fits.mono (fits_sized (D := 1) (by omega) (plain_vec (D := 3) (e' := 12) (by omega) (by omega) hp (by omega) (by omega) i) (by omega) (fun _ => by omega) (by omega))
      (fun _ => by omega) (Int.le_refl _)
  unfold parseSection Whasm.parseSection
  generalize id.toNat = n at hst
  split
  · refine fits_plain (w := 0) (e := 12) (fun i => Fits.mono (fits_sized (D := 1) (e' := 12) (by omega) (plain_custom (D := 3) (by omega) i) (by omega)
      (fun _ => by omega) (by omega)) (fun _ => by omega) (Int.le_refl _)) (by omega) fun _ => fits_pure _ (by omega) rfl
  · exact fits_plain (hv (plain_funcTy (D := 3) (by omega) |>.mono (by omega) (by omega))) (by omega) fun _ => fits_pure _ (by omega) rfl
  · exact fits_plain (hv (plain_import (D := 3) (by omega) |>.mono (by omega) (by omega))) (by omega) fun _ => fits_pure _ (by omega) rfl
  · exact fits_plain (hv (plain_idx (D := 3) (by omega) |>.mono (by omega) (by omega))) (by omega) fun _ => fits_pure _ (by omega) rfl
  · exact fits_plain (hv (plain_table (D := 3) (by omega) |>.mono (by omega) (by omega))) (by omega) fun _ => fits_pure _ (by omega) rfl
  · exact fits_plain (hv (plain_mem (D := 3) (by omega) |>.mono (by omega) (by omega))) (by omega) fun _ => fits_pure _ (by omega) rfl
  · exact fits_plain (hv (plain_global (D := 3) (by omega) |>.mono (by omega) (by omega))) (by omega) fun _ => fits_pure _ (by omega) rfl
  · exact fits_plain (hv (plain_export (D := 3) (by omega) |>.mono (by omega) (by omega))) (by omega) fun _ => fits_pure _ (by omega) rfl
  · refine fits_plain (w := 4) (e := 12) (fun i => Fits.mono (fits_sized (D := 1) (e' := 12) (by omega) (plain_start (D := 3) (by omega) i) (by omega)
      (fun _ => by omega) (by omega)) (fun _ => by omega) (Int.le_refl _)) (by omega) fun _ => fits_pure _ (by omega) rfl
  · exact fits_plain (hv (plain_elem (D := 3) (by omega) |>.mono (by omega) (by omega))) (by omega) fun _ => fits_pure _ (by omega) rfl
  · have hs : had st = 0 := by show total _ st.result.funcs = 0; rw [hst rfl]; rfl
    rw [hs]
    have hf : ∀ i, Fits 3 i (parseSized parseFunc) (Whasm.parseSized Whasm.parseFunc) (fun _ => 2) 12 (fun f => i + f.locals.length) := fun i =>
      Fits.mono (fits_sized (D := 3) (e' := 12) (by omega) (fits_func (D := 5) (by omega)) (by omega) (fun _ => by omega) (by omega)) (fun _ => by omega) (by omega)
    refine fits_bind (fits_sized (D := 1) (e' := 12) (by omega) (fits_bodies (D := 3) (e' := 12) (by omega) (by omega) hf (by omega) (by omega)) (by omega) (fun _ => by omega) (by omega)) fun fs => ?_
    dsimp only
    by_cases hl : fs.length ≠ st.funcTypes.length
    · rw [if_pos hl, if_pos hl]
      exact fits_fail _ (by omega)
    · rw [if_neg hl, if_neg hl]
      refine fits_tick ?_
      cases ha : assignTys st.funcTypes st.funcTypes.length fs with
      | none => exact fits_fail _ (by omega)
      | some gs =>
        refine fits_pure _ (by omega) ?_
        show 0 + total _ fs = total _ gs
        rw [assignTys_length ha]
        omega
  · exact fits_plain (hv (plain_data (D := 3) (by omega) |>.mono (by omega) (by omega))) (by omega) fun _ => fits_pure _ (by omega) rfl
  · split <;> first | exact absurd rfl ‹_› | exact fits_fail _ (by omega)

theorem parseSection_keeps {id : Byte} {st st' : LoopState} {s t : List Byte} (h : Whasm.parseSection id st s = (.ok st', t)) :
    st'.lastId = st.lastId ∧ (id.toNat ≠ 10 → st'.result.funcs = st.result.funcs) := by
  unfold Whasm.parseSection at h
  generalize id.toNat = n at h ⊢
  split at h
  case h_11 =>
    obtain ⟨fs, u, _, h⟩ := bind_ok_iff.mp h
    dsimp only at h
    split at h
    · cases h
    · cases ha : assignTys st.funcTypes st.funcTypes.length fs with
      | none => rw [ha] at h; cases h
      | some gs =>
        rw [ha] at h
        cases h
        exact ⟨rfl, fun h => absurd rfl h⟩
  case h_13 => cases h
  all_goals
    obtain ⟨x, u, _, h⟩ := bind_ok_iff.mp h
    cases h
    exact ⟨rfl, fun _ => rfl⟩

/-- Functions are there only after a code section. -/
def Before (st : LoopState) : Prop := st.lastId.toNat < 10 → st.result.funcs = []

theorem fits_iteration {st : LoopState} (hst : Before st) : Fits 1 (had st) (parseIteration st) (Whasm.parseIteration st) (fun _ => 9) 3 had := by
  refine fits_plain (D := 1) plain_byte (by omega) fun id => ?_
  by_cases h0 : id ≠ 0x00
  · rw [if_pos h0, if_pos h0]
    by_cases h1 : id ≤ st.lastId
    · rw [if_pos h1, if_pos h1]
      exact fits_fail _ (by omega)
    · rw [if_neg h1, if_neg h1]
      refine (fits_section id { st with lastId := id } fun h => hst ?_).mono (fun _ => by omega) (by omega)
      have := UInt8.lt_iff_toNat_lt.mp (UInt8.not_le.mp h1)
      omega
  · rw [if_neg h0, if_neg h0]
    refine (fits_section id st fun h => ?_).mono (fun _ => by omega) (by omega)
    have : id = 0x00 := Decidable.not_not.mp h0
    rw [this] at h
    cases h

theorem iteration_before {st st' : LoopState} (hst : Before st) {s t : List Byte} (h : Whasm.parseIteration st s = (.ok st', t)) : Before st' := by
  obtain ⟨id, u, _, h⟩ := bind_ok_iff.mp h
  split at h
  · split at h
    · cases h
    · rename_i h0 h1
      have hlt := UInt8.lt_iff_toNat_lt.mp (UInt8.not_le.mp h1)
      obtain ⟨k1, k2⟩ := parseSection_keeps h
      intro hl
      rw [k1] at hl
      have hl : id.toNat < 10 := hl
      rw [k2 (by omega)]
      exact hst (by omega)
  · rename_i h0
    have : id = 0x00 := Decidable.not_not.mp h0
    obtain ⟨k1, k2⟩ := parseSection_keeps h
    intro hl
    rw [k2 (by rw [this]; decide)]
    exact hst (by rw [← k1]; exact hl)

theorem fits_loop : ∀ (fuel : Nat) (st : LoopState), Before st → Fits 1 (had st) (sectionLoop fuel st) (Whasm.sectionLoop fuel st) (fun _ => -2) 5 localsOf
  | 0, st, _ => fits_fail _ (by omega)
  | fuel + 1, st, hst => by
    have h := fits_peek (D := 1) (j := had st) (f := fun more => if more = true then parseIteration st >>= fun st' => sectionLoop fuel st' else pure st.result)
      (g := fun more => if more = true then Whasm.parseIteration st >>= fun st' => Whasm.sectionLoop fuel st' else pure st.result) (post := fun _ => -2) (e := 5) (k := localsOf)
      (fun s d hd => ?_)
    · intro d hd s
      have h := h d hd s
      have e : Whasm.sectionLoop (fuel + 1) st s =
          (if (!s.isEmpty) = true then Whasm.parseIteration st >>= fun st' => Whasm.sectionLoop fuel st' else pure st.result) s := by
        cases s <;> rfl
      rw [e]
      exact h
    · cases s with
      | nil => exact fits_pure (D := 1) st.result (by omega) rfl d hd []
      | cons b s =>
        exact fits_bind_of (D := 1) ((fits_iteration hst).mono (fun _ => Int.le_refl _) (by omega)) (fun st' s' t' hr =>
          (fits_loop fuel st' (iteration_before hst hr)).mono (fun _ => by omega) (by omega)) d hd (b :: s)

theorem fits_module : Fits 0 0 parseModule Whasm.parseModule (fun _ => 0) 6 localsOf := by
  refine fits_tick (fits_bind (plain_n (D := 0) (g := 9) (e := 2) (by omega) (plain_byte.mono (by omega) (by omega)) 4 |>.mono (fun _ => Int.le_refl _) (by omega)) fun magic => ?_)
  by_cases h : magic.map (fun b => b.toNat) ≠ magicChars.map (fun c => c.toNat)
  · rw [if_pos h, if_pos h]
    exact fits_fail _ (by omega)
  · have hm : magic.length = 4 := by
      have := congrArg List.length (Decidable.not_not.mp h)
      simpa [magicChars] using this
    rw [if_neg h, if_neg h]
    refine fits_bind (plain_n (D := 0) (g := 9) (e := 2) (by omega) (plain_byte.mono (by omega) (by omega)) 4 |>.mono (fun _ => Int.le_refl _) (by omega)) fun version => ?_
    by_cases h : version ≠ [1, 0, 0, 0]
    · rw [if_pos h, if_pos h]
      exact fits_fail _ (by omega)
    · rw [if_neg h, if_neg h]
      intro d hd s
      have := fits_loop (s.length + 1) {} (fun _ => rfl) (d + 1) (by omega) s
      refine ⟨this.out, fun x t hx => ?_, fun x t hx => ?_, this.copies⟩
      · have := this.ok x t hx
        refine ⟨?_, this.2⟩
        have := this.1
        rw [hm]
        show ((sectionLoop (s.length + 1) {} (d + 1) s).steps : Int) + _ + _ ≤ _
        omega
      · have := this.err x t hx
        rw [hm]
        show ((sectionLoop (s.length + 1) {} (d + 1) s).steps : Int) + _ ≤ _
        omega

end Whasm.Clock
