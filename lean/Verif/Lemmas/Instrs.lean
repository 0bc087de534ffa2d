import Verif.Lemmas.Types

/-!
# The parser of instructions and expressions
-/

namespace Whasm
open Spec

theorem good_idx : Good parseIdx := good_u32
theorem noFuel_idx : NoFuel parseIdx := noFuel_u32

/-! ## `Good` -/

theorem good_exprOf {sub : P SubExpr} (h : Good sub) : Good (exprOf sub) :=
  h.bind fun se => by
    split
    · exact good_pure _
    · exact good_fail (by simp)
    · exact good_fail (by simp)

theorem good_elsePart {sub : P SubExpr} (h : Good sub) (s1 : SubExpr) : Good (elsePart sub s1) := by
  unfold elsePart
  split
  · exact h.bind fun _ => good_pure _
  · exact good_pure _

theorem good_ifOf {sub : P SubExpr} (h : Good sub) : Good (ifOf sub) :=
  good_retVal.bind fun ret => h.bind fun s1 => (good_elsePart h s1).bind fun bn => by
    split
    · exact good_pure _
    · exact good_fail (by simp)

theorem good_instrTail (c : Byte) : Good (instrTail c) := by
  unfold instrTail
  split
  · exact good_u32.bind fun _ => good_u32.bind fun _ => good_pure _
  split
  · exact good_u32.bind fun _ => good_u32.bind fun _ => good_pure _
  split
  · exact good_pure _
  · exact good_fail (by simp)

theorem good_instrAt {sub : P SubExpr} (h : Good sub) (c : Byte) : Good (instrAt sub c) := by
  have he := good_exprOf h
  have hi := good_ifOf h
  unfold instrAt
  split
  all_goals first
    | exact good_pure _
    | exact good_retVal.bind fun _ => he.bind fun _ => good_pure _
    | exact hi
    | exact good_idx.bind fun _ => good_pure _
    | exact (good_vec good_idx).bind fun _ => good_idx.bind fun _ => good_pure _
    | exact good_idx.bind fun _ => good_idx.bind fun _ => good_pure _
    | exact (good_signed 32).bind fun _ => good_pure _
    | exact (good_signed 64).bind fun _ => good_pure _
    | exact (good_float 4).bind fun _ => good_pure _
    | exact (good_float 8).bind fun _ => good_pure _
    | exact good_instrTail c

theorem good_instrOf {sub : P SubExpr} (h : Good sub) : Good (instrOf sub) :=
  good_byte.bind fun c => good_instrAt h c

theorem good_subStep {sub : P SubExpr} (h : Good sub) (next : Instr) : Good (subStep sub next) := by
  unfold subStep
  split
  · exact good_pure _
  · exact good_pure _
  · exact h.bind fun _ => good_pure _

theorem parseSubExpr_succ (fuel : Nat) : parseSubExpr (fuel + 1) =
    (instrOf (parseSubExpr fuel) >>= subStep (parseSubExpr fuel)) := rfl

theorem good_subExpr (fuel : Nat) : Good (parseSubExpr fuel) := by
  induction fuel with
  | zero => exact good_fail (by simp)
  | succ fuel ih =>
    rw [parseSubExpr_succ]
    exact (good_instrOf ih).bind (good_subStep ih)

/-! ## Fuel -/

section
variable {α β : Type}

/-- `q` agrees with `p` wherever `p` does not run out of fuel. -/
def FuelLe (p q : P α) : Prop := ∀ s, (p s).1 ≠ .error .fuel → q s = p s

theorem FuelLe.refl (p : P α) : FuelLe p p := fun _ _ => rfl

theorem FuelLe.bind {p q : P α} {f g : α → P β} (hp : FuelLe p q) (hf : ∀ x, FuelLe (f x) (g x)) :
    FuelLe (p >>= f) (q >>= g) := by
  intro s hs
  rcases bind_cases p f s with ⟨x, s', h1, h2⟩ | ⟨e, s', h1, h2⟩
  · have h3 := hp s (by rw [h1]; intro hc; cases hc)
    rw [h1] at h3
    rw [bind_of_ok h3, h2]
    exact hf x s' (by rwa [h2] at hs)
  · have h3 := hp s (by
      rw [h1]; intro hc; apply hs; rw [h2]; cases hc; rfl)
    rw [h1] at h3
    rw [bind_of_error h3, h2]

/-- `p` does not run out of fuel on inputs of at most `n` bytes. -/
def FuelOk (n : Nat) (p : P α) : Prop := ∀ s, s.length ≤ n → (p s).1 ≠ .error .fuel

theorem NoFuel.ok {p : P α} (h : NoFuel p) (n : Nat) : FuelOk n p := fun s _ => h s

theorem FuelOk.bind {n : Nat} {p : P α} {f : α → P β} (hg : Good p) (hp : FuelOk n p) (hf : ∀ x, FuelOk n (f x)) :
    FuelOk n (p >>= f) := by
  intro s hs
  have h0 := hp s hs
  rcases bind_cases p f s with ⟨x, s', h1, h2⟩ | ⟨e, s', h1, h2⟩
  · rw [h2]
    have h3 := hg.forward s
    rw [h1] at h3
    exact hf x s' (Nat.le_trans h3.length_le hs)
  · rw [h2]; rw [h1] at h0; intro h; apply h0; cases h; rfl

/-- A byte is read first: the rest has one byte less. -/
theorem FuelOk.byte_bind {n : Nat} {f : Byte → P β} (hf : ∀ c, FuelOk (n - 1) (f c)) : FuelOk n (parseByte >>= f) := by
  intro s hs
  cases s with
  | nil => intro h; cases h
  | cons c s => exact hf c s (by simp at hs; omega)

end

theorem fuelLe_exprOf {sub sub' : P SubExpr} (h : FuelLe sub sub') : FuelLe (exprOf sub) (exprOf sub') :=
  h.bind fun _ => .refl _

theorem fuelLe_elsePart {sub sub' : P SubExpr} (h : FuelLe sub sub') (s1 : SubExpr) :
    FuelLe (elsePart sub s1) (elsePart sub' s1) := by
  unfold elsePart
  split
  · exact h.bind fun _ => .refl _
  · exact .refl _

theorem fuelLe_ifOf {sub sub' : P SubExpr} (h : FuelLe sub sub') : FuelLe (ifOf sub) (ifOf sub') :=
  (FuelLe.refl _).bind fun _ => h.bind fun s1 => (fuelLe_elsePart h s1).bind fun _ => .refl _

theorem fuelLe_instrAt {sub sub' : P SubExpr} (h : FuelLe sub sub') (c : Byte) : FuelLe (instrAt sub c) (instrAt sub' c) := by
  have he := fuelLe_exprOf h
  have hi := fuelLe_ifOf h
  unfold instrAt
  split
  all_goals first
    | exact .refl _
    | exact (FuelLe.refl _).bind fun _ => he.bind fun _ => .refl _
    | exact hi

theorem fuelLe_instrOf {sub sub' : P SubExpr} (h : FuelLe sub sub') : FuelLe (instrOf sub) (instrOf sub') :=
  (FuelLe.refl _).bind fun c => fuelLe_instrAt h c

theorem fuelLe_subStep {sub sub' : P SubExpr} (h : FuelLe sub sub') (next : Instr) :
    FuelLe (subStep sub next) (subStep sub' next) := by
  unfold subStep
  split
  · exact .refl _
  · exact .refl _
  · exact h.bind fun _ => .refl _

theorem fuelLe_subExpr_succ (n : Nat) : FuelLe (parseSubExpr n) (parseSubExpr (n + 1)) := by
  induction n with
  | zero => intro s h; exact (h rfl).elim
  | succ n ih =>
    rw [parseSubExpr_succ n, parseSubExpr_succ (n + 1)]
    exact (fuelLe_instrOf ih).bind (fuelLe_subStep ih)

theorem fuelLe_subExpr {n m : Nat} (h : n ≤ m) : FuelLe (parseSubExpr n) (parseSubExpr m) := by
  induction m with
  | zero => obtain rfl : n = 0 := by omega
            exact .refl _
  | succ m ih =>
    by_cases hn : n = m + 1
    · subst hn; exact .refl _
    · intro s hs
      have h1 := ih (by omega) s hs
      rw [← h1]
      exact fuelLe_subExpr_succ m s (by rwa [h1])

theorem fuelOk_exprOf {n : Nat} {sub : P SubExpr} (hg : Good sub) (h : FuelOk n sub) : FuelOk n (exprOf sub) :=
  h.bind hg fun se => by
    split
    · exact (noFuel_pure _).ok n
    · exact (noFuel_fail (by simp)).ok n
    · exact (noFuel_fail (by simp)).ok n

theorem fuelOk_elsePart {n : Nat} {sub : P SubExpr} (hg : Good sub) (h : FuelOk n sub) (s1 : SubExpr) :
    FuelOk n (elsePart sub s1) := by
  unfold elsePart
  split
  · exact h.bind hg fun _ => (noFuel_pure _).ok n
  · exact (noFuel_pure _).ok n

theorem fuelOk_ifOf {n : Nat} {sub : P SubExpr} (hg : Good sub) (h : FuelOk n sub) : FuelOk n (ifOf sub) :=
  (noFuel_retVal.ok n).bind good_retVal fun _ => h.bind hg fun s1 =>
    (fuelOk_elsePart hg h s1).bind (good_elsePart hg s1) fun bn => by
      split
      · exact (noFuel_pure _).ok n
      · exact (noFuel_fail (by simp)).ok n

theorem noFuel_instrTail (c : Byte) : NoFuel (instrTail c) := by
  unfold instrTail
  split
  · exact noFuel_u32.bind fun _ => noFuel_u32.bind fun _ => noFuel_pure _
  split
  · exact noFuel_u32.bind fun _ => noFuel_u32.bind fun _ => noFuel_pure _
  split
  · exact noFuel_pure _
  · exact noFuel_fail (by simp)

theorem fuelOk_instrOf {n : Nat} {sub : P SubExpr} (hg : Good sub) (h : FuelOk (n - 1) sub) : FuelOk n (instrOf sub) := by
  have he := fuelOk_exprOf hg h
  have hi := fuelOk_ifOf hg h
  refine FuelOk.byte_bind fun c => ?_
  unfold instrAt
  split
  all_goals first
    | exact (noFuel_pure _).ok _
    | exact (noFuel_retVal.ok _).bind good_retVal fun _ => he.bind (good_exprOf hg) fun _ => (noFuel_pure _).ok _
    | exact hi
    | exact (noFuel_idx.bind fun _ => noFuel_pure _).ok _
    | exact ((noFuel_vec noFuel_idx).bind fun _ => noFuel_idx.bind fun _ => noFuel_pure _).ok _
    | exact (noFuel_idx.bind fun _ => noFuel_idx.bind fun _ => noFuel_pure _).ok _
    | exact ((noFuel_signed 32).bind fun _ => noFuel_pure _).ok _
    | exact ((noFuel_signed 64).bind fun _ => noFuel_pure _).ok _
    | exact ((noFuel_float 4).bind fun _ => noFuel_pure _).ok _
    | exact ((noFuel_float 8).bind fun _ => noFuel_pure _).ok _
    | exact (noFuel_instrTail c).ok _

/-- An instruction takes at least one byte. -/
theorem instrOf_consumes {sub : P SubExpr} (hg : Good sub) {s r : List Byte} {i : Instr} (h : instrOf sub s = (.ok i, r)) :
    r.length < s.length := by
  obtain ⟨c, s', h1, h2⟩ := bind_ok_iff.mp h
  cases s with
  | nil => cases h1
  | cons c' s =>
    cases h1
    have := (good_instrAt hg c).forward s'
    rw [h2] at this
    have := this.length_le
    simp only at this
    simp only [List.length_cons]
    omega

theorem fuelOk_subExpr (n : Nat) : FuelOk n (parseSubExpr (n + 1)) := by
  induction n with
  | zero =>
    intro s hs
    obtain rfl : s = [] := by simpa using hs
    intro h; cases h
  | succ n ih =>
    rw [parseSubExpr_succ]
    intro s hs
    have h0 := fuelOk_instrOf (n := n + 1) (good_subExpr (n + 1)) ih s hs
    rcases bind_cases (instrOf (parseSubExpr (n + 1))) (subStep (parseSubExpr (n + 1))) s
      with ⟨x, s', h1, h2⟩ | ⟨e, s', h1, h2⟩
    · have h3 := instrOf_consumes (good_subExpr (n + 1)) h1
      have hk : FuelOk n (subStep (parseSubExpr (n + 1)) x) := by
        unfold subStep
        split
        · exact (noFuel_pure _).ok n
        · exact (noFuel_pure _).ok n
        · exact ih.bind (good_subExpr (n + 1)) fun _ => (noFuel_pure _).ok n
      rw [h2]
      exact hk s' (by omega)
    · rw [h2]; rw [h1] at h0; intro h; apply h0; cases h; rfl

theorem subExpr_fuel_eq {n m : Nat} {s : List Byte} (hn : s.length < n) (hm : s.length < m) :
    parseSubExpr n s = parseSubExpr m s := by
  have key : ∀ k, s.length < k → parseSubExpr k s = parseSubExpr (s.length + 1) s := fun k hk =>
    fuelLe_subExpr hk s (fuelOk_subExpr s.length s (Nat.le_refl _))
  rw [key n hn, key m hm]

theorem good_of_fuel {α : Type} {p : Nat → P α} (hg : ∀ n, Good (p n)) (hle : ∀ n m, n ≤ m → FuelLe (p n) (p m))
    (hok : ∀ n, FuelOk n (p (n + 1))) : Good (fun s => p (s.length + 1) s) ∧ NoFuel (fun s => p (s.length + 1) s) := by
  have key : ∀ s n, s.length ≤ n → p (n + 1) s = p (s.length + 1) s := fun s n hn =>
    hle _ _ (by omega) s (hok _ s (Nat.le_refl _))
  refine ⟨⟨fun s => (hg _).forward s, fun s => ?_, fun c r x h => ?_, fun s => (hg _).noPanic s⟩,
    fun s => hok s.length s (Nat.le_refl _)⟩
  · rcases (hg (s.length + 1)).stream s with h | h
    · exact .inl h
    · right; intro t
      have hne : (p (s.length + 1) (s ++ t)).1 ≠ .error .fuel := by
        rw [h t]; exact hok s.length s (Nat.le_refl _)
      have := hle (s.length + 1) ((s ++ t).length + 1) (by simp) (s ++ t) hne
      show p ((s ++ t).length + 1) (s ++ t) = _
      rw [this, h t]
  · have := (hg _).exact c r x h
    show p (c.length + 1) c = _
    rw [← key c (c ++ r).length (by simp)]
    exact this

theorem good_expr : Good parseExpr :=
  (good_of_fuel (p := fun n => exprOf (parseSubExpr n)) (fun n => good_exprOf (good_subExpr n))
    (fun _ _ h => fuelLe_exprOf (fuelLe_subExpr h)) (fun n => fuelOk_exprOf (good_subExpr _) (fuelOk_subExpr n))).1

theorem noFuel_expr : NoFuel parseExpr :=
  (good_of_fuel (p := fun n => exprOf (parseSubExpr n)) (fun n => good_exprOf (good_subExpr n))
    (fun _ _ h => fuelLe_exprOf (fuelLe_subExpr h)) (fun n => fuelOk_exprOf (good_subExpr _) (fuelOk_subExpr n))).2

theorem fuelOk_mono {α : Type} {n m : Nat} {p : P α} (h : FuelOk n p) (hm : m ≤ n) : FuelOk m p :=
  fun s hs => h s (by omega)

theorem good_instr : Good parseInstr :=
  (good_of_fuel (p := fun n => instrOf (parseSubExpr n)) (fun n => good_instrOf (good_subExpr n))
    (fun _ _ h => fuelLe_instrOf (fuelLe_subExpr h))
    (fun n => fuelOk_instrOf (good_subExpr _) (fuelOk_mono (fuelOk_subExpr n) (by omega)))).1

theorem noFuel_instr : NoFuel parseInstr :=
  (good_of_fuel (p := fun n => instrOf (parseSubExpr n)) (fun n => good_instrOf (good_subExpr n))
    (fun _ _ h => fuelLe_instrOf (fuelLe_subExpr h))
    (fun n => fuelOk_instrOf (good_subExpr _) (fuelOk_mono (fuelOk_subExpr n) (by omega)))).2

end Whasm
