import Verif.Lemmas.MemoryRoom

/-!
# Without room: a panic needs many elements
-/

namespace Whasm.Memory
open Spec

section
variable {α β : Type} {len : Nat}

/-- If the parser panics then some vector has less room than the requests together, with `len` elements requested before. -/
def Over (len : Nat) (p : M α) : Prop := ∀ room s t, (p room s).out = (.error .panic, t) → ∃ k, room k < len + (p room s).slots

theorem over_bind {p : M α} {f : α → M β} (hp : Over len p) (hf : ∀ x, Over len (f x)) : Over len (p >>= f) := by
  intro room s t h
  rcases hr : (p room s).out with ⟨_ | x, u⟩
  · rw [bind_err' hr] at h ⊢
    cases h
    obtain ⟨k, hk⟩ := hp room s _ hr
    exact ⟨k, hk⟩
  · rw [bind_ok' hr] at h ⊢
    obtain ⟨k, hk⟩ := hf x room u t h
    exact ⟨k, by dsimp only; omega⟩

theorem over_request {f : Unit → M β} {kd : Kind} {n : Nat} (hf : Over (len + n) (f ())) : Over len (request kd len n >>= f) := by
  intro room s t h
  by_cases hr : len + n ≤ room kd
  · have hq : request kd len n room s = ⟨(.ok (), s), n⟩ := request_ok hr
    rw [bind_ok' (p := request kd len n) (x := ()) (t := s) (by rw [hq]), hq] at h ⊢
    obtain ⟨k, hk⟩ := hf room s t h
    exact ⟨k, by dsimp only; omega⟩
  · have hq : request kd len n room s = ⟨(.error .panic, s), n⟩ := request_panic hr
    rw [bind_err' (p := request kd len n) (e := .panic) (t := s) (by rw [hq]), hq]
    exact ⟨kd, by dsimp only; omega⟩

theorem Over.mono {l : Nat} {p : M α} (h : Over l p) (hl : l ≤ len) : Over len p := fun room s t e => by
  obtain ⟨k, hk⟩ := h room s t e
  exact ⟨k, by omega⟩

theorem over_pure {x : α} : Over len (pure x : M α) := fun room s t h => by cases h
theorem over_fail {e : Error} (he : e ≠ .panic) : Over len (M.fail e : M α) := fun room s t h => by
  have h : (Except.error e, s) = (Except.error Error.panic, t) := h
  cases h
  exact absurd rfl he
theorem over_lift {q : P α} (h : ∀ s, (q s).1 ≠ .error .panic) : Over len (lift q) := fun room s t e => by
  have e : q s = _ := e
  exact absurd (by rw [e]) (h s)
theorem over_good {q : P α} (h : Good q) : Over len (lift q) := over_lift h.noPanic

theorem over_n {p : M α} (h : Over len p) : ∀ n, Over len (parseN n p)
  | 0 => over_pure
  | n + 1 => over_bind h fun _ => over_bind (over_n h n) fun _ => over_pure

theorem over_vec {p : M α} {kd : Kind} (h : Over 0 p) : Over len (parseVec kd p) :=
  Over.mono (over_bind (over_good good_u32) fun n => over_request (over_n (h.mono (Nat.zero_le _)) n.toNat)) (Nat.zero_le _)

theorem over_unwrap {γ : Type} {p : M α} {kd : Kind} {u : α → γ} (h : Over 0 p) : Over len (parseUnwrappingVec kd u p) :=
  Over.mono (over_bind (over_good good_u32) fun n => over_request (over_n (over_bind (h.mono (Nat.zero_le _)) fun _ => over_pure) n.toNat)) (Nat.zero_le _)

theorem over_string : Over len parseString := over_bind (over_unwrap (over_good good_byte)) fun raw => by
  split
  · exact over_pure
  · exact over_fail (by simp)

theorem over_retVal : Over len parseRetVal := Over.mono (over_bind (over_good good_retVal) fun _ => over_request over_pure) (Nat.zero_le _)

theorem over_funcTy : Over len parseFuncTy := by
  refine over_bind (over_good good_byte) fun b => ?_
  split
  · exact over_bind (over_vec (over_good good_val)) fun _ => over_bind (over_vec (over_good good_val)) fun _ => over_pure
  · exact over_fail (by simp)

theorem over_exprOf {sub : M SubExpr} (h : Over len sub) : Over len (exprOf sub) := by
  refine over_bind h fun se => ?_
  split
  · exact over_pure
  · exact over_fail (by simp)
  · exact over_fail (by simp)

theorem over_ifOf {sub : M SubExpr} (h : Over len sub) : Over len (ifOf sub) := by
  refine over_bind over_retVal fun _ => over_bind h fun s1 => over_bind ?_ fun bn => ?_
  · unfold elsePart
    split
    · exact over_bind h fun _ => over_pure
    · exact over_pure
  · split
    · exact over_pure
    · exact over_fail (by simp)

theorem over_instrAt {sub : M SubExpr} (h : Over len sub) (b : Byte) : Over len (instrAt sub b) := by
  by_cases h2 : b.toNat = 2
  · rw [(instrAt_02 h2 sub (P.fail .fuel)).1]
    exact over_bind over_retVal fun _ => over_bind (over_exprOf h) fun _ => over_pure
  by_cases h3 : b.toNat = 3
  · rw [(instrAt_03 h3 sub (P.fail .fuel)).1]
    exact over_bind over_retVal fun _ => over_bind (over_exprOf h) fun _ => over_pure
  by_cases h4 : b.toNat = 4
  · rw [(instrAt_04 h4 sub (P.fail .fuel)).1]
    exact over_ifOf h
  by_cases he : b.toNat = 14
  · rw [(instrAt_0E he sub (P.fail .fuel)).1]
    exact over_bind (over_vec (over_good good_idx)) fun _ => over_bind (over_good good_idx) fun _ => over_pure
  · have := instrAt_other h2 h3 h4 he sub (P.fail .fuel)
    rw [this.1]
    exact over_good this.2

theorem over_subExpr : ∀ fuel len, Over len (parseSubExpr fuel len)
  | 0, len => over_fail (by simp)
  | fuel + 1, len => by
    refine over_bind (over_bind (over_good good_byte) fun b => over_instrAt ((over_subExpr fuel 0).mono (Nat.zero_le _)) b) fun i => ?_
    unfold subStep
    split
    · exact over_pure
    · exact over_pure
    · exact over_request (over_bind (over_subExpr fuel (len + 1)) fun _ => over_pure)

theorem over_expr : Over len parseExpr := fun room s => (over_exprOf (over_subExpr (s.length + 1) 0)).mono (Nat.zero_le _) room s

theorem over_runs {q : P α} {kd : Kind} (hq : Good q) : ∀ n len, Over len (parseRuns kd len n (lift q))
  | 0, _ => over_pure
  | n + 1, _ => over_bind (over_good good_u32) fun _ => over_bind (over_good hq) fun _ => over_request (over_bind (over_runs hq n _) fun _ => over_pure)

theorem over_func : Over len parseFunc :=
  over_bind (Over.mono (over_bind (over_good good_u32) fun n => over_runs good_val n.toNat 0) (Nat.zero_le _)) fun _ => over_bind over_expr fun _ => over_pure

theorem over_sized {p : M α} (h : Over len p) : Over len (parseSized p) := by
  refine over_bind (over_good good_u32) fun n room s t hx => ?_
  have h := h room (s.take n.toNat)
  dsimp only at hx ⊢
  rcases hr : p room (s.take n.toNat) with ⟨⟨_ | y, u⟩, m⟩
  · rw [hr] at hx h
    cases hx
    exact h _ rfl
  · rw [hr] at hx
    dsimp only at hx
    split at hx <;> cases hx

end

theorem over_section (id : Byte) (st : LoopState) : Over 0 (parseSection id st) := by
  unfold parseSection
  split
  · exact over_bind (over_sized (over_bind over_string fun _ => over_bind (over_lift fun s h => by cases h) fun _ => over_pure)) fun _ => over_pure
  · exact over_bind (over_sized (over_vec over_funcTy)) fun _ => over_pure
  · exact over_bind (over_sized (over_vec (over_bind over_string fun _ => over_bind over_string fun _ => over_bind (over_good good_importDesc) fun _ => over_pure))) fun _ => over_pure
  · exact over_bind (over_sized (over_vec (over_good good_idx))) fun _ => over_pure
  · exact over_bind (over_sized (over_vec (over_good good_table))) fun _ => over_pure
  · exact over_bind (over_sized (over_vec (over_good good_mem))) fun _ => over_pure
  · exact over_bind (over_sized (over_vec (over_bind (over_good good_globalTy) fun _ => over_bind over_expr fun _ => over_pure))) fun _ => over_pure
  · exact over_bind (over_sized (over_vec (over_bind over_string fun _ => over_bind (over_good good_exportDesc) fun _ => over_pure))) fun _ => over_pure
  · exact over_bind (over_sized (over_good good_start)) fun _ => over_pure
  · exact over_bind (over_sized (over_vec (over_bind (over_good good_idx) fun _ => over_bind over_expr fun _ => over_bind (over_vec (over_good good_idx)) fun _ => over_pure))) fun _ => over_pure
  · refine over_bind (over_sized (over_unwrap (over_sized over_func))) fun fs => ?_
    dsimp only
    split
    · exact over_fail (by simp)
    · rename_i hl
      cases ha : assignTys st.funcTypes st.funcTypes.length fs with
      | none => rw [assignTys_eq _ _ (Decidable.not_not.mp hl).symm] at ha; cases ha
      | some gs => exact over_pure
  · exact over_bind (over_sized (over_vec (over_bind (over_good good_idx) fun _ => over_bind over_expr fun _ => over_bind (over_unwrap (over_good good_byte)) fun _ => over_pure))) fun _ => over_pure
  · exact over_fail (by simp)

theorem over_loop : ∀ (fuel : Nat) (st : LoopState), Over 0 (sectionLoop fuel st)
  | 0, st => over_fail (by simp)
  | fuel + 1, st => by
    intro room s
    cases s with
    | nil => intro t h; cases h
    | cons b s =>
      refine over_bind (over_bind (over_good good_byte) fun id => ?_) (fun st' => over_loop fuel st') room (b :: s)
      split
      · split
        · exact over_fail (by simp)
        · exact over_section id { st with lastId := id }
      · exact over_section id st

theorem over_module : Over 0 parseModule := by
  refine over_bind (over_good (good_parseN good_byte 4)) fun magic => ?_
  split
  · exact over_fail (by simp)
  · refine over_bind (over_good (good_parseN good_byte 4)) fun version => ?_
    split
    · exact over_fail (by simp)
    · exact fun room s => over_loop (s.length + 1) {} room s

theorem sized_err {α : Type} {p : M α} {room : Kind → Nat} {s t u : List Byte} {n : U32} {e : Error} (h1 : parseU32 s = (.ok n, t)) (h2 : (p room (t.take n.toNat)).out = (.error e, u)) :
    (parseSized p room s).out = (.error e, u ++ t.drop n.toNat) := by
  have hl : (lift parseU32 room s).out = (.ok n, t) := h1
  unfold parseSized
  refine (congrArg Run.out (bind_ok' (p := lift parseU32) hl)).trans ?_
  dsimp only
  rcases hr : p room (t.take n.toNat) with ⟨o, m⟩
  rw [hr] at h2
  cases h2
  rfl

/-! ## Vectors of a module -/

theorem mem_sum {v : Kind × Nat} {l : List (Kind × Nat)} (h : v ∈ l) : v.2 ≤ sum l := by
  induction l with
  | nil => cases h
  | cons u l ih =>
    simp only [sum, total]
    rcases List.mem_cons.mp h with rfl | h
    · omega
    · have := ih h; simp only [sum] at this; omega

theorem locals_mem {m : Module} {f : Func} (h : f ∈ m.funcs) : (Kind.local, f.locals.length) ∈ vectors m := by
  rw [vectors_parts]
  have : (Kind.local, f.locals.length) ∈ part 10 m := List.mem_cons_of_mem _ (List.mem_flatMap.mpr ⟨f, h, List.mem_cons_self ..⟩)
  simp only [List.mem_append]
  simp only [this, true_or, or_true]

theorem sum_bodies (fs : List Func) : sum (fs.flatMap vectorsF) = total (fun f => f.locals.length) fs + sum (fs.flatMap fun f => vectorsE f.body) := by
  induction fs with
  | nil => rfl
  | cons f fs ih =>
    simp only [sum] at ih
    simp only [List.flatMap_cons, sum, total_append, total, vectorsF, ih]
    omega

/-- A vector is that of the local variables of a function, or there is memory for it and for all local variables. -/
theorem other_vectors {m : Module} {v : Kind × Nat} (hv : v ∈ vectors m) :
    v.2 + localsOf m ≤ elements m ∨ ∃ f ∈ m.funcs, v = (.local, f.locals.length) := by
  have he : elements m = sum (part 1 m) + sum (part 10 m) + (sum (part 4 m) + sum (part 5 m)) + sum (part 6 m) + sum (part 9 m) + sum (part 11 m) + sum (part 2 m) + sum (part 7 m) := by
    show total _ (vectors m) = _
    rw [vectors_parts]
    simp only [total_append, sum]
  have h10 : sum (part 10 m) = m.funcs.length + (localsOf m + sum (m.funcs.flatMap fun f => vectorsE f.body)) := by
    show sum ((.func, m.funcs.length) :: m.funcs.flatMap vectorsF) = _
    have := sum_bodies m.funcs
    simp only [sum] at this
    simp only [sum, total, this]
    rfl
  rw [vectors_parts] at hv
  simp only [List.mem_append] at hv
  rcases hv with ((((((h | h) | h | h) | h) | h) | h) | h) | h
  case inl.inl.inl.inl.inl.inl.inr =>
    have h : v ∈ (Kind.func, m.funcs.length) :: m.funcs.flatMap vectorsF := h
    rcases List.mem_cons.mp h with rfl | h
    · left; dsimp only; omega
    · obtain ⟨f, hf, h⟩ := List.mem_flatMap.mp h
      rcases List.mem_cons.mp h with rfl | h
      · exact .inr ⟨f, hf, rfl⟩
      · left
        have := mem_sum (List.mem_flatMap (f := fun f : Func => vectorsE f.body).mpr ⟨f, hf, h⟩)
        omega
  all_goals
    left
    have := mem_sum h
    omega

end Whasm.Memory
