import Verif.Lemmas.Memory

/-!
# The vectors that parsing makes
-/

namespace Whasm.Memory
open Spec

theorem total_append {α : Type} (f : α → Nat) (xs ys : List α) : total f (xs ++ ys) = total f xs + total f ys := by
  induction xs with
  | nil => simp [total]
  | cons x xs ih => simp only [List.cons_append, total, ih]; omega

/-- The elements of vectors. -/
abbrev sum (l : List (Kind × Nat)) : Nat := total (·.2) l

/-- Vectors that have room. -/
def AllFit (room : Kind → Nat) (l : List (Kind × Nat)) : Prop := ∀ u ∈ l, u.2 ≤ room u.1

theorem AllFit.append {room : Kind → Nat} {a b : List (Kind × Nat)} : AllFit room (a ++ b) ↔ AllFit room a ∧ AllFit room b :=
  ⟨fun h => ⟨fun u hu => h u (List.mem_append_left _ hu), fun u hu => h u (List.mem_append_right _ hu)⟩,
    fun h u hu => (List.mem_append.mp hu).elim (h.1 u) (h.2 u)⟩

theorem AllFit.cons {room : Kind → Nat} {u : Kind × Nat} {b : List (Kind × Nat)} : AllFit room (u :: b) ↔ u.2 ≤ room u.1 ∧ AllFit room b := by
  unfold AllFit
  grind

theorem AllFit.flatMap {α : Type} {room : Kind → Nat} {f : α → List (Kind × Nat)} {l : List α} : AllFit room (l.flatMap f) ↔ ∀ x ∈ l, AllFit room (f x) :=
  ⟨fun h x hx u hu => h u (List.mem_flatMap.mpr ⟨x, hx, hu⟩), fun h u hu => by
    obtain ⟨x, hx, hu⟩ := List.mem_flatMap.mp hu
    exact h x hx u hu⟩

/-! ## Vectors that were made have room -/

/-- With vectors `pre` before there are vectors `v x` after the parser: they have room unless they were there before, and memory was requested for them unless it was before. -/
def Makes {α : Type} (pre : List (Kind × Nat)) (p : M α) (v : α → List (Kind × Nat)) : Prop :=
  ∀ room s x t, (p room s).out = (.ok x, t) → (AllFit room pre → AllFit room (v x)) ∧ sum (v x) ≤ sum pre + (p room s).slots

section
variable {α β : Type} {pre : List (Kind × Nat)}

theorem makes_bind {p : M α} {f : α → M β} {v : α → List (Kind × Nat)} {w : β → List (Kind × Nat)} (hp : Makes pre p v) (hf : ∀ x, Makes (v x) (f x) w) :
    Makes pre (p >>= f) w := by
  intro room s y u h
  rcases hr : (p room s).out with ⟨_ | x, t⟩
  · rw [bind_err' hr] at h; cases h
  · rw [bind_ok' hr] at h ⊢
    have h1 := hp room s x t hr
    have h2 := hf x room t y u h
    exact ⟨fun ha => h2.1 (h1.1 ha), by dsimp only; omega⟩

theorem makes_pure {x : α} {v : α → List (Kind × Nat)} (h : ∀ room, AllFit room pre → AllFit room (v x)) (hs : sum (v x) ≤ sum pre) : Makes pre (pure x : M α) v := by
  intro room s y u hy
  cases hy
  exact ⟨h room, by omega⟩

theorem makes_fail {e : Error} {v : α → List (Kind × Nat)} : Makes pre (M.fail e : M α) v := by
  intro room s y u hy
  cases hy

theorem makes_lift {q : P α} : Makes pre (lift q) (fun _ => pre) := fun _ _ _ _ _ => ⟨fun h => h, Nat.le_add_right _ _⟩

theorem makes_request {kd : Kind} {len n : Nat} : Makes ((kd, len) :: pre) (request kd len n) (fun _ => (kd, len + n) :: pre) := by
  intro room s y u h
  by_cases hr : len + n ≤ room kd
  · rw [request_ok hr]
    refine ⟨fun ha => ?_, ?_⟩
    · rw [AllFit.cons] at ha ⊢
      exact ⟨hr, ha.2⟩
    · simp only [sum, total]; omega
  · rw [request_panic hr] at h; cases h

theorem Makes.before {pre' : List (Kind × Nat)} {p : M α} {v : α → List (Kind × Nat)} (h : Makes pre p v) (h1 : ∀ room, AllFit room pre' → AllFit room pre)
    (h2 : sum pre ≤ sum pre') : Makes pre' p v := fun room s x t hx => by
  have := h room s x t hx
  exact ⟨fun ha => this.1 (h1 room ha), by omega⟩

theorem Makes.after {p : M α} {v v' : α → List (Kind × Nat)} (h : Makes pre p v) (h1 : ∀ x room, AllFit room (v x) → AllFit room (v' x))
    (h2 : ∀ x, sum (v' x) ≤ sum (v x)) : Makes pre p v' := fun room s x t hx => by
  have := h room s x t hx
  have := h2 x
  exact ⟨fun ha => h1 x room ((h room s x t hx).1 ha), by omega⟩

theorem makes_start {kd : Kind} {p : M α} {v : α → List (Kind × Nat)} (h : Makes ((kd, 0) :: pre) p v) : Makes pre p v :=
  h.before (fun room ha => AllFit.cons.mpr ⟨Nat.zero_le _, ha⟩) (by simp [sum, total])

/-- A parser that adds the vectors `v x`. -/
def Adds (p : M α) (v : α → List (Kind × Nat)) : Prop := ∀ pre, Makes pre p (fun x => v x ++ pre)

theorem adds_lift {q : P α} : Adds (lift q) (fun _ => []) := fun _ => makes_lift

theorem adds_n {p : M α} {v : α → List (Kind × Nat)} (hp : Adds p v) : ∀ n, Adds (parseN n p) (fun xs => xs.flatMap v)
  | 0 => fun pre => makes_pure (fun _ h => h) (Nat.le_refl _)
  | n + 1 => fun pre => by
    refine makes_bind (hp pre) fun x => makes_bind (adds_n hp n _) fun xs => makes_pure (fun room h => ?_) ?_
    · simp only [List.flatMap_cons, AllFit.append] at h ⊢
      exact ⟨⟨h.2.1, h.1⟩, h.2.2⟩
    · simp only [List.flatMap_cons, total_append, sum]; omega

theorem length_n {p : M α} {room : Kind → Nat} : ∀ {n : Nat} {s t : List Byte} {xs : List α}, (parseN n p room s).out = (.ok xs, t) → xs.length = n
  | 0, s, t, xs, h => by cases h; rfl
  | n + 1, s, t, xs, h => by
    unfold parseN at h
    rcases hr : (p room s).out with ⟨_ | x, u⟩
    · rw [bind_err' hr] at h; cases h
    · rw [bind_ok' hr] at h
      dsimp only at h
      rcases hr' : (parseN n p room u).out with ⟨_ | ys, u'⟩
      · rw [bind_err' hr'] at h; cases h
      · rw [bind_ok' hr'] at h
        cases h
        rw [List.length_cons, length_n hr']

theorem adds_alloc {p : M α} {v : α → List (Kind × Nat)} {kd : Kind} (hp : Adds p v) :
    Adds (lift parseU32 >>= fun n => request kd 0 n.toNat >>= fun _ => parseN n.toNat p) (fun xs => (kd, xs.length) :: xs.flatMap v) := by
  intro pre
  refine makes_bind makes_lift fun n => makes_start (kd := kd) (makes_bind makes_request fun _ => ?_)
  intro room s xs t h
  have h1 := adds_n hp n.toNat ((kd, 0 + n.toNat) :: pre) room s xs t h
  have hl := length_n h
  dsimp only at h1 ⊢
  rw [hl]
  refine ⟨fun ha => ?_, ?_⟩
  · have := h1.1 ha
    simp only [List.cons_append, AllFit.cons, AllFit.append, Nat.zero_add] at this ⊢
    exact ⟨this.2.1, this.1, this.2.2⟩
  · have := h1.2
    simp only [List.cons_append, sum, total, total_append] at this ⊢
    omega

theorem adds_vec {p : M α} {v : α → List (Kind × Nat)} {kd : Kind} (hp : Adds p v) : Adds (parseVec kd p) (fun xs => (kd, xs.length) :: xs.flatMap v) := adds_alloc hp

theorem adds_unwrap {p : M α} {v : α → List (Kind × Nat)} {kd : Kind} (hp : Adds p v) :
    Adds (parseUnwrappingVec kd (fun x : α => x) p) (fun xs => (kd, xs.length) :: xs.flatMap v) :=
  adds_alloc fun pre => makes_bind (hp pre) fun _ => makes_pure (fun _ h => h) (Nat.le_refl _)

theorem flatMap_nil' (xs : List α) : xs.flatMap (fun _ => ([] : List (Kind × Nat))) = [] := by simp

theorem adds_plain {q : P α} {kd : Kind} : Adds (parseVec kd (lift q)) (fun xs => [(kd, xs.length)]) := by
  have := adds_vec (kd := kd) (adds_lift (q := q))
  simp only [flatMap_nil'] at this
  exact this

theorem adds_bytes : Adds (parseUnwrappingVec .byte (fun b : Byte => b) (lift parseByte)) (fun xs => [(.byte, xs.length)]) := by
  have := adds_unwrap (kd := .byte) (adds_lift (q := parseByte))
  simp only [flatMap_nil'] at this
  exact this

theorem adds_string : Adds parseString (fun xs => [(.byte, xs.length)]) := by
  intro pre
  refine makes_bind (adds_bytes pre) fun raw => ?_
  by_cases h : validUtf8 raw = true
  · rw [if_pos h]; exact makes_pure (fun _ h => h) (Nat.le_refl _)
  · rw [if_neg h]; exact makes_fail

theorem adds_retVal : Adds parseRetVal (fun r => [(.val, r.length)]) := by
  intro pre
  refine makes_bind makes_lift fun ret => makes_start (kd := .val) (makes_bind makes_request fun _ => ?_)
  rw [Nat.zero_add]
  exact makes_pure (fun _ h => h) (Nat.le_refl _)

theorem adds_funcTy : Adds parseFuncTy (fun t => [(.val, t.params.length), (.val, t.results.length)]) := by
  intro pre
  refine makes_bind makes_lift fun b => ?_
  generalize b.toNat = n
  split
  · refine makes_bind (adds_plain pre) fun ps => makes_bind (adds_plain _) fun rs => makes_pure (fun room h => ?_) ?_
    · simp only [List.cons_append, List.nil_append, AllFit.cons] at h ⊢
      exact ⟨h.2.1, h.1, h.2.2⟩
    · simp only [List.cons_append, List.nil_append, sum, total]; omega
  · exact makes_fail

/-! ### Instructions -/

/-- The vectors of an instruction sequence that starts with `len` instructions read before. -/
def seq (len : Nat) (is : List Instr) : List (Kind × Nat) := (.instr, len + is.length) :: vectorsL is

theorem adds_exprOf {sub : M SubExpr} (h : Adds sub (fun x => seq 0 x.body)) : Adds (exprOf sub) vectorsE := by
  intro pre
  refine makes_bind (h pre) fun se => ?_
  rcases se with ⟨is, next⟩
  dsimp only
  cases next with
  | endMark => exact makes_pure (fun room h => by unfold seq at h; rw [Nat.zero_add] at h; exact h) (by unfold seq; rw [Nat.zero_add]; exact Nat.le_refl _)
  | elseMark => exact makes_fail
  | _ => exact makes_fail

theorem adds_ifOf {sub : M SubExpr} (h : Adds sub (fun x => seq 0 x.body)) : Adds (ifOf sub) vectorsI := by
  intro pre
  refine makes_bind (adds_retVal pre) fun ret => makes_bind (h _) fun s1 => ?_
  have he : Adds (elsePart sub s1) (fun bn => seq 0 bn.1) := by
    intro pre
    unfold elsePart
    by_cases hn : s1.next.isElse = true
    · rw [if_pos hn]
      exact makes_bind (h pre) fun s2 => makes_pure (fun _ h => h) (Nat.le_refl _)
    · rw [if_neg hn]
      exact makes_pure (fun room h => AllFit.cons.mpr ⟨Nat.zero_le _, h⟩) (by simp [sum, total, seq, vectorsL])
  refine makes_bind (he _) fun bn => ?_
  by_cases hn : bn.2.isEnd = true
  · rw [if_pos hn]
    refine makes_pure (fun room h => ?_) ?_
    · simp only [seq, vectorsI, List.cons_append, List.nil_append, AllFit.append, AllFit.cons, Nat.zero_add] at h ⊢
      exact ⟨h.2.2.2.2.1, h.2.2.1, h.1, ⟨h.2.2.2.1, h.2.1⟩, h.2.2.2.2.2⟩
    · simp only [seq, vectorsI, List.cons_append, List.nil_append, sum, total, total_append]; omega
  · rw [if_neg hn]
    exact makes_fail

/-- The parser makes instructions without vectors. -/
def Bare (p : P Instr) : Prop := ∀ s i t, p s = (.ok i, t) → vectorsI i = []

theorem bare_pure {i : Instr} (h : vectorsI i = []) : Bare (pure i) := fun s j t e => by cases e; exact h
theorem bare_fail {e : Error} : Bare (P.fail e) := fun s j t e => by cases e
theorem bare_bind {q : P α} {g : α → P Instr} (h : ∀ x, Bare (g x)) : Bare (q >>= g) := fun s i t e => by
  obtain ⟨x, u, _, e⟩ := bind_ok_iff.mp e
  exact h x u i t e

theorem bare_tail (b : Byte) : Bare (instrTail b) := by
  unfold instrTail
  rcases loadTable.lookup b.toNat with _ | op
  · dsimp only
    rcases storeTable.lookup b.toNat with _ | op
    · dsimp only
      rcases numTable.lookup b.toNat with _ | op
      · exact bare_fail
      · exact bare_pure rfl
    · exact bare_bind fun _ => bare_bind fun _ => bare_pure rfl
  · exact bare_bind fun _ => bare_bind fun _ => bare_pure rfl

/-- Instructions without vectors come from the opcodes without vectors. -/
theorem leaf_vectors {b : Byte} (h2 : b.toNat ≠ 2) (h3 : b.toNat ≠ 3) (h4 : b.toNat ≠ 4) (he : b.toNat ≠ 14) : Bare (Whasm.instrAt (P.fail .fuel) b) := by
  have ht := bare_tail b
  unfold Whasm.instrAt
  generalize b.toNat = n at *
  split <;> first
    | contradiction
    | exact bare_pure rfl
    | exact bare_bind fun _ => bare_pure rfl
    | exact bare_bind fun _ => bare_bind fun _ => bare_pure rfl
    | exact ht

theorem adds_instrAt {sub : M SubExpr} (h : Adds sub (fun x => seq 0 x.body)) (b : Byte) : Adds (instrAt sub b) vectorsI := by
  intro pre
  by_cases h2 : b.toNat = 2
  · rw [(instrAt_02 h2 sub (P.fail .fuel)).1]
    refine makes_bind (adds_retVal pre) fun _ => makes_bind (adds_exprOf h _) fun _ => makes_pure (fun room h => ?_) ?_
    · simp only [vectorsE, vectorsI, List.cons_append, List.nil_append, AllFit.append, AllFit.cons] at h ⊢
      exact ⟨h.2.2.1, h.1, h.2.1, h.2.2.2⟩
    · simp only [vectorsE, vectorsI, List.cons_append, List.nil_append, sum, total, total_append]; omega
  by_cases h3 : b.toNat = 3
  · rw [(instrAt_03 h3 sub (P.fail .fuel)).1]
    refine makes_bind (adds_retVal pre) fun _ => makes_bind (adds_exprOf h _) fun _ => makes_pure (fun room h => ?_) ?_
    · simp only [vectorsE, vectorsI, List.cons_append, List.nil_append, AllFit.append, AllFit.cons] at h ⊢
      exact ⟨h.2.2.1, h.1, h.2.1, h.2.2.2⟩
    · simp only [vectorsE, vectorsI, List.cons_append, List.nil_append, sum, total, total_append]; omega
  by_cases h4 : b.toNat = 4
  · rw [(instrAt_04 h4 sub (P.fail .fuel)).1]
    exact adds_ifOf h pre
  by_cases he : b.toNat = 14
  · rw [(instrAt_0E he sub (P.fail .fuel)).1]
    exact makes_bind (adds_plain pre) fun _ => makes_bind makes_lift fun _ => makes_pure (fun room h => h) (Nat.le_refl _)
  · rw [(instrAt_other h2 h3 h4 he sub (P.fail .fuel)).1]
    intro room s i t h
    dsimp only
    rw [leaf_vectors h2 h3 h4 he s i t h]
    exact ⟨fun h => h, Nat.le_add_right _ _⟩

theorem adds_instrOf {sub : M SubExpr} (h : Adds sub (fun x => seq 0 x.body)) : Adds (instrOf sub) vectorsI :=
  fun _ => makes_bind makes_lift fun b => adds_instrAt h b _

theorem makes_subExpr : ∀ fuel len pre, Makes ((.instr, len) :: pre) (parseSubExpr fuel len) (fun x => seq len x.body ++ pre)
  | 0, len, pre => makes_fail
  | fuel + 1, len, pre => by
    have ih := makes_subExpr fuel (len + 1)
    have h0 : Adds (parseSubExpr fuel 0) (fun x => seq 0 x.body) := fun pre => makes_start (makes_subExpr fuel 0 pre)
    refine makes_bind (adds_instrOf h0 _) fun i => ?_
    have step : ∀ next : Instr, Makes (vectorsI next ++ (.instr, len) :: pre) (request .instr len 1 >>= fun _ => parseSubExpr fuel (len + 1) >>= fun rest =>
        pure { body := next :: rest.body, next := rest.next }) (fun x : SubExpr => seq len x.body ++ pre) := by
      intro next
      refine Makes.before (pre := (.instr, len) :: (vectorsI next ++ pre)) ?_ ?_ ?_
      · refine makes_bind makes_request fun _ => makes_bind (ih _) fun rest => makes_pure (fun room h => ?_) ?_
        · simp only [seq, vectorsL, List.cons_append, AllFit.append, AllFit.cons, List.length_cons] at h ⊢
          refine ⟨by have := h.1; omega, ⟨h.2.2.1, h.2.1⟩, h.2.2.2⟩
        · simp only [seq, vectorsL, List.cons_append, sum, total, total_append, List.length_cons]; omega
      · intro room h
        simp only [AllFit.append, AllFit.cons] at h ⊢
        exact ⟨h.2.1, h.1, h.2.2⟩
      · simp only [sum, total, total_append]; omega
    cases i with
    | endMark => exact makes_pure (fun room h => h) (Nat.le_refl _)
    | elseMark => exact makes_pure (fun room h => h) (Nat.le_refl _)
    | _ => exact step _

theorem adds_expr : Adds parseExpr vectorsE := fun pre room s =>
  adds_exprOf (sub := parseSubExpr (s.length + 1) 0) (fun pre => makes_start (makes_subExpr _ 0 pre)) pre room s

/-! ### Modules -/

theorem makes_runs {q : P α} {kd : Kind} : ∀ n len pre, Makes ((kd, len) :: pre) (parseRuns kd len n (lift q)) (fun xs => (kd, len + xs.length) :: pre)
  | 0, len, pre => makes_pure (fun _ h => h) (Nat.le_refl _)
  | n + 1, len, pre => by
    refine makes_bind makes_lift fun m => makes_bind makes_lift fun v => makes_bind makes_request fun _ => makes_bind (makes_runs n _ _) fun rest => ?_
    have : len + m.toNat + rest.length = len + (List.replicate m.toNat v ++ rest).length := by simp; omega
    rw [this]
    exact makes_pure (fun _ h => h) (Nat.le_refl _)

/-- The vectors of a function. -/
def vectorsF (f : Func) : List (Kind × Nat) := (.local, f.locals.length) :: vectorsE f.body

theorem adds_func : Adds parseFunc vectorsF := by
  intro pre
  refine makes_bind (v := fun xs => (.local, xs.length) :: pre) (makes_bind makes_lift fun n => makes_start (kd := .local) ((makes_runs n.toNat 0 pre).after ?_ ?_)) fun xs => ?_
  · intro xs room h; rw [Nat.zero_add] at h; exact h
  · intro xs; rw [Nat.zero_add]; exact Nat.le_refl _
  · refine makes_bind (adds_expr _) fun body => makes_pure (fun room h => ?_) ?_
    · simp only [vectorsF, AllFit.append, AllFit.cons] at h ⊢
      exact ⟨⟨h.2.1, h.1⟩, h.2.2⟩
    · simp only [vectorsF, List.cons_append, sum, total, total_append]; omega

theorem adds_global : Adds parseGlobal (fun g => vectorsE g.init) := fun pre =>
  makes_bind makes_lift fun _ => makes_bind (adds_expr pre) fun _ => makes_pure (fun _ h => h) (Nat.le_refl _)

theorem adds_elem : Adds parseElem (fun e => (.idx, e.init.length) :: vectorsE e.offset) := fun pre =>
  makes_bind makes_lift fun _ => makes_bind (adds_expr pre) fun _ => makes_bind (adds_plain _) fun _ => makes_pure (fun _ h => h) (Nat.le_refl _)

theorem adds_data : Adds parseData (fun d => (.byte, d.init.length) :: vectorsE d.offset) := fun pre =>
  makes_bind makes_lift fun _ => makes_bind (adds_expr pre) fun _ => makes_bind (adds_bytes _) fun _ => makes_pure (fun _ h => h) (Nat.le_refl _)

theorem adds_import : Adds parseImport (fun i => [(.byte, i.module.length), (.byte, i.name.length)]) := fun pre => by
  refine makes_bind (adds_string pre) fun a => makes_bind (adds_string _) fun b => makes_bind makes_lift fun _ => makes_pure (fun room h => ?_) ?_
  · simp only [List.cons_append, List.nil_append, AllFit.cons] at h ⊢
    exact ⟨h.2.1, h.1, h.2.2⟩
  · simp only [List.cons_append, List.nil_append, sum, total]; omega

theorem adds_export : Adds parseExport (fun e => [(.byte, e.name.length)]) := fun pre =>
  makes_bind (adds_string pre) fun _ => makes_bind makes_lift fun _ => makes_pure (fun _ h => h) (Nat.le_refl _)

theorem makes_drop {p : M α} {v : α → List (Kind × Nat)} (h : Adds p v) : Makes pre p (fun _ => pre) :=
  (h pre).after (fun _ _ h => (AllFit.append.mp h).2) fun _ => by simp only [sum, total_append]; omega

theorem adds_custom : Adds parseCustom (fun _ => []) := fun _ =>
  makes_bind (makes_drop adds_string) fun _ => makes_bind makes_lift fun _ => makes_pure (fun _ h => h) (Nat.le_refl _)

theorem makes_sized {p : M α} {v : α → List (Kind × Nat)} (h : Makes pre p v) : Makes pre (parseSized p) v := by
  refine makes_bind makes_lift fun n room s x t hx => ?_
  have h := h room (s.take n.toNat)
  dsimp only at hx ⊢
  rcases hr : p room (s.take n.toNat) with ⟨⟨_ | y, u⟩, m⟩
  · rw [hr] at hx; cases hx
  · rw [hr] at hx h
    dsimp only at hx ⊢
    split at hx
    · cases hx
    · rename_i hc
      cases hx
      rw [if_neg hc]
      exact h _ _ rfl

end

theorem assignTys_same {β : Type} (w : List Val → Expr → β) {tys : List Idx} {n : Nat} {fs gs : List Func} (h : assignTys tys n fs = some gs) :
    gs.map (fun f => w f.locals f.body) = fs.map (fun f => w f.locals f.body) := by
  unfold assignTys at h
  revert fs
  induction List.range n with
  | nil => intro fs h; cases h; rfl
  | cons i is ih =>
    intro fs h
    rw [List.foldlM_cons] at h
    cases h1 : setTy tys fs i with
    | none => rw [h1] at h; cases h
    | some hs =>
      rw [h1] at h
      rw [ih h]
      unfold setTy at h1
      split at h1
      · rename_i f ty hf hty
        cases h1
        rw [List.map_set]
        apply List.ext_getElem?
        intro k
        by_cases hk : i = k
        · subst hk
          have : i < fs.length := (List.getElem?_eq_some_iff.mp hf).1
          have hf := (List.getElem?_eq_some_iff.mp hf).2
          simp [this, hf]
        · simp [hk]
      · cases h1

theorem assignTys_vectors {tys : List Idx} {n : Nat} {fs gs : List Func} (h : assignTys tys n fs = some gs) :
    gs.length = fs.length ∧ gs.flatMap vectorsF = fs.flatMap vectorsF := by
  have h1 := assignTys_same (fun l b => ((Kind.local, l.length) :: vectorsE b : List (Kind × Nat))) h
  refine ⟨by simpa using congrArg List.length h1, ?_⟩
  have e : ∀ l : List Func, l.flatMap vectorsF = (l.map (fun f => ((Kind.local, f.locals.length) :: vectorsE f.body : List (Kind × Nat)))).flatten := fun l => by
    rw [List.flatMap_def]; rfl
  rw [e, e, h1]

/-- The vectors that come from the section with the given number. -/
def part (i : Nat) (m : Module) : List (Kind × Nat) :=
  match i with
  | 1 => (.functype, m.types.length) :: m.types.flatMap fun t => [(.val, t.params.length), (.val, t.results.length)]
  | 2 => (.import, m.imports.length) :: m.imports.flatMap fun i => [(.byte, i.module.length), (.byte, i.name.length)]
  | 4 => [(.table, m.tables.length)]
  | 5 => [(.mem, m.mems.length)]
  | 6 => (.global, m.globals.length) :: m.globals.flatMap fun g => vectorsE g.init
  | 7 => (.export, m.exports.length) :: m.exports.flatMap fun e => [(.byte, e.name.length)]
  | 9 => (.elem, m.elem.length) :: m.elem.flatMap fun e => (.idx, e.init.length) :: vectorsE e.offset
  | 10 => (.func, m.funcs.length) :: m.funcs.flatMap vectorsF
  | 11 => (.data, m.data.length) :: m.data.flatMap fun d => (.byte, d.init.length) :: vectorsE d.offset
  | _ => []

theorem vectors_parts (m : Module) : vectors m = part 1 m ++ part 10 m ++ (part 4 m ++ part 5 m) ++ part 6 m ++ part 9 m ++ part 11 m ++ part 2 m ++ part 7 m := rfl

theorem fit_parts {room : Kind → Nat} {m : Module} : AllFit room (vectors m) ↔ ∀ i, AllFit room (part i m) := by
  rw [vectors_parts]
  simp only [AllFit.append]
  constructor
  · intro h i
    unfold part
    split
    · exact h.1.1.1.1.1.1.1
    · exact h.1.2
    · exact h.1.1.1.1.1.2.1
    · exact h.1.1.1.1.1.2.2
    · exact h.1.1.1.1.2
    · exact h.2
    · exact h.1.1.1.2
    · exact h.1.1.1.1.1.1.2
    · exact h.1.1.2
    · intro u hu; cases hu
  · intro h
    exact ⟨⟨⟨⟨⟨⟨⟨h 1, h 10⟩, h 4, h 5⟩, h 6⟩, h 9⟩, h 11⟩, h 2⟩, h 7⟩

/-- A section replaces its part of the module. -/
theorem makes_part {m m' : Module} {i : Nat} {l : List (Kind × Nat)} {st : LoopState} (hst : st.result = m')
    (h : ∀ j, part j m' = if j = i then l else part j m) : Makes (l ++ vectors m) (pure st : M LoopState) (fun st => vectors st.result) := by
  refine makes_pure (fun room ha => ?_) ?_
  · rw [hst]
    rw [AllFit.append, fit_parts] at ha
    rw [fit_parts]
    intro j
    rw [h]
    split
    · exact ha.1
    · exact ha.2 j
  · rw [hst, vectors_parts, vectors_parts]
    simp only [sum, total_append, h]
    repeat' split
    all_goals omega

theorem makes_section (id : Byte) (st : LoopState) : Makes (vectors st.result) (parseSection id st) (fun st => vectors st.result) := by
  unfold parseSection
  generalize id.toNat = n
  split
  · exact makes_bind (makes_sized (makes_drop adds_custom)) fun _ => makes_pure (fun _ h => h) (Nat.le_refl _)
  · exact makes_bind (makes_sized (adds_vec adds_funcTy _)) fun x => makes_part (i := 1) rfl (fun j => by unfold part; split <;> simp_all)
  · exact makes_bind (makes_sized (adds_vec adds_import _)) fun x => makes_part (i := 2) rfl (fun j => by unfold part; split <;> simp_all)
  · exact makes_bind (makes_sized (makes_drop adds_plain)) fun _ => makes_pure (fun _ h => h) (Nat.le_refl _)
  · exact makes_bind (makes_sized (adds_plain _)) fun x => makes_part (i := 4) rfl (fun j => by unfold part; split <;> simp_all)
  · exact makes_bind (makes_sized (adds_plain _)) fun x => makes_part (i := 5) rfl (fun j => by unfold part; split <;> simp_all)
  · exact makes_bind (makes_sized (adds_vec adds_global _)) fun x => makes_part (i := 6) rfl (fun j => by unfold part; split <;> simp_all)
  · exact makes_bind (makes_sized (adds_vec adds_export _)) fun x => makes_part (i := 7) rfl (fun j => by unfold part; split <;> simp_all)
  · exact makes_bind (makes_sized makes_lift) fun _ => makes_pure (fun _ h => h) (Nat.le_refl _)
  · exact makes_bind (makes_sized (adds_vec adds_elem _)) fun x => makes_part (i := 9) rfl (fun j => by unfold part; split <;> simp_all)
  · refine makes_bind (makes_sized (adds_unwrap (v := vectorsF) (fun pre => makes_sized (adds_func pre)) _)) fun fs => ?_
    dsimp only
    split
    · exact makes_fail
    · cases ha : assignTys st.funcTypes st.funcTypes.length fs with
      | none => exact makes_fail
      | some gs =>
        have := assignTys_vectors ha
        rw [← this.1, ← this.2]
        exact makes_part (i := 10) rfl (fun j => by unfold part; split <;> simp_all)
  · exact makes_bind (makes_sized (adds_vec adds_data _)) fun x => makes_part (i := 11) rfl (fun j => by unfold part; split <;> simp_all)
  · exact makes_fail

theorem makes_loop : ∀ (fuel : Nat) (st : LoopState), Makes (vectors st.result) (sectionLoop fuel st) vectors
  | 0, st => makes_fail
  | fuel + 1, st => by
    intro room s
    cases s with
    | nil => exact makes_pure (x := st.result) (v := vectors) (fun _ h => h) (Nat.le_refl _) room []
    | cons b s =>
      refine makes_bind (v := fun st => vectors st.result) (makes_bind makes_lift fun id => ?_) (fun st' => makes_loop fuel st') room (b :: s)
      split
      · split
        · exact makes_fail
        · exact makes_section id { st with lastId := id }
      · exact makes_section id st

theorem makes_module : Makes [] parseModule vectors := by
  refine makes_bind makes_lift fun magic => ?_
  split
  · exact makes_fail
  · refine makes_bind makes_lift fun version => ?_
    split
    · exact makes_fail
    · refine Makes.before (pre := vectors ({} : LoopState).result) (fun room s => makes_loop (s.length + 1) {} room s) (fun room _ => ?_) (Nat.le_refl 0)
      rw [fit_parts]
      intro i
      unfold part
      split <;> intro u hu <;> simp at hu <;> subst hu <;> exact Nat.zero_le _

end Whasm.Memory
