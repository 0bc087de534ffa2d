import Verif.Model.Memory
import Verif.Spec.Memory
import Verif.Lemmas.Native
import Verif.Lemmas.Clock

/-!
# The memory that parsing needs
-/

namespace Whasm.Memory
open Spec

theorem bind_ok' {α β : Type} {p : M α} {f : α → M β} {room : Kind → Nat} {s t : List Byte} {x : α} (h : (p room s).out = (.ok x, t)) :
    (p >>= f) room s = ⟨(f x room t).out, (p room s).slots + (f x room t).slots⟩ := by
  show M.bind p f room s = _
  unfold M.bind
  rcases hp : p room s with ⟨o, n⟩
  rw [hp] at h
  dsimp only at h
  subst h
  rfl

theorem bind_err' {α β : Type} {p : M α} {f : α → M β} {room : Kind → Nat} {s t : List Byte} {e : Error} (h : (p room s).out = (.error e, t)) :
    (p >>= f) room s = ⟨(.error e, t), (p room s).slots⟩ := by
  show M.bind p f room s = _
  unfold M.bind
  rcases hp : p room s with ⟨o, n⟩
  rw [hp] at h
  dsimp only at h
  subst h
  rfl

/-! ## Upper bounds -/

/-- What is claimed of one run of a parser on `s`, where `q` is the parser with unlimited memory: it panics or returns the same; with result `x` the bytes read pay for the elements and
`w` more, except for `k x - j` elements that are local variables; counted with 2^32 elements for each byte they pay for all of them; with an error
`e` elements are not paid. -/
structure CostAt {α : Type} (j : Nat) (r : Run α) (q : Except Error α × List Byte) (s : List Byte) (w e : Int) (k : α → Nat) : Prop where
  same : r.out.1 = .error .panic ∨ r.out = q
  ok : ∀ x t, r.out = (.ok x, t) → r.slots + w + t.length + j ≤ s.length + k x ∧ r.slots + w + 4294967296 * t.length ≤ 4294967296 * s.length
  err : ∀ x t, r.out = (.error x, t) → r.slots + 4294967296 * (t.length : Int) ≤ 4294967296 * s.length + e

/-- The same for all inputs. -/
def Cost {α : Type} (j : Nat) (p : M α) (q : P α) (w e : Int) (k : α → Nat) : Prop := ∀ room s, CostAt j (p room s) (q s) s w e k

section
variable {α β : Type} {j : Nat}

theorem cost_bind_of {p : M α} {q : P α} {f : α → M β} {g : α → P β} {w1 w e1 e : Int} {i : α → Nat} {k : β → Nat}
    (h : Cost j p q w1 e1 i) (he : e1 ≤ e) (hf : ∀ x s t, q s = (.ok x, t) → Cost (i x) (f x) (g x) (w - w1) (e + w1) k) : Cost j (p >>= f) (q >>= g) w e k := by
  intro room s
  have h := h room s
  rcases hp : (p room s).out with ⟨_ | x, t⟩
  · rename_i er
    rw [bind_err' hp]
    refine ⟨?_, fun x u hx => (by cases hx), fun x u hx => ?_⟩
    · rcases h.same with hs | hs
      · left; rw [hp] at hs; dsimp only at hs ⊢; cases hs; rfl
      · right; rw [hp] at hs; exact (bind_of_error hs.symm).symm
    · cases hx
      have := h.err _ _ hp
      dsimp only
      omega
  · rw [bind_ok' hp]
    have hs : (p room s).out = q s := by
      rcases h.same with hs | hs
      · rw [hp] at hs; cases hs
      · exact hs
    have hq : q s = (.ok x, t) := hs.symm.trans hp
    have hf := hf x s t hq room t
    have h2 := h.ok _ _ hp
    refine ⟨?_, fun y u hy => ?_, fun y u hy => ?_⟩
    · rw [bind_of_ok hq]; exact hf.same
    · have h3 := hf.ok _ _ hy
      dsimp only
      omega
    · have h3 := hf.err _ _ hy
      dsimp only
      omega

theorem cost_bind {p : M α} {q : P α} {f : α → M β} {g : α → P β} {w1 w e1 e : Int} {i : α → Nat} {k : β → Nat}
    (h : Cost j p q w1 e1 i) (he : e1 ≤ e) (hf : ∀ x, Cost (i x) (f x) (g x) (w - w1) (e + w1) k) : Cost j (p >>= f) (q >>= g) w e k :=
  cost_bind_of h he fun x _ _ _ => hf x

theorem Cost.mono {p : M α} {q : P α} {w w' e e' : Int} {k : α → Nat} (h : Cost j p q w e k) (hw : w' ≤ w) (he : e ≤ e') : Cost j p q w' e' k := by
  intro room s
  have h := h room s
  refine ⟨h.same, fun x t hx => ?_, fun x t hx => ?_⟩
  · have := h.ok _ _ hx; omega
  · have := h.err _ _ hx; omega

theorem cost_pure (x : α) {w e : Int} {k : α → Nat} (hw : w ≤ 0) (hk : j = k x) : Cost j (pure x : M α) (pure x) w e k := by
  intro room s
  refine ⟨.inr rfl, fun y t hy => ?_, fun y t hy => (by cases hy)⟩
  cases hy
  show ((0 : Nat) : Int) + _ + _ + _ ≤ _ ∧ ((0 : Nat) : Int) + _ + _ ≤ _
  omega

theorem cost_fail (er : Error) {w e : Int} {k : α → Nat} (he : 0 ≤ e) : Cost j (M.fail er : M α) (P.fail er) w e k := by
  intro room s
  refine ⟨.inr rfl, fun y t hy => (by cases hy), fun y t hy => ?_⟩
  cases hy
  show ((0 : Nat) : Int) + _ ≤ _
  omega

/-- A parser without vectors: it pays with the bytes it eats. -/
theorem cost_lift {q : P α} {n : Nat} {w e : Int} (h : Eats n q) (hf : ∀ s, (q s).2 <:+ s) (hw : w ≤ n) (he : 0 ≤ e) : Cost j (lift q) q w e (fun _ => j) := by
  intro room s
  refine ⟨.inr rfl, fun y t hy => ?_, fun y t hy => ?_⟩
  · have h := h _ _ _ hy
    show ((0 : Nat) : Int) + _ + _ + _ ≤ _ ∧ ((0 : Nat) : Int) + _ + _ ≤ _
    omega
  · have h := (hf s).length_le
    have hy : q s = _ := hy
    rw [hy] at h
    show ((0 : Nat) : Int) + _ ≤ _
    dsimp only at h
    omega

theorem request_ok {kd : Kind} {len n : Nat} {room : Kind → Nat} {s : List Byte} (h : len + n ≤ room kd) : request kd len n room s = ⟨(.ok (), s), n⟩ := by
  unfold request; rw [if_pos h]

theorem request_panic {kd : Kind} {len n : Nat} {room : Kind → Nat} {s : List Byte} (h : ¬ len + n ≤ room kd) : request kd len n room s = ⟨(.error .panic, s), n⟩ := by
  unfold request; rw [if_neg h]

theorem cost_request {f : Unit → M β} {g : P β} {kd : Kind} {len n : Nat} {w e : Int} {k : β → Nat} (he : n ≤ e)
    (h : Cost j (f ()) g (w + n) (e - n) k) : Cost j (request kd len n >>= f) g w e k := by
  intro room s
  by_cases hr : len + n ≤ room kd
  · have h := h room s
    have hq : request kd len n room s = ⟨(.ok (), s), n⟩ := request_ok hr
    rw [bind_ok' (p := request kd len n) (x := ()) (t := s) (by rw [hq]), hq]
    refine ⟨h.same, fun y t hy => ?_, fun y t hy => ?_⟩
    · have h3 := h.ok _ _ hy
      dsimp only
      omega
    · have h3 := h.err _ _ hy
      dsimp only
      omega
  · have hq : request kd len n room s = ⟨(.error .panic, s), n⟩ := request_panic hr
    rw [bind_err' (p := request kd len n) (e := .panic) (t := s) (by rw [hq]), hq]
    refine ⟨.inl rfl, fun y t hy => (by cases hy), fun y t hy => ?_⟩
    cases hy
    show (n : Int) + _ ≤ _
    omega

theorem cost_n {p : M α} {q : P α} {h : α → Nat} {e : Int} (he : 0 ≤ e) (hp : ∀ i, Cost i p q 1 e (fun x => i + h x)) :
    ∀ (n j : Nat), Cost j (parseN n p) (Whasm.parseN n q) n e (fun xs => j + total h xs)
  | 0, j => cost_pure _ (by omega) rfl
  | n + 1, j => by
    refine cost_bind (hp j) (Int.le_refl _) fun x => ?_
    refine cost_bind (w1 := n) (e1 := e) ((cost_n he hp n (j + h x))) (by omega) fun xs => cost_pure _ (by omega) ?_
    simp only [total]; omega


/-- A parser without local variables. -/
def Free (p : M α) (q : P α) (w e : Int) : Prop := ∀ j, Cost j p q w e (fun _ => j)

theorem Free.mono {p : M α} {q : P α} {w w' e e' : Int} (h : Free p q w e) (hw : w' ≤ w) (he : e ≤ e') : Free p q w' e' := fun j => (h j).mono hw he

theorem cost_free {p : M α} {q : P α} {f : α → M β} {g : α → P β} {w e w' e' : Int} {k : β → Nat}
    (h : Free p q w e) (he : e ≤ e') (hf : ∀ x, Cost j (f x) (g x) (w' - w) (e' + w) k) : Cost j (p >>= f) (q >>= g) w' e' k :=
  cost_bind (h j) he hf

theorem cost_last {p : M α} {q : P α} {f : α → β} {w e w' e' : Int} (h : Free p q w e) (he : e ≤ e') (hw : w' ≤ w) :
    Cost j (p >>= fun x => pure (f x)) (q >>= fun x => pure (f x)) w' e' (fun _ => j) :=
  cost_free h he fun x => cost_pure _ (by omega) rfl

theorem free_lift {q : P α} {n : Nat} (h : Eats n q) (hg : Good q) : Free (lift q) q n 0 := fun _ => cost_lift h hg.forward (Int.le_refl _) (Int.le_refl _)

theorem eats_stepping {σ : Type} {loop : σ → P α} (h : Stepping loop) (st : σ) : Eats 1 (loop st) := by
  intro s x r hr
  cases s with
  | nil => rw [h.nil] at hr; cases hr
  | cons b s =>
    rcases h.cons st b with ⟨res, _, _, h1⟩ | ⟨st', h1⟩
    · rw [h1] at hr; cases hr; simp
    · rw [h1] at hr
      have := ((h.good st').forward s).length_le
      rw [hr] at this
      simp only [List.length_cons]
      dsimp only at this
      omega

theorem eats_u32 : Eats 1 parseU32 := eats_stepping (stepping_unsigned 32) (0, 0#32)
theorem eats_idx : Eats 1 parseIdx := eats_u32

theorem eats_val : Eats 1 parseVal := by
  intro s x r h
  obtain ⟨b, t, h1, h2⟩ := bind_ok_iff.mp h
  have := eats_byte _ _ _ h1
  generalize b.toNat = n at h2
  split at h2 <;> cases h2 <;> omega

theorem eats_elemTy : Eats 1 parseElemTy := by
  intro s x r h
  obtain ⟨b, t, h1, h2⟩ := bind_ok_iff.mp h
  have := eats_byte _ _ _ h1
  generalize b.toNat = n at h2
  split at h2 <;> cases h2 <;> omega

theorem eats_limits : Eats 1 parseLimits := by
  refine Eats.mono (k := 1 + 0) (eats_byte.bind fun b => ?_) (by omega)
  generalize b.toNat = n
  split
  · exact eats_good (good_u32.bind fun _ => good_pure _)
  · exact eats_good (good_u32.bind fun _ => good_u32.bind fun _ => good_pure _)
  · exact eats_good (good_fail (by simp))

theorem eats_retVal : Eats 1 Whasm.parseRetVal := by
  refine Eats.mono (k := 1 + 0) (eats_byte.bind fun b => ?_) (by omega)
  generalize b.toNat = n
  split
  · exact eats_good (good_pure _)
  · split
    · exact eats_good (good_pure _)
    · intro s x r h; cases h

theorem retVal_short {s r : List Byte} {ret : RetVal} (h : Whasm.parseRetVal s = (.ok ret, r)) : ret.length ≤ 1 := by
  obtain ⟨b, t, h1, h2⟩ := bind_ok_iff.mp h
  generalize b.toNat = n at h2
  split at h2
  · cases h2; simp
  · rcases hv : parseVal [b] with ⟨_ | v, u⟩
    · rw [hv] at h2; cases h2
    · rw [hv] at h2; cases h2; simp

theorem eats_tableTy : Eats 1 parseTableTy := Eats.mono (k := 1 + 0) (eats_elemTy.bind fun _ => eats_good (good_limits.bind fun _ => good_pure _)) (by omega)
theorem eats_memTy : Eats 1 parseMemTy := Eats.mono (k := 1 + 0) (eats_limits.bind fun _ => eats_good (good_pure _)) (by omega)
theorem eats_table : Eats 1 parseTable := Eats.mono (k := 1 + 0) (eats_tableTy.bind fun _ => eats_good (good_pure _)) (by omega)
theorem eats_mem : Eats 1 parseMem := Eats.mono (k := 1 + 0) (eats_memTy.bind fun _ => eats_good (good_pure _)) (by omega)
theorem eats_start : Eats 1 parseStart := Eats.mono (k := 1 + 0) (eats_idx.bind fun _ => eats_good (good_pure _)) (by omega)
theorem eats_globalTy : Eats 1 parseGlobalTy := Eats.mono (k := 1 + 0) (eats_val.bind fun _ => eats_good (good_mut.bind fun _ => good_pure _)) (by omega)

theorem eats_importDesc : Eats 1 parseImportDesc := by
  refine Eats.mono (k := 1 + 0) (eats_byte.bind fun b => ?_) (by omega)
  generalize b.toNat = n
  split
  · exact eats_good (good_idx.bind fun _ => good_pure _)
  · exact eats_good (good_tableTy.bind fun _ => good_pure _)
  · exact eats_good (good_memTy.bind fun _ => good_pure _)
  · exact eats_good (good_globalTy.bind fun _ => good_pure _)
  · exact eats_good (good_fail (by simp))

theorem eats_exportDesc : Eats 1 parseExportDesc := by
  refine Eats.mono (k := 1 + 0) (eats_byte.bind fun b => ?_) (by omega)
  generalize b.toNat = n
  split
  all_goals first | exact eats_good (good_idx.bind fun _ => good_pure _) | exact eats_good (good_fail (by simp))

theorem free_byte : Free (lift parseByte) parseByte 1 0 := free_lift eats_byte good_byte
theorem free_u32 : Free (lift parseU32) parseU32 1 0 := free_lift eats_u32 good_u32
theorem free_idx : Free (lift parseIdx) parseIdx 1 0 := free_u32
theorem free_val : Free (lift parseVal) parseVal 1 0 := free_lift eats_val good_val
theorem free_globalTy : Free (lift parseGlobalTy) parseGlobalTy 1 0 := free_lift eats_globalTy good_globalTy

/-! ### Vectors -/

theorem total_zero (xs : List α) : total (fun _ => 0) xs = 0 := by induction xs with | nil => rfl | cons x xs ih => simp [total, ih]

theorem cost_vec {p : M α} {q : P α} {h : α → Nat} {e : Int} {kd : Kind} (he : 0 ≤ e) (hp : ∀ i, Cost i p q 1 e (fun x => i + h x)) :
    Cost j (parseVec kd p) (Whasm.parseVec q) 1 (e + 4294967296) (fun xs => j + total h xs) := by
  refine cost_free free_u32 (by omega) fun n => cost_request (by have := n.isLt; omega) ?_
  have := n.isLt
  exact (cost_n he hp n.toNat j).mono (by omega) (by omega)

theorem free_vec {p : M α} {q : P α} {e : Int} {kd : Kind} (he : 0 ≤ e) (hp : Free p q 1 e) : Free (parseVec kd p) (Whasm.parseVec q) 1 (e + 4294967296) := by
  intro j
  have h := cost_vec (j := j) (kd := kd) (h := fun _ => 0) he (fun i => hp i)
  simp only [total_zero, Nat.add_zero] at h
  exact h

theorem cost_unwrap {γ : Type} {p : M α} {q : P α} {h : γ → Nat} {u : α → γ} {e : Int} {kd : Kind} (he : 0 ≤ e) (hp : ∀ i, Cost i p q 1 e (fun x => i + h (u x))) :
    Cost j (parseUnwrappingVec kd u p) (Whasm.parseUnwrappingVec u q) 1 (e + 4294967296) (fun xs => j + total h xs) := by
  refine cost_free free_u32 (by omega) fun n => cost_request (by have := n.isLt; omega) ?_
  have := n.isLt
  refine Cost.mono (cost_n he (fun i => ?_) n.toNat j) (by omega) (by omega)
  exact cost_bind (hp i) (Int.le_refl _) fun x => cost_pure _ (by omega) rfl

theorem free_bytes : Free (parseUnwrappingVec .byte (fun b : Byte => b) (lift parseByte)) (Whasm.parseUnwrappingVec (fun b : Byte => b) parseByte) 1 4294967296 := by
  intro j
  have h := cost_unwrap (j := j) (kd := .byte) (h := fun _ => 0) (u := fun b : Byte => b) (Int.le_refl 0) (fun i => free_byte i)
  simp only [total_zero, Nat.add_zero] at h
  exact h

theorem free_string : Free parseString Whasm.parseString 1 4294967296 := by
  intro j
  refine cost_free free_bytes (by omega) fun raw => ?_
  by_cases h : validUtf8 raw = true
  · rw [if_pos h, if_pos h]; exact cost_pure _ (by omega) rfl
  · rw [if_neg h, if_neg h]; exact cost_fail _ (by omega)

theorem free_retVal : Free parseRetVal Whasm.parseRetVal 0 0 := by
  intro j room s
  have h : CostAt j (parseRetVal room s) ((Whasm.parseRetVal >>= fun ret => pure ret) s) s 0 0 (fun _ => j) := by
    refine cost_bind_of (free_lift eats_retVal good_retVal j) (Int.le_refl _) (fun ret s t h => cost_request (by have := retVal_short h; omega) ?_) room s
    have := retVal_short h
    exact cost_pure _ (by omega) rfl
  rw [Clock.bind_pure_id] at h
  exact h

theorem free_funcTy : Free parseFuncTy Whasm.parseFuncTy 3 4294967296 := by
  intro j
  refine cost_free free_byte (by omega) fun b => ?_
  have hv := free_vec (kd := .val) (Int.le_refl 0) free_val
  generalize b.toNat = n
  split
  · exact cost_free hv (by omega) fun _ => cost_last hv (by omega) (by omega)
  · split <;> first | exact absurd rfl ‹_› | exact cost_fail _ (by omega)

/-! ### Instructions -/

theorem free_exprOf {sub : M SubExpr} {sub' : P SubExpr} {e : Int} (he : 0 ≤ e) (h : Free sub sub' 1 e) : Free (exprOf sub) (Whasm.exprOf sub') 1 e := by
  intro j
  refine cost_free h (by omega) fun se => ?_
  rcases se with ⟨is, next⟩
  dsimp only
  cases next with
  | endMark => exact cost_pure _ (by omega) rfl
  | elseMark => exact cost_fail _ (by omega)
  | _ => exact cost_fail _ (by omega)

theorem free_ifOf {sub : M SubExpr} {sub' : P SubExpr} {e : Int} (he : 0 ≤ e) (h : Free sub sub' 1 e) : Free (ifOf sub) (Whasm.ifOf sub') 0 e := by
  intro j
  refine cost_free free_retVal (by omega) fun ret => cost_free h (by omega) fun s1 => ?_
  have he : Free (elsePart sub s1) (Whasm.elsePart sub' s1) 0 e := by
    intro j
    unfold elsePart Whasm.elsePart
    by_cases hn : s1.next.isElse = true
    · rw [if_pos hn, if_pos hn]
      exact cost_last h (by omega) (by omega)
    · rw [if_neg hn, if_neg hn]
      exact cost_pure _ (by omega) rfl
  refine cost_free he (by omega) fun bn => ?_
  by_cases hn : bn.2.isEnd = true
  · rw [if_pos hn, if_pos hn]
    exact cost_pure _ (by omega) rfl
  · rw [if_neg hn, if_neg hn]
    exact cost_fail _ (by omega)

theorem good_leaf {b : Byte} (h2 : b.toNat ≠ 2) (h3 : b.toNat ≠ 3) (h4 : b.toNat ≠ 4) (sub : P SubExpr) : Whasm.instrAt sub b = Whasm.instrAt (P.fail .fuel) b ∧ Good (Whasm.instrAt sub b) := by
  have h1 := (instrAt_leaf h2 h3 h4 sub).1
  have h5 := (instrAt_leaf h2 h3 h4 (P.fail .fuel)).1
  refine ⟨h1.trans h5.symm, ?_⟩
  rw [h1, ← h5]
  exact good_instrAt (good_fail (by simp)) b

/-- The cases of `instrAt`: vectors or none. -/
theorem instrAt_other {b : Byte} (h2 : b.toNat ≠ 2) (h3 : b.toNat ≠ 3) (h4 : b.toNat ≠ 4) (he : b.toNat ≠ 14) (sub : M SubExpr) (sub' : P SubExpr) :
    instrAt sub b = lift (Whasm.instrAt sub' b) ∧ Good (Whasm.instrAt sub' b) := by
  have h := good_leaf h2 h3 h4 sub'
  refine ⟨?_, h.2⟩
  rw [h.1]
  unfold instrAt
  split <;> first | contradiction | rfl

theorem instrAt_02 {b : Byte} (h : b.toNat = 2) (sub : M SubExpr) (sub' : P SubExpr) :
    instrAt sub b = (parseRetVal >>= fun ret => exprOf sub >>= fun body => pure (.block ret body)) ∧
    Whasm.instrAt sub' b = (Whasm.parseRetVal >>= fun ret => Whasm.exprOf sub' >>= fun body => pure (.block ret body)) := by
  unfold instrAt Whasm.instrAt
  rw [h]
  exact ⟨rfl, rfl⟩

theorem instrAt_03 {b : Byte} (h : b.toNat = 3) (sub : M SubExpr) (sub' : P SubExpr) :
    instrAt sub b = (parseRetVal >>= fun ret => exprOf sub >>= fun body => pure (.loop ret body)) ∧
    Whasm.instrAt sub' b = (Whasm.parseRetVal >>= fun ret => Whasm.exprOf sub' >>= fun body => pure (.loop ret body)) := by
  unfold instrAt Whasm.instrAt
  rw [h]
  exact ⟨rfl, rfl⟩

theorem instrAt_04 {b : Byte} (h : b.toNat = 4) (sub : M SubExpr) (sub' : P SubExpr) : instrAt sub b = ifOf sub ∧ Whasm.instrAt sub' b = Whasm.ifOf sub' := by
  unfold instrAt Whasm.instrAt
  rw [h]
  exact ⟨rfl, rfl⟩

theorem instrAt_0E {b : Byte} (h : b.toNat = 14) (sub : M SubExpr) (sub' : P SubExpr) :
    instrAt sub b = (parseVec .idx (lift parseIdx) >>= fun ls => lift parseIdx >>= fun l => pure (.brTable ls l)) ∧
    Whasm.instrAt sub' b = (Whasm.parseVec parseIdx >>= fun ls => parseIdx >>= fun l => pure (.brTable ls l)) := by
  unfold instrAt Whasm.instrAt
  rw [h]
  exact ⟨rfl, rfl⟩

theorem free_instrAt {sub : M SubExpr} {sub' : P SubExpr} (h : Free sub sub' 1 4294967296) (b : Byte) : Free (instrAt sub b) (Whasm.instrAt sub' b) 0 4294967296 := by
  intro j
  by_cases h2 : b.toNat = 2
  · rw [(instrAt_02 h2 sub sub').1, (instrAt_02 h2 sub sub').2]
    exact cost_free free_retVal (by omega) fun _ => cost_last (free_exprOf (by omega) h) (by omega) (by omega)
  by_cases h3 : b.toNat = 3
  · rw [(instrAt_03 h3 sub sub').1, (instrAt_03 h3 sub sub').2]
    exact cost_free free_retVal (by omega) fun _ => cost_last (free_exprOf (by omega) h) (by omega) (by omega)
  by_cases h4 : b.toNat = 4
  · rw [(instrAt_04 h4 sub sub').1, (instrAt_04 h4 sub sub').2]
    exact free_ifOf (by omega) h j
  by_cases he : b.toNat = 14
  · rw [(instrAt_0E he sub sub').1, (instrAt_0E he sub sub').2]
    exact cost_free (free_vec (Int.le_refl 0) free_idx) (by omega) fun _ => cost_last free_idx (by omega) (by omega)
  · have := instrAt_other h2 h3 h4 he sub sub'
    rw [this.1]
    exact (free_lift (n := 0) (eats_good this.2) this.2 j).mono (by omega) (by omega)

theorem free_instrOf {sub : M SubExpr} {sub' : P SubExpr} (h : Free sub sub' 1 4294967296) : Free (instrOf sub) (Whasm.instrOf sub') 1 4294967296 := fun j =>
  cost_free free_byte (by omega) fun b => (free_instrAt h b j).mono (by omega) (by omega)

theorem free_subExpr : ∀ fuel len, Free (parseSubExpr fuel len) (Whasm.parseSubExpr fuel) 1 4294967296
  | 0, len => fun j => cost_fail _ (by omega)
  | fuel + 1, len => by
    intro j
    refine cost_free (free_instrOf (free_subExpr fuel 0)) (by omega) fun i => ?_
    have ih := free_subExpr fuel (len + 1)
    unfold subStep Whasm.subStep
    cases i with
    | endMark => exact cost_pure _ (by omega) rfl
    | elseMark => exact cost_pure _ (by omega) rfl
    | _ => exact cost_request (by omega) (cost_last ih (by omega) (by omega))

theorem free_expr : Free parseExpr Whasm.parseExpr 1 4294967296 := fun j room s => free_exprOf (by omega) (free_subExpr _ 0) j room s

theorem free_constExpr : Free parseExpr Whasm.parseConstExpr 1 4294967296 := constExpr_eq ▸ free_expr

/-! ### Local variables -/

theorem cost_run {p : P α} {kd : Kind} {n len : Nat} {f : α → M β} {g : α → P β} {w e : Int} {k : β → Nat} (hp : Eats 1 p) (hgp : Good p) (hn : n ≤ 4294967295) (he : 0 ≤ e)
    (hf : ∀ x, Cost (j + n) (f x) (g x) w e k) : Cost j (lift p >>= fun x => request kd len n >>= fun _ => f x) (p >>= g) w e k := by
  intro room s
  have hl := free_lift hp hgp j room s
  rcases hr : p s with ⟨_ | x, t⟩
  · rename_i er
    rw [bind_err' (p := lift p) hr, bind_of_error hr]
    refine ⟨.inr rfl, fun x u hx => (by cases hx), fun x u hx => ?_⟩
    cases hx
    have := hl.err _ _ hr
    exact Int.le_trans this (by omega)
  · rw [bind_ok' (p := lift p) hr, bind_of_ok hr]
    have hlen := hp _ _ _ hr
    by_cases hroom : len + n ≤ room kd
    · have hq : request kd len n room t = ⟨(.ok (), t), n⟩ := request_ok hroom
      rw [bind_ok' (p := request kd len n) (x := ()) (t := t) (by rw [hq]), hq]
      have h := hf x room t
      refine ⟨h.same, fun y u hy => ?_, fun y u hy => ?_⟩
      · have := h.ok _ _ hy
        show ((0 + (n + _) : Nat) : Int) + _ + _ + _ ≤ _ ∧ ((0 + (n + _) : Nat) : Int) + _ + _ ≤ _
        omega
      · have := h.err _ _ hy
        show ((0 + (n + _) : Nat) : Int) + _ ≤ _
        omega
    · have hq : request kd len n room t = ⟨(.error .panic, t), n⟩ := request_panic hroom
      rw [bind_err' (p := request kd len n) (e := .panic) (t := t) (by rw [hq]), hq]
      refine ⟨.inl rfl, fun y u hy => (by cases hy), fun y u hy => ?_⟩
      cases hy
      show ((0 + n : Nat) : Int) + _ ≤ _
      omega

theorem cost_runs {p : P α} {kd : Kind} (hp : Eats 1 p) (hgp : Good p) : ∀ (n len j : Nat),
    Cost j (parseRuns kd len n (lift p)) (Whasm.parseRuns n p) 0 0 (fun xs => j + xs.length)
  | 0, len, j => cost_pure _ (by omega) rfl
  | n + 1, len, j => by
    refine cost_free (free_u32.mono (w' := 0) (by omega) (Int.le_refl _)) (by omega) fun m => ?_
    refine cost_run hp hgp (by have := m.isLt; omega) (by omega) fun v => ?_
    refine cost_bind (cost_runs hp hgp n _ (j + m.toNat)) (by omega) fun rest => cost_pure _ (by omega) ?_
    simp only [List.length_append, List.length_replicate]
    omega

theorem cost_func : Cost j parseFunc Whasm.parseFunc 2 4294967296 (fun f => j + f.locals.length) := by
  refine cost_bind (w1 := 1) (e1 := 0) (i := fun xs => j + xs.length) ?_ (by omega) fun xs => ?_
  · exact cost_free free_u32 (by omega) fun n => (cost_runs eats_val good_val n.toNat 0 j).mono (by omega) (by omega)
  · exact cost_free free_expr (by omega) fun is => cost_pure _ (by omega) rfl

/-! ### Modules -/

theorem free_global : Free parseGlobal Whasm.parseGlobal 1 4294967296 := fun _ =>
  cost_free free_globalTy (by omega) fun _ => cost_last free_constExpr (by omega) (by omega)

theorem free_elem : Free parseElem Whasm.parseElem 1 4294967296 := fun _ =>
  cost_free free_idx (by omega) fun _ => cost_free free_constExpr (by omega) fun _ => cost_last (free_vec (Int.le_refl 0) free_idx) (by omega) (by omega)

theorem free_data : Free parseData Whasm.parseData 1 4294967296 := fun _ =>
  cost_free free_idx (by omega) fun _ => cost_free free_constExpr (by omega) fun _ => cost_last free_bytes (by omega) (by omega)

theorem free_import : Free parseImport Whasm.parseImport 1 4294967296 := fun _ =>
  cost_free free_string (by omega) fun _ => cost_free free_string (by omega) fun _ => cost_last (free_lift eats_importDesc good_importDesc) (by omega) (by omega)

theorem free_export : Free parseExport Whasm.parseExport 1 4294967296 := fun _ =>
  cost_free free_string (by omega) fun _ => cost_last (free_lift eats_exportDesc good_exportDesc) (by omega) (by omega)

theorem free_consume : Free (lift parseConsume) parseConsume 0 0 := by
  intro j room s
  refine ⟨.inr rfl, fun y t hy => ?_, fun y t hy => (by cases hy)⟩
  cases hy
  show ((0 : Nat) : Int) + _ + ((0 : Nat) : Int) + _ ≤ _ ∧ ((0 : Nat) : Int) + _ + _ * ((0 : Nat) : Int) ≤ _
  omega

theorem free_custom : Free parseCustom Whasm.parseCustom 1 4294967296 := fun _ =>
  cost_free free_string (by omega) fun _ => cost_last free_consume (by omega) (by omega)

theorem cost_sized {p : M α} {q : P α} {w e : Int} {k : α → Nat} (h : Cost j p q w e k) (he : 0 ≤ e) (hw : 0 ≤ w) : Cost j (parseSized p) (Whasm.parseSized q) w e k := by
  refine cost_free (free_u32.mono (w' := 0) (by omega) (Int.le_refl _)) (by omega) fun n room s => ?_
  have h := h room (s.take n.toNat)
  have hl : s.length = (s.take n.toNat).length + (s.drop n.toNat).length := by
    rw [← List.length_append, List.take_append_drop]
  dsimp only
  rcases hr : p room (s.take n.toNat) with ⟨⟨_ | x, t⟩, m⟩
  · rename_i er
    rw [hr] at h
    have h2 := h.err _ _ rfl
    dsimp only at h2
    refine ⟨?_, fun y u hy => (by cases hy), fun y u hy => ?_⟩
    · rcases h.same with hs | hs
      · left; dsimp only at hs ⊢; exact hs
      · right
        dsimp only at hs ⊢
        rw [← hs]
    · cases hy
      simp only [List.length_append]
      omega
  · rw [hr] at h
    have h1 : q (s.take n.toNat) = (.ok x, t) := by
      rcases h.same with hs | hs
      · cases hs
      · exact hs.symm
    have h2 := h.ok _ _ rfl
    dsimp only at h2
    dsimp only
    rw [h1]
    dsimp only
    by_cases hc : n.toNat ≠ (s.take n.toNat).length - t.length
    · rw [if_pos hc, if_pos hc]
      refine ⟨.inr rfl, fun y u hy => (by cases hy), fun y u hy => ?_⟩
      cases hy
      simp only [List.length_append]
      omega
    · rw [if_neg hc, if_neg hc]
      refine ⟨.inr rfl, fun y u hy => ?_, fun y u hy => (by cases hy)⟩
      cases hy
      simp only [List.length_append]
      omega

end

open Clock (had Before parseSection_keeps iteration_before assignTys_length)

theorem cost_section (id : Byte) (st : LoopState) (hst : id.toNat = 10 → st.result.funcs = []) :
    Cost (had st) (parseSection id st) (Whasm.parseSection id st) 0 8589934592 had := by
  have hv : ∀ {α : Type} {p : M α} {q : P α} {kd : Kind}, Free p q 1 4294967296 → Free (parseSized (parseVec kd p)) (Whasm.parseSized (Whasm.parseVec q)) 0 8589934592 := by
    intro α p q kd hp i
    exact cost_sized ((free_vec (by omega) hp i).mono (by omega) (by omega)) (by omega) (by omega)
  unfold parseSection Whasm.parseSection
  generalize id.toNat = n at hst
  split
  · refine cost_free (w := 0) (e := 8589934592) (fun i => cost_sized ((free_custom i).mono (by omega) (by omega)) (by omega) (by omega)) (by omega) fun _ => cost_pure _ (by omega) rfl
  · exact cost_free (hv (free_funcTy.mono (by omega) (by omega))) (by omega) fun _ => cost_pure _ (by omega) rfl
  · exact cost_free (hv free_import) (by omega) fun _ => cost_pure _ (by omega) rfl
  · exact cost_free (hv (free_idx.mono (by omega) (by omega))) (by omega) fun _ => cost_pure _ (by omega) rfl
  · exact cost_free (hv ((free_lift eats_table good_table).mono (by omega) (by omega))) (by omega) fun _ => cost_pure _ (by omega) rfl
  · exact cost_free (hv ((free_lift eats_mem good_mem).mono (by omega) (by omega))) (by omega) fun _ => cost_pure _ (by omega) rfl
  · exact cost_free (hv free_global) (by omega) fun _ => cost_pure _ (by omega) rfl
  · exact cost_free (hv free_export) (by omega) fun _ => cost_pure _ (by omega) rfl
  · refine cost_free (w := 0) (e := 8589934592) (fun i => cost_sized ((free_lift eats_start good_start i).mono (by omega) (by omega)) (by omega) (by omega)) (by omega) fun _ => cost_pure _ (by omega) rfl
  · exact cost_free (hv free_elem) (by omega) fun _ => cost_pure _ (by omega) rfl
  · have hs : had st = 0 := by show total _ st.result.funcs = 0; rw [hst rfl]; rfl
    rw [hs]
    have hf : ∀ i, Cost i (parseSized parseFunc) (Whasm.parseSized Whasm.parseFunc) 1 4294967296 (fun f => i + f.locals.length) := fun i =>
      cost_sized (cost_func.mono (by omega) (by omega)) (by omega) (by omega)
    refine cost_bind (w1 := 0) (e1 := 8589934592) (cost_sized ((cost_unwrap (h := fun f : Func => f.locals.length) (by omega) hf).mono (by omega) (by omega)) (by omega) (by omega)) (by omega) fun fs => ?_
    dsimp only
    by_cases hl : fs.length ≠ st.funcTypes.length
    · rw [if_pos hl, if_pos hl]
      exact cost_fail _ (by omega)
    · rw [if_neg hl, if_neg hl]
      cases ha : assignTys st.funcTypes st.funcTypes.length fs with
      | none => exact cost_fail _ (by omega)
      | some gs =>
        refine cost_pure _ (by omega) ?_
        show 0 + total _ fs = total _ gs
        rw [assignTys_length ha]
        omega
  · exact cost_free (hv free_data) (by omega) fun _ => cost_pure _ (by omega) rfl
  · split <;> first | exact absurd rfl ‹_› | exact cost_fail _ (by omega)

theorem cost_iteration {st : LoopState} (hst : Before st) : Cost (had st) (parseIteration st) (Whasm.parseIteration st) 0 8589934592 had := by
  refine cost_free (free_byte.mono (w' := 0) (by omega) (Int.le_refl _)) (by omega) fun id => ?_
  by_cases h0 : id ≠ 0x00
  · rw [if_pos h0, if_pos h0]
    by_cases h1 : id ≤ st.lastId
    · rw [if_pos h1, if_pos h1]
      exact cost_fail _ (by omega)
    · rw [if_neg h1, if_neg h1]
      refine (cost_section id { st with lastId := id } fun h => hst ?_).mono (by omega) (by omega)
      have := UInt8.lt_iff_toNat_lt.mp (UInt8.not_le.mp h1)
      omega
  · rw [if_neg h0, if_neg h0]
    refine (cost_section id st fun h => ?_).mono (by omega) (by omega)
    have : id = 0x00 := Decidable.not_not.mp h0
    rw [this] at h
    cases h

theorem cost_loop : ∀ (fuel : Nat) (st : LoopState), Before st → Cost (had st) (sectionLoop fuel st) (Whasm.sectionLoop fuel st) 0 8589934592 localsOf
  | 0, st, _ => cost_fail _ (by omega)
  | fuel + 1, st, hst => by
    intro room s
    cases s with
    | nil => exact cost_pure st.result (by omega) rfl room []
    | cons b s =>
      exact cost_bind_of (cost_iteration hst) (by omega) (fun st' s' t' hr =>
        (cost_loop fuel st' (iteration_before hst hr)).mono (by omega) (by omega)) room (b :: s)

theorem cost_module : Cost 0 parseModule Whasm.parseModule 0 8589934592 localsOf := by
  have h4 : Free (lift (Whasm.parseN 4 parseByte)) (Whasm.parseN 4 parseByte) 0 0 := free_lift (n := 0) (eats_good (good_parseN good_byte 4)) (good_parseN good_byte 4)
  refine cost_free h4 (by omega) fun magic => ?_
  by_cases h : magic.map (fun b => b.toNat) ≠ magicChars.map (fun c => c.toNat)
  · rw [if_pos h, if_pos h]
    exact cost_fail _ (by omega)
  · rw [if_neg h, if_neg h]
    refine cost_free h4 (by omega) fun version => ?_
    by_cases h : version ≠ [1, 0, 0, 0]
    · rw [if_pos h, if_pos h]
      exact cost_fail _ (by omega)
    · rw [if_neg h, if_neg h]
      exact fun room s => (cost_loop (s.length + 1) {} (fun _ => rfl)).mono (by omega) (by omega) room s

end Whasm.Memory
