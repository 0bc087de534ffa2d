import Verif.Lemmas.MemoryVectors

/-!
# Room for all vectors is enough
-/

namespace Whasm.Memory
open Spec

section
variable {α β : Type}

/-- If the parser with unlimited memory succeeds with a result that satisfies `l`, then so does the one with limited memory; there is room for as many bytes and
indices as the input has bytes. -/
def Enough (p : M α) (q : P α) (l : (Kind → Nat) → α → Prop) : Prop :=
  ∀ room s x t, s.length ≤ room .byte → s.length ≤ room .idx → q s = (.ok x, t) → l room x → (p room s).out = (.ok x, t)

/-- All results have the property. -/
def Yields (q : P α) (c : (Kind → Nat) → α → Prop) : Prop := ∀ s x t, q s = (.ok x, t) → ∀ room, c room x

theorem yields_bind {q : P α} {g : α → P β} {c : (Kind → Nat) → β → Prop} (h : ∀ x, Yields (g x) c) : Yields (q >>= g) c := fun s y t e => by
  obtain ⟨x, u, _, e⟩ := bind_ok_iff.mp e
  exact h x u y t e

theorem yields_pure {x : α} {c : (Kind → Nat) → α → Prop} (h : ∀ room, c room x) : Yields (pure x : P α) c := fun s y t e => by cases e; exact h

theorem yields_fail {e : Error} {c : (Kind → Nat) → α → Prop} : Yields (P.fail e : P α) c := fun s y t e => by cases e

theorem yields_ite {c : Prop} [Decidable c] {a b : P α} {d : (Kind → Nat) → α → Prop} (ha : Yields a d) (hb : Yields b d) : Yields (if c then a else b) d := by
  split
  · exact ha
  · exact hb

theorem enough_bind {p : M α} {q : P α} {f : α → M β} {g : α → P β} {l1 : (Kind → Nat) → α → Prop} {l2 : (Kind → Nat) → β → Prop} (hp : Enough p q l1) (hq : Eats 0 q)
    (hl : ∀ x, Yields (g x) (fun room y => l2 room y → l1 room x)) (hf : ∀ x, Enough (f x) (g x) l2) : Enough (p >>= f) (q >>= g) l2 := by
  intro room s y u hb hi h hy
  obtain ⟨x, t, h1, h2⟩ := bind_ok_iff.mp h
  have ht := hq _ _ _ h1
  have h3 := hp room s x t hb hi h1 (hl x t y u h2 room hy)
  rw [bind_ok' h3]
  exact hf x room t y u (by omega) (by omega) h2 hy

theorem enough_pure {x : α} {l : (Kind → Nat) → α → Prop} : Enough (pure x) (pure x) l := fun room s y t _ _ h _ => by cases h; rfl

theorem enough_fail {e : Error} {l : (Kind → Nat) → α → Prop} : Enough (M.fail e) (P.fail e) l := fun room s y t _ _ h _ => by cases h

theorem enough_lift {q : P α} {l : (Kind → Nat) → α → Prop} : Enough (lift q) q l := fun _ _ _ _ _ _ h _ => h

theorem enough_after {q : P α} {f : α → M β} {g : α → P β} {l : (Kind → Nat) → β → Prop} (hq : Eats 0 q) (hf : ∀ x, Enough (f x) (g x) l) : Enough (lift q >>= f) (q >>= g) l :=
  enough_bind (l1 := fun _ _ => True) enough_lift hq (fun _ _ _ _ _ _ _ => trivial) hf

theorem Enough.mono {p : M α} {q : P α} {l l' : (Kind → Nat) → α → Prop} (h : Enough p q l) (hl : ∀ room x, l' room x → l room x) : Enough p q l' :=
  fun room s x t hb hi hx hy => h room s x t hb hi hx (hl room x hy)

theorem request_bind {kd : Kind} {len n : Nat} {room : Kind → Nat} {s : List Byte} {f : Unit → M β} (h : len + n ≤ room kd) :
    ((request kd len n >>= f) room s).out = (f () room s).out := by
  rw [bind_ok' (p := request kd len n) (x := ()) (t := s) (by rw [request_ok h])]

theorem enough_request {f : Unit → M β} {g : P β} {kd : Kind} {len n : Nat} {l : (Kind → Nat) → β → Prop} (hl : Yields g (fun room y => l room y → len + n ≤ room kd))
    (hf : Enough (f ()) g l) : Enough (request kd len n >>= f) g l := by
  intro room s y u hb hi h hy
  rw [request_bind (hl s y u h room hy)]
  exact hf room s y u hb hi h hy

theorem enough_short {f : Unit → M β} {g : P β} {kd : Kind} {n : Nat} {l : (Kind → Nat) → β → Prop} (hk : kd = .byte ∨ kd = .idx) (hg : Eats n g)
    (hf : Enough (f ()) g l) : Enough (request kd 0 n >>= f) g l := by
  intro room s y u hb hi h hy
  have := hg _ _ _ h
  rw [request_bind (by rcases hk with rfl | rfl <;> omega)]
  exact hf room s y u hb hi h hy

theorem eats_n {q : P α} (h : Eats 1 q) : ∀ n, Eats n (Whasm.parseN n q)
  | 0 => fun s x r e => by cases e; omega
  | n + 1 => fun s x r e => by
    obtain ⟨y, t, h1, h2⟩ := bind_ok_iff.mp e
    obtain ⟨ys, u, h2, h3⟩ := bind_ok_iff.mp h2
    cases h3
    have := h _ _ _ h1
    have := eats_n h n _ _ _ h2
    omega

theorem yields_n {q : P α} : ∀ n, Yields (Whasm.parseN n q) (fun _ xs => xs.length = n)
  | 0 => fun s x r e room => by cases e; rfl
  | n + 1 => fun s x r e room => by
    obtain ⟨y, t, h1, h2⟩ := bind_ok_iff.mp e
    obtain ⟨ys, u, h2, h3⟩ := bind_ok_iff.mp h2
    cases h3
    rw [List.length_cons, yields_n n _ _ _ h2 room]

theorem enough_n {p : M α} {q : P α} {l : (Kind → Nat) → α → Prop} (hp : Enough p q l) (hq : Eats 0 q) : ∀ n, Enough (parseN n p) (Whasm.parseN n q) (fun room xs => ∀ x ∈ xs, l room x)
  | 0 => enough_pure
  | n + 1 => by
    refine enough_bind hp hq (fun x => yields_bind fun xs => yields_pure fun room h => h x (List.mem_cons_self ..)) fun x => ?_
    refine enough_bind (enough_n hp hq n) ?_ (fun xs => yields_pure fun room h y hy => h y (List.mem_cons_of_mem _ hy)) fun xs => enough_pure
    clear hp
    induction n with
    | zero => exact fun s x r e => by cases e; omega
    | succ n ih => exact Eats.bind (k := 0) (l := 0) hq fun _ => Eats.bind (k := 0) (l := 0) ih fun _ => eats_good (good_pure _)

theorem enough_vec {p : M α} {q : P α} {kd : Kind} {l : (Kind → Nat) → α → Prop} (hp : Enough p q l) (hq : Eats 0 q) :
    Enough (parseVec kd p) (Whasm.parseVec q) (fun room xs => xs.length ≤ room kd ∧ ∀ x ∈ xs, l room x) := by
  refine enough_after (eats_good good_u32) fun n => enough_request (fun s x t e room h => ?_) ((enough_n hp hq n.toNat).mono fun _ _ h => h.2)
  have := yields_n _ s x t e room
  have := h.1
  omega

theorem enough_unwrap {p : M α} {q : P α} {kd : Kind} {l : (Kind → Nat) → α → Prop} (hp : Enough p q l) (hq : Eats 0 q) :
    Enough (parseUnwrappingVec kd (fun x : α => x) p) (Whasm.parseUnwrappingVec (fun x : α => x) q) (fun room xs => xs.length ≤ room kd ∧ ∀ x ∈ xs, l room x) := by
  refine enough_after (eats_good good_u32) fun n => enough_request (fun s x t e room h => ?_) (Enough.mono (enough_n (l := l) ?_ ?_ n.toNat) fun _ _ h => h.2)
  · have := yields_n _ s x t e room
    have := h.1
    omega
  · exact enough_bind hp hq (fun x => yields_pure fun _ h => h) fun _ => enough_pure
  · exact Eats.bind (k := 0) (l := 0) hq fun _ => eats_good (good_pure _)

/-- Vectors of bytes or indices that are not part of the module. -/
theorem enough_idxs {l : (Kind → Nat) → List Idx → Prop} : Enough (parseVec .idx (lift parseIdx)) (Whasm.parseVec parseIdx) l := by
  refine Enough.mono (l := fun _ _ => True) ?_ fun _ _ _ => trivial
  exact enough_after (eats_good good_u32) fun n => enough_short (.inr rfl) (eats_n eats_idx n.toNat) ((enough_n (l := fun _ _ => True) enough_lift (eats_good good_idx) n.toNat).mono
    fun _ _ _ _ _ => trivial)

theorem enough_bytes {l : (Kind → Nat) → List Byte → Prop} :
    Enough (parseUnwrappingVec .byte (fun b : Byte => b) (lift parseByte)) (Whasm.parseUnwrappingVec (fun b : Byte => b) parseByte) l := by
  refine Enough.mono (l := fun _ _ => True) ?_ fun _ _ _ => trivial
  refine enough_after (eats_good good_u32) fun n => enough_short (.inl rfl) (eats_n ?_ n.toNat) (Enough.mono (enough_n (l := fun _ _ => True) ?_ ?_ n.toNat)
    fun _ _ _ _ _ => trivial)
  · exact (eats_byte.bind (l := 0) fun _ => eats_good (good_pure _)).mono (by omega)
  · exact enough_after (eats_good good_byte) fun _ => enough_pure
  · exact Eats.bind (k := 0) (l := 0) (eats_good good_byte) fun _ => eats_good (good_pure _)

theorem enough_string {l : (Kind → Nat) → List Byte → Prop} : Enough parseString Whasm.parseString l := by
  refine enough_bind (l1 := fun _ _ => True) enough_bytes (eats_good good_vecByte) (fun _ _ _ _ _ _ _ => trivial) fun raw => ?_
  by_cases h : validUtf8 raw = true
  · rw [if_pos h, if_pos h]; exact enough_pure
  · rw [if_neg h, if_neg h]; exact enough_fail

theorem enough_retVal : Enough parseRetVal Whasm.parseRetVal (fun room r => r.length ≤ room .val) := by
  have : Enough parseRetVal (Whasm.parseRetVal >>= fun ret => pure ret) (fun room r => r.length ≤ room .val) :=
    enough_after (eats_good good_retVal) fun ret => enough_request (yields_pure fun room h => by omega) enough_pure
  rw [Clock.bind_pure_id] at this
  exact this

theorem enough_funcTy : Enough parseFuncTy Whasm.parseFuncTy (fun room t => t.params.length ≤ room .val ∧ t.results.length ≤ room .val) := by
  refine enough_after (eats_good good_byte) fun b => ?_
  have hv := enough_vec (kd := .val) (l := fun _ _ => True) enough_lift (eats_good good_val)
  generalize b.toNat = n
  split
  · exact enough_bind hv (eats_good (good_vec good_val)) (fun _ => yields_bind fun _ => yields_pure fun room h => ⟨h.1, fun _ _ => trivial⟩) fun _ =>
      enough_bind hv (eats_good (good_vec good_val)) (fun _ => yields_pure fun room h => ⟨h.2, fun _ _ => trivial⟩) fun _ => enough_pure
  · split <;> first | exact absurd rfl ‹_› | exact enough_fail

/-! ## Instructions -/

/-- The vectors of a sequence have room, if `len` instructions were read before. -/
def SeqFit (len : Nat) (room : Kind → Nat) (is : List Instr) : Prop := len + is.length ≤ room .instr ∧ AllFit room (vectorsL is)

theorem enough_exprOf {sub : M SubExpr} {sub' : P SubExpr} (h : Enough sub sub' (fun room x => SeqFit 0 room x.body)) (hg : Good sub') :
    Enough (exprOf sub) (Whasm.exprOf sub') (fun room e => AllFit room (vectorsE e)) := by
  refine enough_bind h (eats_good hg) (fun se => ?_) fun se => ?_
  · rcases se with ⟨is, next⟩
    cases next with
    | endMark =>
      refine yields_pure fun room h => ?_
      have := AllFit.cons.mp h
      exact ⟨by rw [Nat.zero_add]; exact this.1, this.2⟩
    | elseMark => exact yields_fail
    | _ => exact yields_fail
  · rcases se with ⟨is, next⟩
    cases next with
    | endMark => exact enough_pure
    | elseMark => exact enough_fail
    | _ => exact enough_fail

theorem enough_ifOf {sub : M SubExpr} {sub' : P SubExpr} (h : Enough sub sub' (fun room x => SeqFit 0 room x.body)) (hg : Good sub') :
    Enough (ifOf sub) (Whasm.ifOf sub') (fun room i => AllFit room (vectorsI i)) := by
  have key : ∀ (ret : RetVal) (s1 : SubExpr) (bn : Expr × Instr), Yields (if bn.2.isEnd = true then pure (.ifElse ret s1.body bn.1) else P.fail (.unexpectedOpcode "Unknown") : P Instr)
      (fun room i => AllFit room (vectorsI i) → ret.length ≤ room .val ∧ SeqFit 0 room s1.body ∧ SeqFit 0 room bn.1) := by
    intro ret s1 bn
    refine yields_ite (yields_pure fun room h => ?_) yields_fail
    simp only [vectorsI, AllFit.cons, AllFit.append] at h
    exact ⟨h.1, ⟨by rw [Nat.zero_add]; exact h.2.1, h.2.2.2.1⟩, by rw [Nat.zero_add]; exact h.2.2.1, h.2.2.2.2⟩
  refine enough_bind enough_retVal (eats_good good_retVal) (fun ret => yields_bind fun s1 => yields_bind fun bn => fun s x t e room h => (key ret s1 bn s x t e room h).1) fun ret => ?_
  refine enough_bind h (eats_good hg) (fun s1 => yields_bind fun bn => fun s x t e room h => (key ret s1 bn s x t e room h).2.1) fun s1 => ?_
  have he : Enough (elsePart sub s1) (Whasm.elsePart sub' s1) (fun room bn => SeqFit 0 room bn.1) := by
    unfold elsePart Whasm.elsePart
    by_cases hn : s1.next.isElse = true
    · rw [if_pos hn, if_pos hn]
      exact enough_bind h (eats_good hg) (fun _ => yields_pure fun _ h => h) fun _ => enough_pure
    · rw [if_neg hn, if_neg hn]
      exact enough_pure
  refine enough_bind he (eats_good (good_elsePart hg s1)) (fun bn => fun s x t e room h => (key ret s1 bn s x t e room h).2.2) fun bn => ?_
  by_cases hn : bn.2.isEnd = true
  · rw [if_pos hn, if_pos hn]
    exact enough_pure
  · rw [if_neg hn, if_neg hn]
    exact enough_fail

theorem enough_instrAt {sub : M SubExpr} {sub' : P SubExpr} (h : Enough sub sub' (fun room x => SeqFit 0 room x.body)) (hg : Good sub') (b : Byte) :
    Enough (instrAt sub b) (Whasm.instrAt sub' b) (fun room i => AllFit room (vectorsI i)) := by
  by_cases h2 : b.toNat = 2
  · rw [(instrAt_02 h2 sub sub').1, (instrAt_02 h2 sub sub').2]
    refine enough_bind enough_retVal (eats_good good_retVal) (fun ret => yields_bind fun is => yields_pure fun room h => (AllFit.cons.mp h).1) fun ret => ?_
    exact enough_bind (enough_exprOf h hg) (eats_good (good_exprOf hg)) (fun is => yields_pure fun room h => (AllFit.cons.mp h).2) fun _ => enough_pure
  by_cases h3 : b.toNat = 3
  · rw [(instrAt_03 h3 sub sub').1, (instrAt_03 h3 sub sub').2]
    refine enough_bind enough_retVal (eats_good good_retVal) (fun ret => yields_bind fun is => yields_pure fun room h => (AllFit.cons.mp h).1) fun ret => ?_
    exact enough_bind (enough_exprOf h hg) (eats_good (good_exprOf hg)) (fun is => yields_pure fun room h => (AllFit.cons.mp h).2) fun _ => enough_pure
  by_cases h4 : b.toNat = 4
  · rw [(instrAt_04 h4 sub sub').1, (instrAt_04 h4 sub sub').2]
    exact enough_ifOf h hg
  by_cases he : b.toNat = 14
  · rw [(instrAt_0E he sub sub').1, (instrAt_0E he sub sub').2]
    exact enough_bind (l1 := fun _ _ => True) enough_idxs (eats_good (good_vec good_idx)) (fun _ _ _ _ _ _ _ => trivial) fun _ => enough_after (eats_good good_idx) fun _ => enough_pure
  · rw [(instrAt_other h2 h3 h4 he sub sub').1]
    exact enough_lift

theorem enough_instrOf {sub : M SubExpr} {sub' : P SubExpr} (h : Enough sub sub' (fun room x => SeqFit 0 room x.body)) (hg : Good sub') :
    Enough (instrOf sub) (Whasm.instrOf sub') (fun room i => AllFit room (vectorsI i)) :=
  enough_after (eats_good good_byte) fun b => enough_instrAt h hg b

theorem enough_subExpr : ∀ fuel len, Enough (parseSubExpr fuel len) (Whasm.parseSubExpr fuel) (fun room x => SeqFit len room x.body)
  | 0, len => enough_fail
  | fuel + 1, len => by
    have key : ∀ next : Instr, Yields (Whasm.parseSubExpr fuel >>= fun rest => pure { body := next :: rest.body, next := rest.next } : P SubExpr)
        (fun room x => SeqFit len room x.body → AllFit room (vectorsI next) ∧ len + 1 ≤ room .instr) := by
      intro next
      refine yields_bind fun rest => yields_pure fun room h => ?_
      obtain ⟨h1, h2⟩ := h
      simp only [List.length_cons, vectorsL, AllFit.append] at h1 h2
      exact ⟨h2.1, by omega⟩
    have step : ∀ next : Instr, Enough (request .instr len 1 >>= fun _ => parseSubExpr fuel (len + 1) >>= fun rest => pure { body := next :: rest.body, next := rest.next } : M SubExpr)
        (Whasm.parseSubExpr fuel >>= fun rest => pure { body := next :: rest.body, next := rest.next } : P SubExpr) (fun room x => SeqFit len room x.body) := by
      intro next
      refine enough_request (fun s x t e room h => (key next s x t e room h).2) ?_
      refine enough_bind (enough_subExpr fuel (len + 1)) (eats_good (good_subExpr fuel)) (fun rest => yields_pure fun room h => ?_) fun rest => enough_pure
      obtain ⟨h1, h2⟩ := h
      simp only [List.length_cons, vectorsL, AllFit.append] at h1 h2
      exact ⟨by omega, h2.2⟩
    refine enough_bind (enough_instrOf (enough_subExpr fuel 0) (good_subExpr fuel)) (eats_good (good_instrOf (good_subExpr fuel))) (fun i => ?_) fun i => ?_
    · cases i with
      | endMark => exact yields_pure fun room h u hu => by cases hu
      | elseMark => exact yields_pure fun room h u hu => by cases hu
      | _ => exact fun s x t e room h => (key _ s x t e room h).1
    · cases i with
      | endMark => exact enough_pure
      | elseMark => exact enough_pure
      | _ => exact step _

theorem enough_expr : Enough parseExpr Whasm.parseExpr (fun room e => AllFit room (vectorsE e)) := fun room s =>
  enough_exprOf (enough_subExpr (s.length + 1) 0) (good_subExpr _) room s

theorem enough_constExpr : Enough parseExpr Whasm.parseConstExpr (fun room e => AllFit room (vectorsE e)) := constExpr_eq ▸ enough_expr

/-! ## Modules -/

theorem enough_runs {q : P α} {kd : Kind} (hq : Good q) : ∀ n len, Enough (parseRuns kd len n (lift q)) (Whasm.parseRuns n q) (fun room xs => len + xs.length ≤ room kd)
  | 0, len => enough_pure
  | n + 1, len => by
    refine enough_after (eats_good good_u32) fun m => enough_after (eats_good hq) fun v => enough_request (yields_bind fun rest => yields_pure fun room h => ?_) ?_
    · simp only [List.length_append, List.length_replicate] at h; omega
    · refine enough_bind (enough_runs hq n (len + m.toNat)) (eats_good (good_runs hq n)) (fun rest => yields_pure fun room h => ?_) fun rest => enough_pure
      simp only [List.length_append, List.length_replicate] at h; omega

theorem enough_func : Enough parseFunc Whasm.parseFunc (fun room f => AllFit room (vectorsF f)) := by
  refine enough_bind (l1 := fun room xs => xs.length ≤ room .local) ?_ (eats_good (good_compactVec good_val))
    (fun xs => yields_bind fun is => yields_pure fun room h => (AllFit.cons.mp h).1) fun xs => ?_
  · exact enough_after (eats_good good_u32) fun n => (enough_runs good_val n.toNat 0).mono fun room xs h => by omega
  · exact enough_bind enough_expr (eats_good good_expr) (fun is => yields_pure fun room h => (AllFit.cons.mp h).2) fun _ => enough_pure

theorem enough_global : Enough parseGlobal Whasm.parseGlobal (fun room g => AllFit room (vectorsE g.init)) :=
  enough_after (eats_good good_globalTy) fun _ => enough_bind enough_constExpr (eats_good good_constExpr) (fun _ => yields_pure fun _ h => h) fun _ => enough_pure

theorem enough_elem : Enough parseElem Whasm.parseElem (fun room e => AllFit room ((.idx, e.init.length) :: vectorsE e.offset)) :=
  enough_after (eats_good good_idx) fun _ => enough_bind enough_constExpr (eats_good good_constExpr)
    (fun _ => yields_bind fun _ => yields_pure fun _ h => (AllFit.cons.mp h).2) fun _ =>
    enough_bind (l1 := fun _ _ => True) enough_idxs (eats_good (good_vec good_idx)) (fun _ _ _ _ _ _ _ => trivial) fun _ => enough_pure

theorem enough_data : Enough parseData Whasm.parseData (fun room d => AllFit room ((.byte, d.init.length) :: vectorsE d.offset)) :=
  enough_after (eats_good good_idx) fun _ => enough_bind enough_constExpr (eats_good good_constExpr)
    (fun _ => yields_bind fun _ => yields_pure fun _ h => (AllFit.cons.mp h).2) fun _ =>
    enough_bind (l1 := fun _ _ => True) enough_bytes (eats_good good_vecByte) (fun _ _ _ _ _ _ _ => trivial) fun _ => enough_pure

theorem enough_import {l : (Kind → Nat) → Import → Prop} : Enough parseImport Whasm.parseImport l :=
  enough_bind (l1 := fun _ _ => True) enough_string (eats_good good_string) (fun _ _ _ _ _ _ _ => trivial) fun _ =>
    enough_bind (l1 := fun _ _ => True) enough_string (eats_good good_string) (fun _ _ _ _ _ _ _ => trivial) fun _ => enough_after (eats_good good_importDesc) fun _ => enough_pure

theorem enough_export {l : (Kind → Nat) → Export → Prop} : Enough parseExport Whasm.parseExport l :=
  enough_bind (l1 := fun _ _ => True) enough_string (eats_good good_string) (fun _ _ _ _ _ _ _ => trivial) fun _ => enough_after (eats_good good_exportDesc) fun _ => enough_pure

theorem eats_consume : Eats 0 parseConsume := fun s x r e => by cases e; simp

theorem enough_custom {l : (Kind → Nat) → Name × Nat → Prop} : Enough parseCustom Whasm.parseCustom l :=
  enough_bind (l1 := fun _ _ => True) enough_string (eats_good good_string) (fun _ _ _ _ _ _ _ => trivial) fun _ => enough_after eats_consume fun _ => enough_pure

theorem enough_sized {p : M α} {q : P α} {l : (Kind → Nat) → α → Prop} (h : Enough p q l) : Enough (parseSized p) (Whasm.parseSized q) l := by
  refine enough_after (eats_good good_u32) fun n room s x t hb hi hx hl => ?_
  have hlen : (s.take n.toNat).length ≤ s.length := by rw [List.length_take]; omega
  have h := h room (s.take n.toNat)
  dsimp only at hx ⊢
  rcases hr : q (s.take n.toNat) with ⟨_ | y, u⟩
  · rw [hr] at hx; cases hx
  · rw [hr] at hx
    dsimp only at hx
    split at hx
    · cases hx
    · rename_i hc
      cases hx
      have h1 := h x u (by omega) (by omega) hr hl
      rcases hp : p room (s.take n.toNat) with ⟨o, m⟩
      rw [hp] at h1
      dsimp only at h1
      subst h1
      dsimp only
      rw [if_neg hc]

end

theorem eats_sized {α : Type} {q : P α} (h : ∀ s, (q s).2 <:+ s) : Eats 0 (Whasm.parseSized q) := by
  refine Eats.mono (k := 1 + 0) (eats_u32.bind fun n s x r e => ?_) (by omega)
  dsimp only at e
  have hl : s.length = (s.take n.toNat).length + (s.drop n.toNat).length := by
    rw [← List.length_append, List.take_append_drop]
  rcases hr : q (s.take n.toNat) with ⟨_ | y, u⟩
  · rw [hr] at e; cases e
  · have := (h (s.take n.toNat)).length_le
    rw [hr] at e this
    dsimp only at e this
    split at e
    · cases e
    · cases e
      rw [List.length_append]
      omega

theorem enough_section (id : Byte) (st : LoopState) : Enough (parseSection id st) (Whasm.parseSection id st) (fun room st' => AllFit room (part id.toNat st'.result)) := by
  unfold parseSection Whasm.parseSection
  generalize id.toNat = n
  have hv : ∀ {α : Type} {p : M α} {q : P α} {kd : Kind} {l : (Kind → Nat) → α → Prop} {g : List α → LoopState} {n : Nat} {v : α → List (Kind × Nat)},
      Enough p q l → Good q → (∀ xs, part n (g xs).result = (kd, xs.length) :: xs.flatMap v) → (∀ room x, AllFit room (v x) → l room x) →
      Enough (parseSized (parseVec kd p) >>= fun xs => pure (g xs)) (Whasm.parseSized (Whasm.parseVec q) >>= fun xs => pure (g xs)) (fun room st' => AllFit room (part n st'.result)) := by
    intro α p q kd l g n v hp hq hg hl
    refine enough_bind (enough_sized (enough_vec hp (eats_good hq))) (eats_good (good_sized (good_vec hq))) (fun xs => yields_pure fun room h => ?_) fun xs => enough_pure
    rw [hg, AllFit.cons, AllFit.flatMap] at h
    exact ⟨h.1, fun x hx => hl room x (h.2 x hx)⟩
  have hp : ∀ {α : Type} {q : P α} {kd : Kind} {g : List α → LoopState} {n : Nat}, Good q → (∀ xs, part n (g xs).result = [(kd, xs.length)]) →
      Enough (parseSized (parseVec kd (lift q)) >>= fun xs => pure (g xs)) (Whasm.parseSized (Whasm.parseVec q) >>= fun xs => pure (g xs)) (fun room st' => AllFit room (part n st'.result)) := by
    intro α q kd g n hq hg
    exact hv (l := fun _ _ => True) (v := fun _ => []) enough_lift hq (fun xs => by rw [hg, flatMap_nil']) fun _ _ _ => trivial
  split
  · exact enough_bind (l1 := fun _ _ => True) (enough_sized enough_custom) (eats_sized fun s => by
      have := (good_string).forward s
      show (P.bind _ _ s).2 <:+ s
      unfold P.bind
      rcases hr : Whasm.parseString s with ⟨_ | x, t⟩
      · rw [hr] at this; exact this
      · exact List.nil_suffix) (fun _ _ _ _ _ _ _ => trivial) fun _ => enough_pure
  · exact hv enough_funcTy good_funcTy (fun _ => rfl) fun room x h => by
      simp only [AllFit.cons] at h
      exact ⟨h.1, h.2.1⟩
  · exact hv (l := fun _ _ => True) enough_import good_import (fun _ => rfl) fun _ _ _ => trivial
  · exact enough_bind (l1 := fun _ _ => True) (enough_sized enough_idxs) (eats_good (good_sized (good_vec good_idx))) (fun _ _ _ _ _ _ _ => trivial) fun _ => enough_pure
  · exact hp good_table (fun _ => rfl)
  · exact hp good_mem (fun _ => rfl)
  · exact hv enough_global good_global (fun _ => rfl) fun _ _ h => h
  · exact hv (l := fun _ _ => True) enough_export good_export (fun _ => rfl) fun _ _ _ => trivial
  · exact enough_bind (l1 := fun _ _ => True) (enough_sized enough_lift) (eats_good (good_sized good_start)) (fun _ _ _ _ _ _ _ => trivial) fun _ => enough_pure
  · exact hv enough_elem good_elem (fun _ => rfl) fun _ _ h => h
  · have hgood : Good (Whasm.parseUnwrappingVec (fun f : Func => f) (Whasm.parseSized Whasm.parseFunc)) :=
      good_u32.bind fun n => good_parseN ((good_sized good_func).bind fun _ => good_pure _) n.toNat
    refine enough_bind (enough_sized (enough_unwrap (enough_sized enough_func) (eats_good (good_sized good_func)))) (eats_good (good_sized hgood)) (fun fs => ?_) fun fs => ?_
    · dsimp only
      refine yields_ite yields_fail ?_
      cases ha : assignTys st.funcTypes st.funcTypes.length fs with
      | none => exact yields_fail
      | some gs =>
        refine yields_pure fun room h => ?_
        have hs := assignTys_vectors ha
        have h : AllFit room ((.func, gs.length) :: gs.flatMap vectorsF) := h
        rw [hs.1, hs.2, AllFit.cons, AllFit.flatMap] at h
        exact h
    · dsimp only
      by_cases hl : fs.length ≠ st.funcTypes.length
      · rw [if_pos hl, if_pos hl]
        exact enough_fail
      · rw [if_neg hl, if_neg hl]
        cases ha : assignTys st.funcTypes st.funcTypes.length fs with
        | none => exact enough_fail
        | some gs => exact enough_pure
  · exact hv enough_data good_data (fun _ => rfl) fun _ _ h => h
  · split <;> first | exact absurd rfl ‹_› | exact enough_fail

theorem section_part {id : Byte} {st st' : LoopState} {s t : List Byte} (h : Whasm.parseSection id st s = (.ok st', t)) :
    st'.lastId = st.lastId ∧ ∀ i, i ≠ id.toNat → part i st'.result = part i st.result := by
  unfold Whasm.parseSection at h
  generalize id.toNat = n at h ⊢
  split at h
  case h_11 =>
    obtain ⟨fs, u, _, h⟩ := bind_ok_iff.mp h
    dsimp only at h
    split at h
    · cases h
    · cases ha : assignTys st.funcTypes st.funcTypes.length fs with
      | none => rw [ha] at h; cases h
      | some gs =>
        rw [ha] at h
        cases h
        exact ⟨rfl, fun i hi => by unfold part; split <;> first | rfl | exact absurd rfl hi⟩
  case h_13 => cases h
  all_goals
    obtain ⟨x, u, _, h⟩ := bind_ok_iff.mp h
    cases h
    exact ⟨rfl, fun i hi => by unfold part; split <;> first | rfl | exact absurd rfl hi⟩

theorem iteration_part {st st' : LoopState} {s t : List Byte} (h : Whasm.parseIteration st s = (.ok st', t)) :
    st.lastId.toNat ≤ st'.lastId.toNat ∧ ∀ i, i ≤ st.lastId.toNat → part i st'.result = part i st.result := by
  obtain ⟨id, u, _, h⟩ := bind_ok_iff.mp h
  split at h
  · split at h
    · cases h
    · rename_i h0 h1
      have hlt := UInt8.lt_iff_toNat_lt.mp (UInt8.not_le.mp h1)
      obtain ⟨k1, k2⟩ := section_part h
      rw [k1]
      exact ⟨by show st.lastId.toNat ≤ id.toNat; omega, fun i hi => k2 i (by omega)⟩
  · rename_i h0
    have : id = 0x00 := Decidable.not_not.mp h0
    obtain ⟨k1, k2⟩ := section_part h
    rw [k1]
    refine ⟨Nat.le_refl _, fun i hi => ?_⟩
    by_cases hz : i = 0
    · subst hz; rfl
    · exact k2 i (by rw [this]; exact hz)

theorem loop_part : ∀ (fuel : Nat) (st : LoopState) {s t : List Byte} {m : Module}, Whasm.sectionLoop fuel st s = (.ok m, t) → ∀ i, i ≤ st.lastId.toNat → part i m = part i st.result
  | 0, st, s, t, m, h => by cases h
  | fuel + 1, st, s, t, m, h => by
    cases s with
    | nil => cases h; exact fun _ _ => rfl
    | cons b s =>
      obtain ⟨st', u, h1, h2⟩ := bind_ok_iff.mp h
      have := iteration_part h1
      intro i hi
      rw [loop_part fuel st' h2 i (by omega), this.2 i hi]

theorem enough_iteration (st : LoopState) : Enough (parseIteration st) (Whasm.parseIteration st) (fun room st' => AllFit room (part st'.lastId.toNat st'.result)) := by
  refine enough_after (eats_good good_byte) fun id => ?_
  by_cases h0 : id ≠ 0x00
  · rw [if_pos h0, if_pos h0]
    by_cases h1 : id ≤ st.lastId
    · rw [if_pos h1, if_pos h1]
      exact enough_fail
    · rw [if_neg h1, if_neg h1]
      intro room s x t hb hi hx hl
      refine enough_section id { st with lastId := id } room s x t hb hi hx ?_
      rw [(section_part hx).1] at hl
      exact hl
  · rw [if_neg h0, if_neg h0]
    intro room s x t hb hi hx hl
    refine enough_section id st room s x t hb hi hx ?_
    have : id = 0x00 := Decidable.not_not.mp h0
    rw [this]
    exact fun u hu => by cases hu

theorem enough_loop : ∀ (fuel : Nat) (st : LoopState), Enough (sectionLoop fuel st) (Whasm.sectionLoop fuel st) (fun room m => AllFit room (vectors m))
  | 0, st => enough_fail
  | fuel + 1, st => by
    intro room s
    cases s with
    | nil => exact fun x t _ _ h _ => by cases h; rfl
    | cons b s =>
      refine enough_bind (enough_iteration st) (fun s x r e => Nat.le_of_lt (iteration_consumes st e)) (fun st' s x t e room h => ?_) (fun st' => enough_loop fuel st') room (b :: s)
      rw [← loop_part fuel st' e _ (Nat.le_refl _)]
      exact fit_parts.mp h _

theorem enough_module : Enough parseModule Whasm.parseModule (fun room m => AllFit room (vectors m)) := by
  refine enough_after (eats_good (good_parseN good_byte 4)) fun magic => ?_
  by_cases h : magic.map (fun b => b.toNat) ≠ magicChars.map (fun c => c.toNat)
  · rw [if_pos h, if_pos h]
    exact enough_fail
  · rw [if_neg h, if_neg h]
    refine enough_after (eats_good (good_parseN good_byte 4)) fun version => ?_
    by_cases h : version ≠ [1, 0, 0, 0]
    · rw [if_pos h, if_pos h]
      exact enough_fail
    · rw [if_neg h, if_neg h]
      exact fun room s => enough_loop (s.length + 1) {} room s

end Whasm.Memory
