import Verif.Model.Native
import Verif.Lemmas.Modules
import Verif.Spec.Native

/-!
# Parsers and validators with a bounded native stack
-/

namespace Whasm
open Spec

section
variable {α β : Type}

/-- At the input `s`, the parser `q` with a bounded stack aborts if the result of `p` is not small, and otherwise agrees with `p`; if `p` fails then either is
possible. -/
def LimAt (q p : P α) (small : α → Prop) (s : List Byte) : Prop :=
  ((q s).1 = .error .panic ∧ ∀ x r, p s = (.ok x, r) → ¬ small x) ∨ (q s = p s ∧ ∀ x r, p s = (.ok x, r) → small x)

def Lim (q p : P α) (small : α → Prop) : Prop := ∀ s, LimAt q p small s

theorem lim_same {p : P α} {B : α → Prop} (h : ∀ s x r, p s = (.ok x, r) → B x) : Lim p p B :=
  fun s => .inr ⟨rfl, h s⟩

theorem limAt_bind {q p : P α} {g f : α → P β} {A : α → Prop} {B : β → Prop} {s : List Byte} (h : LimAt q p A s)
    (h1 : ∀ x r, p s = (.ok x, r) → A x → LimAt (g x) (f x) B r)
    (h2 : ∀ x r, p s = (.ok x, r) → ¬ A x → ∀ y r', f x r = (.ok y, r') → ¬ B y) : LimAt (q >>= g) (p >>= f) B s := by
  rcases h with ⟨h, hs⟩ | ⟨h, hs⟩
  · refine .inl ⟨?_, fun y r' hy => ?_⟩
    · rcases hq : q s with ⟨e, r⟩
      rw [hq] at h
      cases h
      rw [bind_of_error hq]
    · obtain ⟨x, r, hx, hy⟩ := bind_ok_iff.mp hy
      exact h2 x r hx (hs x r hx) y r' hy
  · rcases hp : p s with ⟨e | x, r⟩
    · refine .inr ⟨?_, fun y r' hy => ?_⟩
      · rw [bind_of_error (h.trans hp), bind_of_error hp]
      · rw [bind_of_error hp] at hy; cases hy
    · rw [LimAt, bind_of_ok (h.trans hp), bind_of_ok hp]
      exact h1 x r hp (hs x r hp)

theorem Lim.bind {q p : P α} {g f : α → P β} {A : α → Prop} {B : β → Prop} (h : Lim q p A) (h1 : ∀ x, A x → Lim (g x) (f x) B)
    (h2 : ∀ x, ¬ A x → ∀ s y r, f x s = (.ok y, r) → ¬ B y) : Lim (q >>= g) (p >>= f) B :=
  fun s => limAt_bind (h s) (fun x r _ hx => h1 x hx r) fun x r _ hx y r' hy => h2 x hx r y r' hy

/-- The first part is not recursive. -/
theorem Lim.after {p : P α} {g f : α → P β} {B : β → Prop} (h : ∀ x, Lim (g x) (f x) B) : Lim (p >>= g) (p >>= f) B :=
  (lim_same (B := fun _ => True) fun _ _ _ _ => trivial).bind (fun x _ => h x) fun _ h => absurd trivial h

theorem Lim.map {q p : P α} {A : α → Prop} {B : β → Prop} {f : α → β} (h : Lim q p A) (hf : ∀ x, B (f x) ↔ A x) :
    Lim (q >>= fun x => pure (f x)) (p >>= fun x => pure (f x)) B :=
  h.bind (fun x hx => lim_same fun s y r e => by cases e; exact (hf x).mpr hx) fun x hx s y r e => by
    cases e; exact fun hb => hx ((hf x).mp hb)

theorem Lim.congr {q p : P α} {A B : α → Prop} (h : Lim q p A) (e : ∀ x, A x ↔ B x) : Lim q p B := fun s => by
  rcases h s with ⟨h1, h2⟩ | ⟨h1, h2⟩
  · exact .inl ⟨h1, fun x r hx hb => h2 x r hx ((e x).mpr hb)⟩
  · exact .inr ⟨h1, fun x r hx => (e x).mp (h2 x r hx)⟩

theorem lim_parseN {q p : P α} {A : α → Prop} (h : Lim q p A) : ∀ n, Lim (parseN n q) (parseN n p) fun l => ∀ x ∈ l, A x
  | 0 => lim_same fun s x r e => by cases e; simp
  | n + 1 => h.bind (A := A) (fun x hx => (lim_parseN h n).map fun l => by simp [hx]) fun x hx s y r e => by
      obtain ⟨l, r', hl, e⟩ := bind_ok_iff.mp e
      cases e
      exact fun hb => hx (hb x (by simp))

theorem lim_vec {q p : P α} {A : α → Prop} (h : Lim q p A) : Lim (parseVec q) (parseVec p) fun l => ∀ x ∈ l, A x :=
  Lim.after fun n => lim_parseN h n.toNat

theorem lim_unwrapping {q p : P α} {A : α → Prop} (h : Lim q p A) :
    Lim (parseUnwrappingVec (fun x => x) q) (parseUnwrappingVec (fun x => x) p) fun l => ∀ x ∈ l, A x :=
  Lim.after fun n => lim_parseN (h.map (f := fun x => x) fun _ => Iff.rfl) n.toNat

theorem lim_sized {q p : P α} {A : α → Prop} (h : Lim q p A) : Lim (parseSized q) (parseSized p) A := by
  refine Lim.after fun size => fun s => ?_
  rcases h (s.take size.toNat) with ⟨h1, h2⟩ | ⟨h1, h2⟩
  · rcases hq : q (s.take size.toNat) with ⟨e, r⟩
    rw [hq] at h1
    cases h1
    refine .inl ⟨by simp only [hq], fun x r hx => ?_⟩
    rcases hp : p (s.take size.toNat) with ⟨e | y, r'⟩
    · simp only [hp] at hx; cases hx
    · simp only [hp] at hx
      split at hx
      · cases hx
      · cases hx; exact h2 _ _ hp
  · refine .inr ⟨by simp only [h1], fun x r hx => ?_⟩
    rcases hp : p (s.take size.toNat) with ⟨e | y, r'⟩
    · simp only [hp] at hx; cases hx
    · simp only [hp] at hx
      split at hx
      · cases hx
      · cases hx; exact h2 _ _ hp

end

/-! ## Instructions -/

/-- The parser returns instructions without blocks. -/
def Leaf (p : P Instr) : Prop := ∀ s x r, p s = (.ok x, r) → depthI x = 0

theorem leaf_pure {i : Instr} (h : depthI i = 0) : Leaf (pure i) := fun s x r e => by cases e; exact h

theorem leaf_bind {α : Type} {p : P α} {f : α → P Instr} (h : ∀ x, Leaf (f x)) : Leaf (p >>= f) := fun s x r e => by
  obtain ⟨y, r', _, e⟩ := bind_ok_iff.mp e
  exact h y _ _ _ e

theorem leaf_fail (e : Error) : Leaf (P.fail e) := fun s x r h => by cases h

theorem leaf_tail (b : Byte) : Leaf (instrTail b) := by
  unfold instrTail
  split
  · exact leaf_bind fun _ => leaf_bind fun _ => leaf_pure rfl
  · split
    · exact leaf_bind fun _ => leaf_bind fun _ => leaf_pure rfl
    · split
      · exact leaf_pure rfl
      · exact leaf_fail _

theorem instrAt_leaf {b : Byte} (h2 : b.toNat ≠ 2) (h3 : b.toNat ≠ 3) (h4 : b.toNat ≠ 4) (sub : P SubExpr) :
    instrAt sub b = instrAt (P.fail .panic) b ∧ Leaf (instrAt sub b) := by
  unfold instrAt
  generalize b.toNat = n at *
  split <;> first
    | contradiction
    | exact ⟨rfl, leaf_pure rfl⟩
    | exact ⟨rfl, leaf_bind fun _ => leaf_pure rfl⟩
    | exact ⟨rfl, leaf_bind fun _ => leaf_bind fun _ => leaf_pure rfl⟩
    | exact ⟨rfl, leaf_tail b⟩

variable {q p : P SubExpr} {stack : Nat}

theorem lim_exprOf {k : Nat} (h : Lim q p fun x => depthL x.body ≤ k) : Lim (exprOf q) (exprOf p) fun e => depthL e ≤ k := by
  refine h.bind (fun x hx => ?_) fun x hx s y r e => ?_
  · refine lim_same fun s y r e => ?_
    obtain ⟨body, next⟩ := x
    cases next <;> cases e
    exact hx
  · obtain ⟨body, next⟩ := x
    cases next <;> cases e
    exact hx

theorem lim_ifOf {k : Nat} (h : Lim q p fun x => depthL x.body + 1 ≤ k) : Lim (ifOf q) (ifOf p) fun i => depthI i ≤ k := by
  refine Lim.after fun ret => ?_
  refine h.bind (fun x hx => ?_) fun x hx s y r e => ?_
  · refine Lim.bind (A := fun bn => depthL bn.1 + 1 ≤ k) ?_ (fun bn hb => ?_) fun bn hb s y r e => ?_
    · unfold elsePart
      split
      · exact h.map fun _ => Iff.rfl
      · refine lim_same fun s y r e => ?_
        cases e
        simp only [depthL]
        omega
    · refine lim_same fun s y r e => ?_
      split at e <;> cases e
      simp only [depthI]
      omega
    · split at e <;> cases e
      simp only [depthI]
      omega
  · obtain ⟨bn, r', _, e⟩ := bind_ok_iff.mp e
    split at e <;> cases e
    simp only [depthI]
    omega

theorem lim_instrOf {k : Nat} (h : Lim q p fun x => depthL x.body + 1 ≤ k) : Lim (instrOf q) (instrOf p) fun i => depthI i ≤ k := by
  refine Lim.after fun b => ?_
  have he : ∀ f : Expr → Instr, (∀ e, depthI (f e) = 1 + depthL e) → Lim (do let body ← exprOf q; pure (f body)) (do let body ← exprOf p; pure (f body))
      fun i => depthI i ≤ k := by
    intro f hf
    cases k with
    | zero =>
      refine Lim.bind (A := fun _ => False) (h.congr (B := fun _ => False) (by simp) |> fun h => ?_) (fun _ h => h.elim) fun x _ s y r e => by
        cases e; rw [hf]; omega
      refine h.bind (fun _ h => h.elim) fun _ _ _ _ _ _ h => h
    | succ k =>
      exact (lim_exprOf (k := k) (h.congr fun x => by omega)).map fun e => by rw [hf]; omega
  by_cases h2 : b.toNat = 2
  · unfold instrAt
    simp only [h2]
    exact Lim.after fun ret => he (.block ret) fun _ => rfl
  by_cases h3 : b.toNat = 3
  · unfold instrAt
    simp only [h3]
    exact Lim.after fun ret => he (.loop ret) fun _ => rfl
  by_cases h4 : b.toNat = 4
  · unfold instrAt
    simp only [h4]
    exact lim_ifOf h
  rw [(instrAt_leaf h2 h3 h4 q).1, ← (instrAt_leaf h2 h3 h4 p).1]
  exact lim_same fun s x r e => by rw [(instrAt_leaf h2 h3 h4 p).2 s x r e]; omega

theorem lim_subStep {k : Nat} (h : Lim q p fun x => depthL x.body ≤ k) {i : Instr} (hi : depthI i ≤ k) :
    Lim (subStep q i) (subStep p i) fun x => depthL x.body ≤ k := by
  unfold subStep
  split
  · exact lim_same fun s x r e => by cases e; simp [depthL]
  · exact lim_same fun s x r e => by cases e; simp [depthL]
  · exact h.map fun x => by simp only [depthL]; omega

theorem lim_sub : ∀ fuel stack, Lim (parseSubExprOn fuel stack) (parseSubExpr fuel) fun x => depthL x.body ≤ stack
  | 0, _ => lim_same fun s x r e => by cases e
  | fuel + 1, stack => by
    have hn : Lim (nestedOn stack (parseSubExprOn fuel)) (parseSubExpr fuel) fun x => depthL x.body + 1 ≤ stack := by
      cases stack with
      | zero => exact fun s => .inl ⟨rfl, fun x r _ => by omega⟩
      | succ n => exact (lim_sub fuel n).congr fun x => by omega
    refine (lim_instrOf hn).bind (fun i hi => lim_subStep (lim_sub fuel stack) hi) fun i hi s y r e => ?_
    unfold subStep at e
    split at e
    · exact absurd (Nat.zero_le _) hi
    · exact absurd (Nat.zero_le _) hi
    · obtain ⟨x, r', _, e⟩ := bind_ok_iff.mp e
      cases e
      simp only [depthL]
      omega

theorem lim_expr (stack : Nat) : Lim (parseExprOn stack) parseExpr fun e => depthL e ≤ stack :=
  fun s => lim_exprOf (lim_sub (s.length + 1) stack) s

/-! ## Modules -/

theorem lim_func (k : Nat) : Lim (parseFuncOn k) parseFunc fun f => depthL f.body ≤ k :=
  Lim.after fun _ => (lim_expr k).map fun _ => Iff.rfl

theorem lim_const (k : Nat) : Lim (parseConstExprOn k) parseConstExpr fun e => depthL e ≤ k :=
  lim_expr k

theorem lim_global (k : Nat) : Lim (parseGlobalOn k) parseGlobal fun g => depthL g.init ≤ k :=
  Lim.after fun _ => (lim_const k).map fun _ => Iff.rfl

theorem lim_elem (k : Nat) : Lim (parseElemOn k) parseElem fun e => depthL e.offset ≤ k := by
  refine Lim.after fun t => (lim_const k).bind (fun e he => lim_same fun s x r h => ?_) fun e he s x r h => ?_
  · obtain ⟨y, r', _, h⟩ := bind_ok_iff.mp h
    cases h; exact he
  · obtain ⟨y, r', _, h⟩ := bind_ok_iff.mp h
    cases h; exact he

theorem lim_data (k : Nat) : Lim (parseDataOn k) parseData fun d => depthL d.offset ≤ k := by
  refine Lim.after fun t => (lim_const k).bind (fun e he => lim_same fun s x r h => ?_) fun e he s x r h => ?_
  · obtain ⟨y, r', _, h⟩ := bind_ok_iff.mp h
    cases h; exact he
  · obtain ⟨y, r', _, h⟩ := bind_ok_iff.mp h
    cases h; exact he

/-- Sections that are still to come have not been filled in. -/
structure Later (st : LoopState) : Prop where
  globals : st.lastId.toNat < 6 → st.result.globals = []
  elem : st.lastId.toNat < 9 → st.result.elem = []
  funcs : st.lastId.toNat < 10 → st.result.funcs = []
  data : st.lastId.toNat < 11 → st.result.data = []

/-- Section `id` leaves the other parts as they are. -/
structure SecKeeps (id : Nat) (a b : Module) : Prop where
  globals : id ≠ 6 → b.globals = a.globals
  elem : id ≠ 9 → b.elem = a.elem
  funcs : id ≠ 10 → b.funcs = a.funcs
  data : id ≠ 11 → b.data = a.data

theorem sec_keeps {id : Nat} {s s' : SecState} {b : List Byte} (h : Sec id s b s') : SecKeeps id s.2 s'.2 := by
  unfold Sec at h
  split at h
  case h_12 => exact h.elim
  case h_10 => obtain ⟨x, _, _, rfl⟩ := h; exact ⟨fun _ => rfl, fun _ => rfl, fun h => absurd rfl h, fun _ => rfl⟩
  all_goals
    obtain ⟨x, _, rfl⟩ := h
    constructor <;> intro h <;> first | rfl | exact absurd rfl h

theorem iteration_later {st st' : LoopState} {s r : List Byte} (hl : Later st) (h : parseIteration st s = (.ok st', r)) :
    Later st' ∧ ∀ k, ¬ NestsAtMost k st.result → ¬ NestsAtMost k st'.result := by
  obtain ⟨b, rfl, hb⟩ := (parses_iteration st _ _ _).mp h
  rcases hb with ⟨_, _, _, rfl⟩ | ⟨id, b', s', rfl, hid, hs, rfl⟩
  · exact ⟨hl, fun _ h => h⟩
  · have hk := sec_keeps hs
    simp only at hk
    refine ⟨⟨fun h => ?_, fun h => ?_, fun h => ?_, fun h => ?_⟩, fun k hn hs => hn ⟨?_, ?_, ?_, ?_⟩⟩
    · simp only at h ⊢; rw [hk.globals (by omega)]; exact hl.globals (by omega)
    · simp only at h ⊢; rw [hk.elem (by omega)]; exact hl.elem (by omega)
    · simp only at h ⊢; rw [hk.funcs (by omega)]; exact hl.funcs (by omega)
    · simp only at h ⊢; rw [hk.data (by omega)]; exact hl.data (by omega)
    · by_cases e : id.toNat = 10
      · rw [hl.funcs (by omega)]; simp
      · rw [← hk.funcs e]; exact hs.funcs
    · by_cases e : id.toNat = 6
      · rw [hl.globals (by omega)]; simp
      · rw [← hk.globals e]; exact hs.globals
    · by_cases e : id.toNat = 9
      · rw [hl.elem (by omega)]; simp
      · rw [← hk.elem e]; exact hs.elem
    · by_cases e : id.toNat = 11
      · rw [hl.data (by omega)]; simp
      · rw [← hk.data e]; exact hs.data

theorem lim_bodies {k : Nat} {st : LoopState} (hn : NestsAtMost k st.result) (x : List Func) (s r : List Byte) (st' : LoopState)
    (h : withBodies st x s = (.ok st', r)) : (∀ f ∈ x, depthL f.body ≤ k) ↔ NestsAtMost k st'.result := by
  unfold withBodies at h
  simp only at h
  by_cases hx : x.length = st.funcTypes.length
  · rw [if_neg (by simpa using hx), assignTys_eq _ _ hx.symm] at h
    cases h
    have key : (∀ f ∈ List.zipWith (fun t (f : Func) => { f with ty := t }) st.funcTypes x, depthL f.body ≤ k) ↔ ∀ f ∈ x, depthL f.body ≤ k := by
      generalize st.funcTypes = ts at hx
      clear hn
      induction x generalizing ts with
      | nil => simp
      | cons f x ih =>
        cases ts with
        | nil => simp at hx
        | cons t ts => simp [ih ts (by simpa using hx)]
    exact ⟨fun h => ⟨key.mpr h, hn.globals, hn.elem, hn.data⟩, fun h => key.mp h.funcs⟩
  · rw [if_pos (by simpa using hx)] at h
    cases h

theorem lim_section {k : Nat} (id : Byte) {st : LoopState} (hn : NestsAtMost k st.result) :
    Lim (parseSectionOn k id st) (parseSection id st) fun st' => NestsAtMost k st'.result := by
  by_cases h6 : id.toNat = 6
  · unfold parseSectionOn parseSection
    simp only [h6]
    exact (lim_sized (lim_vec (lim_global k))).map fun x => ⟨fun h => h.globals, fun h => ⟨hn.funcs, h, hn.elem, hn.data⟩⟩
  by_cases h9 : id.toNat = 9
  · unfold parseSectionOn parseSection
    simp only [h9]
    exact (lim_sized (lim_vec (lim_elem k))).map fun x => ⟨fun h => h.elem, fun h => ⟨hn.funcs, hn.globals, h, hn.data⟩⟩
  by_cases h10 : id.toNat = 10
  · unfold parseSectionOn parseSection
    simp only [h10]
    refine (lim_sized (lim_unwrapping (lim_sized (lim_func k)))).bind (fun x hx => lim_same fun s y r e => ?_) fun x hx s y r e => ?_
    · exact (lim_bodies hn x s r y e).mp hx
    · exact fun h => hx ((lim_bodies hn x s r y e).mpr h)
  by_cases h11 : id.toNat = 11
  · unfold parseSectionOn parseSection
    simp only [h11]
    exact (lim_sized (lim_vec (lim_data k))).map fun x => ⟨fun h => h.data, fun h => ⟨hn.funcs, hn.globals, hn.elem, h⟩⟩
  have e : parseSectionOn k id st = parseSection id st := by
    unfold parseSectionOn
    generalize id.toNat = n at *
    split <;> first | contradiction | rfl
  rw [e]
  refine lim_same fun s st' r h => ?_
  by_cases h0 : id = 0
  · subst h0
    obtain ⟨b, rfl, _, rfl⟩ := (parses_customSection st _ _ _).mp h
    exact hn
  · obtain ⟨b, rfl, s', hs, rfl⟩ := (parses_section id h0 st _ _ _).mp h
    have hk := sec_keeps hs
    simp only at hk
    refine ⟨?_, ?_, ?_, ?_⟩
    · simp only; rw [hk.funcs h10]; exact hn.funcs
    · simp only; rw [hk.globals h6]; exact hn.globals
    · simp only; rw [hk.elem h9]; exact hn.elem
    · simp only; rw [hk.data h11]; exact hn.data

theorem lim_iteration {k : Nat} {st : LoopState} (hn : NestsAtMost k st.result) :
    Lim (parseIterationOn k st) (parseIteration st) fun st' => NestsAtMost k st'.result := by
  refine Lim.after fun id => ?_
  split
  · split
    · exact lim_same fun s x r h => by cases h
    · exact lim_section id hn
  · exact lim_section id hn

theorem loop_deep {k : Nat} : ∀ fuel {st : LoopState}, Later st → ¬ NestsAtMost k st.result → ∀ s m r, sectionLoop fuel st s = (.ok m, r) →
    ¬ NestsAtMost k m
  | 0, _, _, _, _, _, _, h => by cases h
  | fuel + 1, st, hl, hn, s, m, r, h => by
    cases s with
    | nil => cases h; exact hn
    | cons b s =>
      obtain ⟨st', r', h1, h2⟩ := bind_ok_iff.mp (show (parseIteration st >>= fun st' => sectionLoop fuel st') (b :: s) = _ from h)
      have := iteration_later hl h1
      exact loop_deep fuel this.1 (this.2 k hn) _ _ _ h2

theorem lim_loop {k : Nat} : ∀ fuel {st : LoopState}, Later st → NestsAtMost k st.result →
    Lim (sectionLoopOn k fuel st) (sectionLoop fuel st) (NestsAtMost k)
  | 0, _, _, _ => lim_same fun s x r h => by cases h
  | fuel + 1, st, hl, hn => by
    intro s
    cases s with
    | nil => exact .inr ⟨rfl, fun x r h => by cases h; exact hn⟩
    | cons b s =>
      show LimAt (parseIterationOn k st >>= fun st' => sectionLoopOn k fuel st') (parseIteration st >>= fun st' => sectionLoop fuel st') _ (b :: s)
      exact limAt_bind (lim_iteration hn (b :: s)) (fun st' r h hs => lim_loop fuel (iteration_later hl h).1 hs r)
        fun st' r h hs m r' hm => loop_deep fuel (iteration_later hl h).1 hs _ _ _ hm

theorem lim_module (k : Nat) : Lim (parseModuleOn k) parseModule (NestsAtMost k) := by
  refine Lim.after fun magic => ?_
  split
  · exact lim_same fun s x r h => by cases h
  · refine Lim.after fun version => ?_
    split
    · exact lim_same fun s x r h => by cases h
    · exact fun s => lim_loop (s.length + 1) ⟨fun _ => rfl, fun _ => rfl, fun _ => rfl, fun _ => rfl⟩ ⟨by simp, by simp, by simp, by simp⟩ s

/-! ## Short inputs -/

section
variable {α β : Type}

/-- The parsers agree on inputs of at most `n` bytes. -/
def AgreeTo (n : Nat) (q p : P α) : Prop := ∀ s, s.length ≤ n → q s = p s

/-- The parser consumes at least `k` bytes if it succeeds. -/
def Eats (k : Nat) (p : P α) : Prop := ∀ s x r, p s = (.ok x, r) → r.length + k ≤ s.length

theorem AgreeTo.mono {n k : Nat} {q p : P α} (h : AgreeTo n q p) (hk : k ≤ n) : AgreeTo k q p := fun s hs => h s (by omega)

theorem Eats.bind {k l : Nat} {p : P α} {f : α → P β} (h : Eats k p) (hf : ∀ x, Eats l (f x)) : Eats (k + l) (p >>= f) := fun s y r e => by
  obtain ⟨x, r', h1, h2⟩ := bind_ok_iff.mp e
  have := h _ _ _ h1
  have := hf x _ _ _ h2
  omega

theorem Eats.mono {k l : Nat} {p : P α} (h : Eats k p) (hl : l ≤ k) : Eats l p := fun s x r e => by
  have := h s x r e
  omega

theorem eats_forward {p : P α} (h : ∀ s, (p s).2 <:+ s) : Eats 0 p := fun s x r e => by
  have := (h s).length_le
  rw [e] at this
  omega

theorem eats_good {p : P α} (h : Good p) : Eats 0 p := eats_forward h.forward

theorem eats_byte : Eats 1 parseByte := fun s x r e => by
  cases s with
  | nil => cases e
  | cons b s => cases e; simp

theorem same_refl (n : Nat) (p : P α) : AgreeTo n p p := fun _ _ => rfl

theorem AgreeTo.bind {n k : Nat} {q p : P α} {g f : α → P β} (h : AgreeTo n q p) (he : Eats k p) (hf : ∀ x, AgreeTo (n - k) (g x) (f x)) :
    AgreeTo n (q >>= g) (p >>= f) := fun s hs => by
  rcases hp : p s with ⟨e | x, r⟩
  · rw [bind_of_error hp, bind_of_error ((h s hs).trans hp)]
  · rw [bind_of_ok hp, bind_of_ok ((h s hs).trans hp)]
    have := he s x r hp
    exact hf x r (by omega)

theorem AgreeTo.after {n k : Nat} {p : P α} {g f : α → P β} (he : Eats k p) (hf : ∀ x, AgreeTo (n - k) (g x) (f x)) : AgreeTo n (p >>= g) (p >>= f) :=
  (same_refl n p).bind he hf

theorem AgreeTo.before {n : Nat} {q p : P α} {f : α → P β} (h : AgreeTo n q p) : AgreeTo n (q >>= f) (p >>= f) := fun s hs => by
  rcases hp : p s with ⟨e | x, r⟩
  · rw [bind_of_error hp, bind_of_error ((h s hs).trans hp)]
  · rw [bind_of_ok hp, bind_of_ok ((h s hs).trans hp)]

theorem same_parseN {n : Nat} {q p : P α} (h : AgreeTo n q p) (he : Eats 0 p) : ∀ k, AgreeTo n (parseN k q) (parseN k p)
  | 0 => same_refl n _
  | k + 1 => h.bind he fun _ => (same_parseN h he k).before

theorem same_vec {n : Nat} {q p : P α} (h : AgreeTo n q p) (he : Eats 0 p) : AgreeTo n (parseVec q) (parseVec p) :=
  AgreeTo.after (eats_good good_u32) fun k => same_parseN h he k.toNat

theorem same_unwrapping {n : Nat} {q p : P α} (h : AgreeTo n q p) (he : Eats 0 p) :
    AgreeTo n (parseUnwrappingVec (fun x => x) q) (parseUnwrappingVec (fun x => x) p) :=
  AgreeTo.after (eats_good good_u32) fun k => same_parseN h.before (he.bind (l := 0) fun _ => eats_good (good_pure _)) k.toNat

theorem same_sized {n : Nat} {q p : P α} (h : AgreeTo n q p) : AgreeTo n (parseSized q) (parseSized p) := by
  refine AgreeTo.after (eats_good good_u32) fun k s hs => ?_
  have : q (s.take k.toNat) = p (s.take k.toNat) := h _ (by rw [List.length_take]; omega)
  simp only [this]

/-- The window of a sized element has less than 2^32 bytes. -/
theorem same_window {q p : P α} (h : AgreeTo (2 ^ 32 - 1) q p) : parseSized q = parseSized p := by
  funext s
  refine (same_refl s.length parseU32).bind (k := 0) (eats_good good_u32) (fun k s hs => ?_) s (Nat.le_refl _)
  have : q (s.take k.toNat) = p (s.take k.toNat) := h _ (by rw [List.length_take]; omega)
  simp only [this]

end

/-- A block reads two bytes before it is entered. -/
theorem same_instrOf {n : Nat} {q p : P SubExpr} (h : AgreeTo n q p) (he : Eats 0 p) : AgreeTo (n + 2) (instrOf q) (instrOf p) := by
  refine AgreeTo.after eats_byte fun b => ?_
  have hr : Eats 1 parseRetVal := by
    refine Eats.mono (k := 1 + 0) (eats_byte.bind fun b => ?_) (by omega)
    split
    · exact eats_good (good_pure _)
    · split
      · exact eats_good (good_pure _)
      · exact fun s x r e => by cases e
  have hexpr : AgreeTo n (exprOf q) (exprOf p) := h.before
  by_cases h2 : b.toNat = 2
  · unfold instrAt
    simp only [h2]
    exact AgreeTo.after hr fun ret => hexpr.before
  by_cases h3 : b.toNat = 3
  · unfold instrAt
    simp only [h3]
    exact AgreeTo.after hr fun ret => hexpr.before
  by_cases h4 : b.toNat = 4
  · unfold instrAt
    simp only [h4]
    refine AgreeTo.after hr fun ret => h.bind he fun x => AgreeTo.before ?_
    unfold elsePart
    split
    · exact h.before
    · exact same_refl _ _
  rw [(instrAt_leaf h2 h3 h4 q).1, ← (instrAt_leaf h2 h3 h4 p).1]
  exact same_refl _ _

theorem same_sub : ∀ fuel k, AgreeTo (2 * k) (parseSubExprOn fuel k) (parseSubExpr fuel)
  | 0, _ => same_refl _ _
  | fuel + 1, 0 => fun s hs => by
    cases s with
    | nil => rfl
    | cons b s => simp at hs
  | fuel + 1, k + 1 => by
    have hf : Eats 0 (instrOf (parseSubExpr fuel)) := eats_good (good_instrOf (good_subExpr fuel))
    refine (same_instrOf (same_sub fuel k) (eats_good (good_subExpr fuel))).bind hf fun i => ?_
    have := same_sub fuel (k + 1)
    unfold subStep
    split
    · exact same_refl _ _
    · exact same_refl _ _
    · exact this.before

theorem same_expr (k : Nat) : AgreeTo (2 * k) (parseExprOn k) parseExpr := fun s hs => (same_sub (s.length + 1) k).before s hs

/-! Sections whose expressions are parsed alike. -/

section
variable {n k : Nat} (h : AgreeTo n (parseExprOn k) parseExpr)
include h

theorem same_func : AgreeTo n (parseFuncOn k) parseFunc := AgreeTo.after (eats_good (good_compactVec good_val)) fun _ => h.before
theorem same_global : AgreeTo n (parseGlobalOn k) parseGlobal := AgreeTo.after (eats_good good_globalTy) fun _ => AgreeTo.before h
theorem same_elem : AgreeTo n (parseElemOn k) parseElem := AgreeTo.after (eats_good good_idx) fun _ => AgreeTo.before h
theorem same_data : AgreeTo n (parseDataOn k) parseData := AgreeTo.after (eats_good good_idx) fun _ => AgreeTo.before h

theorem same_contents : AgreeTo n (parseVec (parseGlobalOn k)) (parseVec parseGlobal) ∧ AgreeTo n (parseVec (parseElemOn k)) (parseVec parseElem) ∧
    AgreeTo n (parseUnwrappingVec (fun f : Func => f) (parseSized (parseFuncOn k))) (parseUnwrappingVec (fun f : Func => f) (parseSized parseFunc)) ∧
    AgreeTo n (parseVec (parseDataOn k)) (parseVec parseData) :=
  ⟨same_vec (same_global h) (eats_good good_global), same_vec (same_elem h) (eats_good good_elem),
    same_unwrapping (same_sized (same_func h)) (eats_good (good_sized good_func)), same_vec (same_data h) (eats_good good_data)⟩

end

theorem same_section {n k : Nat} (h1 : AgreeTo n (parseSized (parseVec (parseGlobalOn k))) (parseSized (parseVec parseGlobal)))
    (h2 : AgreeTo n (parseSized (parseVec (parseElemOn k))) (parseSized (parseVec parseElem)))
    (h3 : AgreeTo n (parseSized (parseUnwrappingVec (fun f : Func => f) (parseSized (parseFuncOn k))))
      (parseSized (parseUnwrappingVec (fun f : Func => f) (parseSized parseFunc))))
    (h4 : AgreeTo n (parseSized (parseVec (parseDataOn k))) (parseSized (parseVec parseData))) (id : Byte) (st : LoopState) :
    AgreeTo n (parseSectionOn k id st) (parseSection id st) := by
  unfold parseSectionOn
  by_cases h6 : id.toNat = 6
  · simp only [h6]
    unfold parseSection
    simp only [h6]
    exact h1.before
  by_cases h9 : id.toNat = 9
  · simp only [h9]
    unfold parseSection
    simp only [h9]
    exact h2.before
  by_cases h10 : id.toNat = 10
  · simp only [h10]
    unfold parseSection
    simp only [h10]
    exact h3.before
  by_cases h11 : id.toNat = 11
  · simp only [h11]
    unfold parseSection
    simp only [h11]
    exact h4.before
  generalize id.toNat = i at *
  split <;> first | contradiction | exact same_refl _ _

theorem same_loop {n k : Nat} (h : ∀ id st, AgreeTo n (parseSectionOn k id st) (parseSection id st)) :
    ∀ fuel st, AgreeTo n (sectionLoopOn k fuel st) (sectionLoop fuel st)
  | 0, _ => same_refl _ _
  | fuel + 1, st => fun s hs => by
    cases s with
    | nil => rfl
    | cons b s =>
      have hi : AgreeTo n (parseIterationOn k st) (parseIteration st) := by
        refine AgreeTo.after (k := 0) (eats_good good_byte) fun id => ?_
        split
        · split
          · exact same_refl _ _
          · exact h id _
        · exact h id _
      exact hi.bind (eats_forward (safe_iteration st).forward) (fun st' => same_loop h fuel st') (b :: s) hs

theorem same_module {n k : Nat} (h : ∀ id st, AgreeTo n (parseSectionOn k id st) (parseSection id st)) : AgreeTo n (parseModuleOn k) parseModule := by
  refine AgreeTo.after (k := 0) (eats_good (good_parseN good_byte 4)) fun magic => ?_
  split
  · exact same_refl _ _
  · refine AgreeTo.after (k := 0) (eats_good (good_parseN good_byte 4)) fun version => ?_
    split
    · exact same_refl _ _
    · exact fun s hs => same_loop h (s.length + 1) {} s hs

/-! ## Validation -/

section
variable {α β : Type}

/-- The validator `q` with a bounded stack aborts, unless `p` reports an error before it gets there. -/
def Aborts (q p : V α) : Prop := ∀ c, q c = .error .panic ∨ q c = p c ∧ ∃ e, p c = .error e

/-- `q` agrees with `p` if `b`, and otherwise aborts. -/
def LimV (q p : V α) (b : Prop) : Prop := (b → q = p) ∧ (¬ b → Aborts q p)

theorem Aborts.left {q p : V α} (g f : α → V β) (h : Aborts q p) : Aborts (q >>= g) (p >>= f) := fun c => by
  show V.bind q g c = _ ∨ V.bind q g c = V.bind p f c ∧ ∃ e, V.bind p f c = _
  unfold V.bind
  rcases h c with h | ⟨h, e, he⟩
  · rw [h]; exact .inl rfl
  · rw [h, he]; exact .inr ⟨rfl, e, rfl⟩

theorem Aborts.right {p : V α} {g f : α → V β} (h : ∀ x, Aborts (g x) (f x)) : Aborts (p >>= g) (p >>= f) := fun c => by
  show V.bind p g c = _ ∨ V.bind p g c = V.bind p f c ∧ ∃ e, V.bind p f c = _
  unfold V.bind
  rcases p c with e | ⟨x, c'⟩
  · exact .inr ⟨rfl, e, rfl⟩
  · exact h x c'

theorem limV_same (p : V α) : LimV p p True := ⟨fun _ => rfl, fun h => absurd trivial h⟩

theorem LimV.congr {q p : V α} {a b : Prop} (h : LimV q p a) (e : a ↔ b) : LimV q p b := by
  rwa [← propext e]

theorem LimV.bind {q p : V α} {g f : α → V β} {a b : Prop} (h : LimV q p a) (hf : ∀ x, LimV (g x) (f x) b) : LimV (q >>= g) (p >>= f) (a ∧ b) := by
  refine ⟨fun ⟨ha, hb⟩ => ?_, fun hab => ?_⟩
  · rw [h.1 ha, funext fun x => (hf x).1 hb]
  · by_cases ha : a
    · rw [h.1 ha]
      exact .right fun x => (hf x).2 fun hb => hab ⟨ha, hb⟩
    · exact (h.2 ha).left g f

theorem LimV.before {q p : V α} {f : α → V β} {a : Prop} (h : LimV q p a) : LimV (q >>= f) (p >>= f) a :=
  (h.bind fun x => limV_same (f x)).congr (by simp)

theorem LimV.after {p : V α} {g f : α → V β} {b : Prop} (h : ∀ x, LimV (g x) (f x) b) : LimV (p >>= g) (p >>= f) b :=
  ((limV_same p).bind h).congr (by simp)

theorem limV_nested {q : Nat → V Unit} {p : V Unit} {d : Nat} (h : ∀ n, LimV (q n) p (d ≤ n)) (k : Nat) : LimV (nestedV k q) p (1 + d ≤ k) := by
  cases k with
  | zero => exact ⟨fun h => by omega, fun _ c => .inl rfl⟩
  | succ n => exact (h n).congr (by omega)

theorem limV_forEach {q p : α → V Unit} {a : α → Prop} (h : ∀ x, LimV (q x) (p x) (a x)) :
    ∀ l : List α, LimV (forEach q l) (forEach p l) (∀ x ∈ l, a x)
  | [] => (limV_same _).congr (by simp)
  | x :: l => ((h x).bind fun _ => limV_forEach h l).congr (by simp)

end

mutual

theorem limV_instr : ∀ (i : Instr) (k : Nat), LimV (validateInstrOn i k) (validateInstr i) (depthI i ≤ k)
  | .block ret body, k => by
    unfold validateInstrOn validateInstr
    exact LimV.after fun _ => LimV.after fun _ => (limV_nested (limV_list body) k).before
  | .loop ret body, k => by
    unfold validateInstrOn validateInstr
    exact LimV.after fun _ => LimV.after fun _ => (limV_nested (limV_list body) k).before
  | .ifElse ret thn els, k => by
    unfold validateInstrOn validateInstr
    refine LimV.congr (LimV.after fun _ => LimV.after fun _ => LimV.after fun _ => (limV_nested (limV_list thn) k).bind fun _ =>
      LimV.after fun _ => (limV_nested (limV_list els) k).before) ?_
    simp only [depthI]
    omega
  | .unreachable, k | .nop, k | .elseMark, k | .endMark, k | .br _, k | .brIf _, k | .brTable _ _, k | .ret, k | .call _, k | .callIndirect _ _, k
  | .drop, k | .select, k | .localGet _, k | .localSet _, k | .localTee _, k | .globalGet _, k | .globalSet _, k | .load _ _ _, k | .store _ _ _, k
  | .memSize _, k | .memGrow _, k | .constI32 _, k | .constI64 _, k | .constF32 _, k | .constF64 _, k | .num _, k =>
    (limV_same _).congr (by simp [depthI])

theorem limV_list : ∀ (e : List Instr) (k : Nat), LimV (validateExprOn e k) (validateExpr e) (depthL e ≤ k)
  | [], k => (limV_same _).congr (by simp [depthL])
  | i :: is, k => by
    unfold validateExprOn validateExpr
    refine ((limV_instr i k).bind fun _ => limV_list is k).congr ?_
    simp only [depthL]
    omega

end

theorem limV_func (k : Nat) (f : Func) : LimV (validateFuncOn k f) (validateFunc f) (depthL f.body ≤ k) :=
  LimV.after fun _ => LimV.after fun _ => LimV.after fun _ => (limV_list f.body k).before

theorem limV_module (k : Nat) (m : Module) : LimV (validateModuleBodyOn k m) (validateModuleBody m) (∀ f ∈ m.funcs, depthL f.body ≤ k) :=
  LimV.after fun _ => (limV_forEach (fun f => (limV_func k f).before) m.funcs).before

end Whasm
