import Verif.Model.Scope
import Verif.Lemmas.Native

/-!
# Parsers with destructors
-/

namespace Whasm.Scope
open Spec

variable {α β : Type} {safe : Prop}

/-! ## Walks -/

theorem enter_iff (c room : Nat) (b : List Instr) (h : ∀ room, walkInstrs c b room = true ↔ c * depthL b ≤ room) :
    enter c room (walkInstrs c b) = true ↔ c * (1 + depthL b) ≤ room := by
  rw [enter, Bool.and_eq_true, decide_eq_true_iff, h, Nat.mul_add]
  omega

theorem mul_max {c a b room : Nat} : c * max a b ≤ room ↔ c * a ≤ room ∧ c * b ≤ room := by
  rcases Nat.le_total a b with h | h
  · rw [Nat.max_eq_right h]
    exact ⟨fun hh => ⟨Nat.le_trans (Nat.mul_le_mul_left c h) hh, hh⟩, fun h => h.2⟩
  · rw [Nat.max_eq_left h]
    exact ⟨fun hh => ⟨hh, Nat.le_trans (Nat.mul_le_mul_left c h) hh⟩, fun h => h.1⟩

mutual

theorem walk_instr (c : Nat) : ∀ i room, walkInstr c i room = true ↔ c * depthI i ≤ room
  | .block _ b, room => by simp only [walkInstr, depthI]; exact enter_iff c room b (walk_instrs c b)
  | .loop _ b, room => by simp only [walkInstr, depthI]; exact enter_iff c room b (walk_instrs c b)
  | .ifElse _ b b', room => by
    simp only [walkInstr, depthI, Bool.and_eq_true]
    rw [enter_iff c room b (walk_instrs c b), enter_iff c room b' (walk_instrs c b'), ← mul_max]
    have : 1 + max (depthL b) (depthL b') = max (1 + depthL b) (1 + depthL b') := by omega
    rw [this]
  | .unreachable, _ | .nop, _ | .elseMark, _ | .endMark, _ | .br _, _ | .brIf _, _ | .brTable _ _, _ | .ret, _ | .call _, _ | .callIndirect _ _, _ | .drop, _ | .select, _
  | .localGet _, _ | .localSet _, _ | .localTee _, _ | .globalGet _, _ | .globalSet _, _ | .load _ _ _, _ | .store _ _ _, _ | .memSize _, _ | .memGrow _, _
  | .constI32 _, _ | .constI64 _, _ | .constF32 _, _ | .constF64 _, _ | .num _, _ => by simp [walkInstr, depthI]

theorem walk_instrs (c : Nat) : ∀ is room, walkInstrs c is room = true ↔ c * depthL is ≤ room
  | [], room => by simp [walkInstrs, depthL]
  | i :: is, room => by
    simp only [walkInstrs, depthL, Bool.and_eq_true]
    rw [walk_instr c i, walk_instrs c is, ← mul_max]

end

/-! ## Parsers -/

/-- `q`, with destructors, does the same as `p`, without; unless `p` fails and there is not room enough to drop what there is, which does not happen under `safe`. Results are `small`. -/
def Rel (safe : Prop) (q p : P α) (small : α → Prop) : Prop := ∀ s,
  (q s = p s ∨ (¬ safe ∧ (∃ e, (p s).1 = .error e) ∧ (q s).1 = .error .panic)) ∧ ∀ x r, p s = (.ok x, r) → small x

theorem Rel.refl {p : P α} {A : α → Prop} (h : ∀ s x r, p s = (.ok x, r) → A x) : Rel safe p p A := fun s => ⟨.inl rfl, h s⟩

theorem Rel.any (p : P α) : Rel safe p p fun _ => True := .refl fun _ _ _ _ => trivial

theorem Rel.fail {e : Error} {A : α → Prop} : Rel safe (P.fail e) (P.fail e) A := .refl fun _ _ _ h => by cases h

theorem Rel.pure {x : α} {A : α → Prop} (h : A x) : Rel safe (pure x : P α) (Pure.pure x) A := .refl fun _ _ _ e => by cases e; exact h

theorem Rel.bind {q p : P α} {g f : α → P β} {A : α → Prop} {B : β → Prop} (h : Rel safe q p A) (h1 : ∀ x, A x → Rel safe (g x) (f x) B) :
    Rel safe (q >>= g) (p >>= f) B := by
  intro s
  obtain ⟨hs, hA⟩ := h s
  rcases hp : p s with ⟨e | x, r⟩
  · refine ⟨?_, fun y r' hy => by rw [bind_of_error hp] at hy; cases hy⟩
    rw [bind_of_error hp]
    rcases hs with hs | ⟨hn, -, hs⟩
    · rw [bind_of_error (hs.trans hp)]; exact .inl rfl
    · refine .inr ⟨hn, ⟨e, rfl⟩, ?_⟩
      rcases hq : q s with ⟨e', r'⟩
      rw [hq] at hs
      cases hs
      rw [bind_of_error hq]
  · rw [bind_of_ok hp]
    rcases hs with hs | ⟨-, ⟨e, he⟩, -⟩
    · rw [bind_of_ok (hs.trans hp)]
      exact h1 x (hA x r hp) r
    · rw [hp] at he; cases he

theorem Rel.after {p : P α} {g f : α → P β} {B : β → Prop} (h : ∀ x, Rel safe (g x) (f x) B) : Rel safe (p >>= g) (p >>= f) B :=
  (Rel.any p).bind fun x _ => h x

theorem Rel.map {q p : P α} {A : α → Prop} {B : β → Prop} {f : α → β} (h : Rel safe q p A) (hf : ∀ x, A x → B (f x)) :
    Rel safe (q >>= fun x => Pure.pure (f x)) (p >>= fun x => Pure.pure (f x)) B :=
  h.bind fun x hx => .pure (hf x hx)

theorem Rel.mono {q p : P α} {A B : α → Prop} (h : Rel safe q p A) (e : ∀ x, A x → B x) : Rel safe q p B :=
  fun s => ⟨(h s).1, fun x r hx => e x ((h s).2 x r hx)⟩

theorem Rel.scope {q p : P α} {A : α → Prop} {fits : Bool} (h : Rel safe q p A) (hf : safe → fits = true) : Rel safe (scope fits q) p A := by
  intro s
  obtain ⟨hs, hA⟩ := h s
  refine ⟨?_, hA⟩
  unfold Scope.scope
  rcases hs with hs | ⟨hn, he, hs⟩
  · rw [hs]
    rcases hp : p s with ⟨e | x, r⟩
    · cases fits with
      | true => exact .inl rfl
      | false => exact .inr ⟨fun h => (by cases hf h), ⟨e, rfl⟩, rfl⟩
    · exact .inl rfl
  · refine .inr ⟨hn, he, ?_⟩
    rcases hq : q s with ⟨e', r'⟩
    rw [hq] at hs
    cases hs
    cases fits <;> rfl

theorem bind_assoc {γ : Type} (p : P α) (f : α → P β) (g : β → P γ) : (p >>= f) >>= g = p >>= fun x => f x >>= g := by
  funext s
  rcases h : p s with ⟨e | x, r⟩
  · rw [bind_of_error h, bind_of_error (bind_of_error h)]
  · rw [bind_of_ok h]
    rcases h' : f x r with ⟨e | y, r'⟩
    · rw [bind_of_error h', bind_of_error (by rw [bind_of_ok h]; exact h')]
    · rw [bind_of_ok h', bind_of_ok (by rw [bind_of_ok h]; exact h')]

theorem bind_pure (p : P α) : (p >>= fun x => pure x) = p := by
  funext s
  rcases h : p s with ⟨e | x, r⟩
  · rw [bind_of_error h]
  · rw [bind_of_ok h]; rfl

theorem rel_parseN {q p : P α} {A : α → Prop} {fits : List α → Bool} (h : Rel safe q p A) (hf : safe → ∀ l, (∀ x ∈ l, A x) → fits l = true) :
    ∀ n acc, (∀ x ∈ acc, A x) → Rel safe (parseN fits n q acc) (Whasm.parseN n p >>= fun l => pure (acc ++ l)) fun l => ∀ x ∈ l, A x
  | 0, acc, ha => by
    show Rel safe (pure acc) (pure (acc ++ [])) _
    rw [List.append_nil]
    exact .pure ha
  | n + 1, acc, ha => by
    show Rel safe (Scope.scope (fits acc) q >>= _) ((p >>= fun x => Whasm.parseN n p >>= fun xs => pure (x :: xs)) >>= _) _
    rw [bind_assoc]
    refine (h.scope fun hs => hf hs acc ha).bind fun x hx => ?_
    rw [bind_assoc]
    have := rel_parseN h hf n (acc ++ [x]) (by simpa [or_imp, forall_and] using ⟨ha, hx⟩)
    have e : (fun l : List α => (pure (acc ++ [x] ++ l) : P (List α))) = fun l => pure (acc ++ x :: l) := by
      funext l; rw [List.append_assoc]; rfl
    rw [e] at this
    exact this

theorem rel_vec {q p : P α} {A : α → Prop} {fits : List α → Bool} (h : Rel safe q p A) (hf : safe → ∀ l, (∀ x ∈ l, A x) → fits l = true) :
    Rel safe (parseVec fits q) (Whasm.parseVec p) fun l => ∀ x ∈ l, A x := by
  refine .after fun n => ?_
  have := rel_parseN h hf n.toNat [] (by simp)
  simp only [List.nil_append] at this
  rw [bind_pure] at this
  exact this

theorem rel_unwrapping {q p : P α} {A : α → Prop} {fits : List α → Bool} (h : Rel safe q p A) (hf : safe → ∀ l, (∀ x ∈ l, A x) → fits l = true) :
    Rel safe (parseVec fits q) (Whasm.parseUnwrappingVec (fun x => x) p) fun l => ∀ x ∈ l, A x := by
  have := rel_vec h hf
  unfold Whasm.parseVec at this
  unfold Whasm.parseUnwrappingVec
  rw [bind_pure p]
  exact this

theorem rel_sized {q p : P α} {A : α → Prop} {fits : α → Bool} (h : Rel safe q p A) (hf : safe → ∀ x, A x → fits x = true) :
    Rel safe (parseSized fits q) (Whasm.parseSized p) A := by
  refine .after fun size => fun s => ?_
  obtain ⟨hs, hA⟩ := h (s.take size.toNat)
  rcases hp : p (s.take size.toNat) with ⟨e | x, r⟩
  · refine ⟨?_, fun _ _ h => by simp only [hp] at h; cases h⟩
    rcases hs with hs | ⟨hn, -, hs⟩
    · exact .inl (by simp only [hs, hp])
    · rcases hq : q (s.take size.toNat) with ⟨e', r'⟩
      rw [hq] at hs
      cases hs
      exact .inr ⟨hn, ⟨e, by simp only [hp]⟩, by simp only [hq]⟩
  · rcases hs with hs | ⟨-, ⟨e, he⟩, -⟩
    · refine ⟨?_, fun y r' h => ?_⟩
      · by_cases hc : size.toNat = (s.take size.toNat).length - r.length
        · exact .inl (by simp only [hs, hp, ← hc, ne_eq, not_true_eq_false, if_false])
        · cases hfx : fits x with
          | true => exact .inl (by simp only [hs, hp, hfx, if_true])
          | false =>
            refine .inr ⟨fun h => ?_, ⟨_, by simp only [hp, ne_eq, hc, not_false_eq_true, if_true]; rfl⟩, ?_⟩
            · rw [hf h x (hA x r hp)] at hfx; cases hfx
            · simp only [hs, hp, hfx, ne_eq, hc, not_false_eq_true, if_true]
              rfl
      · simp only [hp] at h
        split at h <;> cases h
        exact hA x r hp
    · rw [hp] at he; cases he

/-! ## Instructions -/

variable {F : Frames} {q p : P SubExpr} {room : Nat}

theorem rel_exprOf {A : Expr → Prop} (h : Rel safe q p fun x => A x.body) (hf : safe → ∀ e, A e → walkInstrs F.drop e room = true) :
    Rel safe (exprOf F room q) (Whasm.exprOf p) A := by
  refine h.bind fun x hx => ?_
  obtain ⟨body, next⟩ := x
  have key : ∀ e, Rel safe (Scope.scope (walkInstrs F.drop body room) (P.fail e)) (P.fail e) A := fun e => Rel.fail.scope fun hs => hf hs body hx
  cases next with
  | endMark => exact .pure hx
  | elseMark => exact key _
  | _ => exact key _

theorem rel_ifOf {k : Nat} (h : Rel safe q p fun x => depthL x.body + 1 ≤ k) (hf : safe → ∀ e, depthL e + 1 ≤ k → walkInstrs F.drop e room = true) :
    Rel safe (ifOf F room q) (Whasm.ifOf p) fun i => depthI i ≤ k := by
  refine .after fun ret => h.bind fun x hx => ?_
  have he : Rel safe (elsePart q x) (elsePart p x) fun bn => depthL bn.1 + 1 ≤ k := by
    unfold elsePart
    split
    · exact h.map fun _ h => h
    · exact .pure (by simp only [depthL]; omega)
  refine (he.scope fun hs => hf hs _ hx).bind fun bn hb => ?_
  split
  · exact .pure (by simp only [depthI]; omega)
  · exact Rel.fail.scope fun hs => by rw [hf hs _ hb, hf hs _ hx]; rfl

theorem rel_instrOf {k : Nat} (h : Rel safe q p fun x => depthL x.body + 1 ≤ k) (hf : safe → ∀ e, depthL e + 1 ≤ k → walkInstrs F.drop e room = true) :
    Rel safe (instrOf F room q) (Whasm.instrOf p) fun i => depthI i ≤ k := by
  refine .after fun b => ?_
  have he := rel_exprOf (A := fun e => depthL e + 1 ≤ k) h hf
  by_cases h2 : b.toNat = 2
  · unfold instrAt
    simp only [h2]
    exact .after fun ret => he.map fun e h => by simp only [depthI]; omega
  by_cases h3 : b.toNat = 3
  · unfold instrAt
    simp only [h3]
    exact .after fun ret => he.map fun e h => by simp only [depthI]; omega
  by_cases h4 : b.toNat = 4
  · unfold instrAt
    simp only [h4]
    exact rel_ifOf h hf
  have e : ∀ a1 a2 a3 : P Instr, (match b.toNat with | 0x02 => a1 | 0x03 => a2 | 0x04 => a3 | _ => instrAt q b) = instrAt q b := by
    intro a1 a2 a3
    split <;> first | contradiction | rfl
  show Rel safe (match b.toNat with | 0x02 => _ | 0x03 => _ | 0x04 => _ | _ => instrAt q b) _ _
  rw [e, (instrAt_leaf h2 h3 h4 q).1, ← (instrAt_leaf h2 h3 h4 p).1]
  exact .refl fun s x r e => by rw [(instrAt_leaf h2 h3 h4 p).2 s x r e]; omega

theorem depth_append : ∀ a b : List Instr, depthL (a ++ b) = max (depthL a) (depthL b)
  | [], b => by simp [depthL]
  | i :: a, b => by simp only [List.cons_append, depthL, depth_append a b]; omega

/-- One level less. -/
theorem levels_sub (hc : F.parse ≤ room) : room / F.parse = (room - F.parse) / F.parse + 1 := by
  have := Nat.sub_mul_div room F.parse 1
  rw [Nat.mul_one] at this
  have h : 1 ≤ room / F.parse := (Nat.le_div_iff_mul_le F.parse_pos).mpr (by omega)
  omega

theorem fits_level {e : Expr} (hs : F.drop ≤ F.parse) (h : depthL e ≤ room / F.parse) : walkInstrs F.drop e room = true := by
  rw [walk_instrs]
  exact Nat.le_trans (Nat.mul_le_mul hs h) (Nat.mul_div_le _ _)

theorem fits_inside {e : Expr} (hs : F.drop ≤ F.parse) (h : depthL e + 1 ≤ room / F.parse) : walkInstrs F.drop e (room - F.parse) = true := by
  have hc : F.parse ≤ room := by
    have : F.parse * 1 ≤ F.parse * (room / F.parse) := Nat.mul_le_mul_left _ (by omega)
    have := Nat.mul_div_le room F.parse
    omega
  refine fits_level hs ?_
  rw [levels_sub hc] at h
  omega

theorem rel_sub : ∀ fuel room acc, depthL acc ≤ room / F.parse →
    Rel (F.drop ≤ F.parse) (parseSubExpr F fuel room acc) (parseSubExprOn fuel (room / F.parse) >>= fun se => pure ⟨acc ++ se.body, se.next⟩)
      fun x => depthL x.body ≤ room / F.parse
  | 0, room, acc, ha => by
    show Rel _ (Scope.scope _ _) (P.fail .fuel) _
    exact Rel.fail.scope fun hs => fits_level hs ha
  | fuel + 1, room, acc, ha => by
    have hn : Rel (F.drop ≤ F.parse) (nested F.parse room fun room => parseSubExpr F fuel room []) (nestedOn (room / F.parse) (parseSubExprOn fuel))
        fun x => depthL x.body + 1 ≤ room / F.parse := by
      unfold nested
      by_cases hc : F.parse ≤ room
      · rw [if_pos hc, levels_sub hc]
        have := rel_sub fuel (room - F.parse) [] (by simp [depthL])
        simp only [List.nil_append] at this
        rw [bind_pure] at this
        exact this.mono fun x h => by omega
      · rw [if_neg hc, Nat.div_eq_of_lt (by omega)]
        exact Rel.fail
    have hi := (rel_instrOf (F := F) (room := room - F.parse) hn fun hs e he => fits_inside hs he).scope (fits := walkInstrs F.drop acc room) fun hs => fits_level hs ha
    show Rel _ (Scope.scope _ _ >>= _) ((Whasm.instrOf _ >>= fun next => subStep (parseSubExprOn fuel (room / F.parse)) next) >>= _) _
    rw [bind_assoc]
    refine hi.bind fun i hi => ?_
    have hpush : Rel (F.drop ≤ F.parse) (parseSubExpr F fuel room (acc ++ [i]))
        ((parseSubExprOn fuel (room / F.parse) >>= fun rest => pure (⟨i :: rest.body, rest.next⟩ : SubExpr)) >>= fun se => pure ⟨acc ++ se.body, se.next⟩)
        fun x => depthL x.body ≤ room / F.parse := by
      have := rel_sub fuel room (acc ++ [i]) (by rw [depth_append]; simp only [depthL]; omega)
      rw [bind_assoc]
      have e : (fun se : SubExpr => (pure ⟨acc ++ [i] ++ se.body, se.next⟩ : P SubExpr)) = fun se => pure ⟨acc ++ i :: se.body, se.next⟩ := by
        funext l; rw [List.append_assoc]; rfl
      rw [e] at this
      exact this
    cases i with
    | endMark =>
      show Rel _ (pure _) (pure (⟨acc ++ [], _⟩ : SubExpr)) _
      rw [List.append_nil]
      exact .pure ha
    | elseMark =>
      show Rel _ (pure _) (pure (⟨acc ++ [], _⟩ : SubExpr)) _
      rw [List.append_nil]
      exact .pure ha
    | _ => exact hpush

theorem rel_expr (F : Frames) (room : Nat) : Rel (F.drop ≤ F.parse) (parseExpr F room) (parseExprOn (room / F.parse)) fun e => depthL e ≤ room / F.parse := by
  intro s
  have := rel_sub (F := F) (s.length + 1) room [] (by simp [depthL])
  simp only [List.nil_append] at this
  rw [bind_pure] at this
  exact rel_exprOf (A := fun e => depthL e ≤ room / F.parse) this (fun hs e he => fits_level hs he) s

/-! ## Modules -/

theorem rel_func (F : Frames) (room : Nat) : Rel (F.drop ≤ F.parse) (parseFunc F room) (parseFuncOn (room / F.parse)) fun f => depthL f.body ≤ room / F.parse :=
  .after fun _ => (rel_expr F room).map fun _ h => h

theorem rel_const (F : Frames) (room : Nat) : Rel (F.drop ≤ F.parse) (parseConstExpr F room) (parseConstExprOn (room / F.parse)) fun e => depthL e ≤ room / F.parse :=
  rel_expr F room

theorem rel_global (F : Frames) (room : Nat) : Rel (F.drop ≤ F.parse) (parseGlobal F room) (parseGlobalOn (room / F.parse)) fun g => depthL g.init ≤ room / F.parse :=
  .after fun _ => (rel_const F room).map fun _ h => h

theorem rel_elem (F : Frames) (room : Nat) : Rel (F.drop ≤ F.parse) (parseElem F room) (parseElemOn (room / F.parse)) fun g => depthL g.offset ≤ room / F.parse :=
  .after fun _ => (rel_const F room).bind fun _ he => ((Rel.any _).scope fun hs => fits_level hs he).map fun _ _ => he

theorem rel_data (F : Frames) (room : Nat) : Rel (F.drop ≤ F.parse) (parseData F room) (parseDataOn (room / F.parse)) fun g => depthL g.offset ≤ room / F.parse :=
  .after fun _ => (rel_const F room).bind fun _ he => ((Rel.any _).scope fun hs => fits_level hs he).map fun _ _ => he

theorem walk_module {c : Nat} {m : Module} {room : Nat} : walkModule c m room = true ↔ (∀ f ∈ m.funcs, c * depthL f.body ≤ room) ∧
    (∀ g ∈ m.globals, c * depthL g.init ≤ room) ∧ (∀ e ∈ m.elem, c * depthL e.offset ≤ room) ∧ ∀ d ∈ m.data, c * depthL d.offset ≤ room := by
  simp [walkModule, walk_instrs, and_assoc]

theorem fits_module {m : Module} (hs : F.drop ≤ F.parse) (h : NestsAtMost (room / F.parse) m) : walkModule F.drop m room = true := by
  have key : ∀ d, d ≤ room / F.parse → F.drop * d ≤ room := fun d hd => Nat.le_trans (Nat.mul_le_mul hs hd) (Nat.mul_div_le _ _)
  exact walk_module.mpr ⟨fun x hx => key _ (h.funcs x hx), fun x hx => key _ (h.globals x hx), fun x hx => key _ (h.elem x hx), fun x hx => key _ (h.data x hx)⟩

theorem ok_small {q p : P α} {B : α → Prop} (h : Lim q p B) {s : List Byte} {x : α} {r : List Byte} (hq : q s = (.ok x, r)) : B x := by
  rcases h s with ⟨h1, -⟩ | ⟨h1, h2⟩
  · rw [hq] at h1; cases h1
  · exact h2 x r (h1 ▸ hq)

theorem rel_section (id : Byte) {st : LoopState} (hn : NestsAtMost (room / F.parse) st.result) :
    Rel (F.drop ≤ F.parse) (parseSection F room id st) (parseSectionOn (room / F.parse) id st) fun st' => NestsAtMost (room / F.parse) st'.result := by
  have hl := lim_section (k := room / F.parse) id hn
  suffices h : Rel (F.drop ≤ F.parse) (parseSection F room id st) (parseSectionOn (room / F.parse) id st) fun _ => True from
    fun s => ⟨(h s).1, fun x r hx => ok_small hl hx⟩
  by_cases h6 : id.toNat = 6
  · unfold parseSection parseSectionOn
    simp only [h6]
    have hf : F.drop ≤ F.parse → ∀ l : List Global, (∀ x ∈ l, depthL x.init ≤ room / F.parse) → (l.all fun g => walkInstrs F.drop g.init room) = true :=
      fun hs l hl => List.all_eq_true.mpr fun x hx => fits_level hs (hl x hx)
    exact (rel_sized (rel_vec (rel_global F room) hf) hf).map fun _ _ => trivial
  by_cases h9 : id.toNat = 9
  · unfold parseSection parseSectionOn
    simp only [h9]
    have hf : F.drop ≤ F.parse → ∀ l : List Elem, (∀ x ∈ l, depthL x.offset ≤ room / F.parse) → (l.all fun g => walkInstrs F.drop g.offset room) = true :=
      fun hs l hl => List.all_eq_true.mpr fun x hx => fits_level hs (hl x hx)
    exact (rel_sized (rel_vec (rel_elem F room) hf) hf).map fun _ _ => trivial
  by_cases h10 : id.toNat = 10
  · unfold parseSection parseSectionOn
    simp only [h10]
    have hf : F.drop ≤ F.parse → ∀ l : List Func, (∀ x ∈ l, depthL x.body ≤ room / F.parse) → (l.all fun g => walkInstrs F.drop g.body room) = true :=
      fun hs l hl => List.all_eq_true.mpr fun x hx => fits_level hs (hl x hx)
    refine (rel_sized (rel_unwrapping (rel_sized (rel_func F room) fun hs f h => fits_level hs h) hf) hf).bind fun x hx => ?_
    exact (Rel.any _).scope fun hs => hf hs x hx
  by_cases h11 : id.toNat = 11
  · unfold parseSection parseSectionOn
    simp only [h11]
    have hf : F.drop ≤ F.parse → ∀ l : List Data, (∀ x ∈ l, depthL x.offset ≤ room / F.parse) → (l.all fun g => walkInstrs F.drop g.offset room) = true :=
      fun hs l hl => List.all_eq_true.mpr fun x hx => fits_level hs (hl x hx)
    exact (rel_sized (rel_vec (rel_data F room) hf) hf).map fun _ _ => trivial
  have e : parseSection F room id st = Whasm.parseSection id st := by
    unfold parseSection
    generalize id.toNat = n at *
    split <;> first | contradiction | rfl
  have e' : parseSectionOn (room / F.parse) id st = Whasm.parseSection id st := by
    unfold parseSectionOn
    generalize id.toNat = n at *
    split <;> first | contradiction | rfl
  rw [e, e']
  exact .any _

theorem rel_iteration {st : LoopState} (hn : NestsAtMost (room / F.parse) st.result) :
    Rel (F.drop ≤ F.parse) (parseIteration F room st) (parseIterationOn (room / F.parse) st) fun st' => NestsAtMost (room / F.parse) st'.result := by
  refine Rel.scope ?_ fun hs => fits_module hs hn
  refine Rel.after fun id => ?_
  split
  · split
    · exact Rel.fail
    · exact rel_section id hn
  · exact rel_section id hn

theorem rel_loop : ∀ fuel {st : LoopState}, NestsAtMost (room / F.parse) st.result →
    Rel (F.drop ≤ F.parse) (sectionLoop F room fuel st) (sectionLoopOn (room / F.parse) fuel st) (NestsAtMost (room / F.parse))
  | 0, _, hn => Rel.fail.scope fun hs => fits_module hs hn
  | fuel + 1, st, hn => by
    intro s
    cases s with
    | nil => exact ⟨.inl rfl, fun x r h => by cases h; exact hn⟩
    | cons b s => exact ((rel_iteration hn).bind fun st' hs => rel_loop fuel hs) (b :: s)

theorem rel_module (F : Frames) (room : Nat) :
    Rel (F.drop ≤ F.parse) (parseModule F room) (parseModuleOn (room / F.parse)) (NestsAtMost (room / F.parse)) := by
  refine Rel.after fun magic => ?_
  split
  · exact Rel.fail
  · refine Rel.after fun version => ?_
    split
    · exact Rel.fail
    · exact fun s => rel_loop (s.length + 1) (st := {}) ⟨by simp, by simp, by simp, by simp⟩ s

end Whasm.Scope
