import Verif.Model.ValidModule
import Verif.Lemmas.Local

/-!
# Validation of any expression: no panic, declarations unchanged, number of frames
-/

namespace Whasm
open Spec

/-- Heights of frames decrease from `n` on. -/
def Heights (n : Nat) : List Frame → Prop
  | [] => True
  | f :: fs => f.height ≤ n ∧ Heights f.height fs

theorem Heights.mono {n k : Nat} (h : n ≤ k) : ∀ {fs : List Frame}, Heights n fs → Heights k fs
  | [], _ => trivial
  | _ :: _, ⟨h1, h2⟩ => ⟨Nat.le_trans h1 h, h2⟩

/-- The invariant of the two stacks. -/
def Inv (c : Ctx) : Prop := Heights c.operands.length c.frames

/-- The parts of the context that instructions do not change. -/
def Same (c c' : Ctx) : Prop :=
  { c' with operands := c.operands, frames := c.frames } = c

theorem Same.refl (c : Ctx) : Same c c := rfl

theorem Same.trans {a b c : Ctx} (h1 : Same a b) (h2 : Same b c) : Same a c := by
  unfold Same at *
  cases a; cases b; cases c
  simp only [Ctx.mk.injEq] at *
  obtain ⟨a1, a2, a3, a4, a5, a6, a7, _, _⟩ := h1
  obtain ⟨b1, b2, b3, b4, b5, b6, b7, _, _⟩ := h2
  exact ⟨b1.trans a1, b2.trans a2, b3.trans a3, b4.trans a4, b5.trans a5, b6.trans a6, b7.trans a7, trivial, trivial⟩

/-- `p` does not panic on contexts that satisfy the invariant and preserves it; it changes the stacks only; the number of frames changes
from `n` to `n + up - down`. -/
def Tame {α : Type} (p : V α) (up down : Nat) : Prop := ∀ c, Inv c →
  match p c with
  | .ok (_, c') => Inv c' ∧ Same c c' ∧ c'.frames.length + down = c.frames.length + up
  | .error e => e = .invalid

theorem Tame.ok {α : Type} {p : V α} {up down : Nat} (h : Tame p up down) {c c' : Ctx} {x : α} (hc : Inv c) (e : p c = .ok (x, c')) :
    Inv c' ∧ Same c c' ∧ c'.frames.length + down = c.frames.length + up := by
  have := h c hc
  rw [e] at this
  exact this

theorem Tame.err {α : Type} {p : V α} {up down : Nat} (h : Tame p up down) {c : Ctx} {e : VErr} (hc : Inv c) (he : p c = .error e) :
    e = .invalid := by
  have := h c hc
  rw [he] at this
  exact this

theorem Tame.bind {α β : Type} {p : V α} {f : α → V β} {u d u' d' : Nat} (h : Tame p u d) (hf : ∀ x, Tame (f x) u' d') :
    Tame (p >>= f) (u + u') (d + d') := by
  intro c hc
  cases hp : p c with
  | error e =>
    rw [bind_err hp]
    exact h.err hc hp
  | ok r =>
    obtain ⟨x, c1⟩ := r
    rw [bind_ok hp]
    obtain ⟨h1, h2, h3⟩ := h.ok hc hp
    have := hf x c1 h1
    cases hq : f x c1 with
    | error e => rw [hq] at this; exact this
    | ok r =>
      rw [hq] at this
      obtain ⟨k1, k2, k3⟩ := this
      exact ⟨k1, h2.trans k2, by omega⟩

theorem Tame.seq {α β : Type} {p : V α} {f : α → V β} {d d' : Nat} (h : Tame p 0 d) (hf : ∀ x, Tame (f x) 0 d') :
    Tame (p >>= f) 0 (d + d') := h.bind hf

theorem Tame.cast {α : Type} {p : V α} {u d u' d' : Nat} (h : Tame p u d) (e : u + d' = u' + d) : Tame p u' d' := by
  intro c hc
  have := h c hc
  split
  · next h' => rw [h'] at this; obtain ⟨a, b, k⟩ := this; exact ⟨a, b, by omega⟩
  · next h' => rw [h'] at this; exact this

theorem tame_pure {α : Type} (x : α) : Tame (pure x) 0 0 := fun _ hc => ⟨hc, .refl _, rfl⟩

theorem tame_fail {α : Type} (u d : Nat) : Tame (V.fail .invalid : V α) u d := fun _ _ => rfl

theorem tame_get : Tame V.get 0 0 := fun _ hc => ⟨hc, .refl _, rfl⟩

theorem tame_lookup {α : Type} (l : Ctx → List α) (i : Idx) : Tame (fun c => lookup (l c) i c) 0 0 := by
  intro c hc
  show (match lookup (l c) i c with | .ok (_, c') => _ | .error e => _)
  unfold lookup
  split
  · next h =>
    split at h
    · cases h
    · split at h <;> cases h
      exact ⟨hc, .refl _, rfl⟩
  · next h =>
    split at h
    · cases h; rfl
    · next hlt =>
      rw [List.getElem?_eq_getElem (by omega)] at h
      cases h

theorem tame_label (i : Idx) : Tame (validateLabel i) 0 0 := by
  intro c hc
  unfold validateLabel
  simp only
  split
  · next h =>
    split at h
    · cases h
    · split at h
      · cases h
      · split at h <;> cases h
        exact ⟨hc, .refl _, rfl⟩
  · next h =>
    split at h
    · cases h; rfl
    · split at h
      · omega
      · rw [List.getElem?_eq_getElem (by rw [List.length_reverse]; omega)] at h
        cases h

theorem tame_pushOperand (op : Operand) : Tame (pushOperand op) 0 0 := fun _ hc => ⟨hc.mono (Nat.le_succ _), rfl, rfl⟩

theorem tame_popOperand (op : Operand) : Tame (popOperand op) 0 0 := by
  intro c hc
  unfold popOperand
  obtain ⟨ty, fs, tb, ms, gs, ls, rt, ops, frs⟩ := c
  cases frs with
  | nil => rfl
  | cons f fs =>
    obtain ⟨h1, h2⟩ := hc
    simp only at h1 ⊢
    by_cases h3 : ops.length = f.height ∧ f.unreachable = true
    · rw [if_pos h3]; exact ⟨⟨h1, h2⟩, rfl, rfl⟩
    · rw [if_neg h3]
      by_cases h4 : ops.length = f.height
      · rw [if_pos h4]
      · rw [if_neg h4]
        cases ops with
        | nil => simp only [List.length_nil] at h1 h4; omega
        | cons v vs =>
          have hle : f.height ≤ vs.length := by simp only [List.length_cons] at h1 h4; omega
          cases v with
          | unknown => exact ⟨⟨hle, h2⟩, rfl, rfl⟩
          | val a =>
            cases op with
            | unknown => exact ⟨⟨hle, h2⟩, rfl, rfl⟩
            | val b =>
              by_cases hab : Operand.val a = Operand.val b
              · simp only [if_pos hab]; exact ⟨⟨hle, h2⟩, rfl, trivial⟩
              · simp only [if_neg hab]

theorem tame_pushOperands : ∀ vs : List Val, Tame (pushOperands vs) 0 0
  | [] => tame_pure ()
  | _ :: vs => (tame_pushOperand _).seq fun _ => tame_pushOperands vs

theorem tame_popReversed : ∀ vs : List Val, Tame (popReversed vs) 0 0
  | [] => tame_pure ()
  | _ :: vs => (tame_popOperand _).seq fun _ => tame_popReversed vs

theorem tame_popOperands (vs : List Val) : Tame (popOperands vs) 0 0 := tame_popReversed _

theorem tame_pushFrame (l o : List Val) : Tame (pushFrame l o) 1 0 := fun _ hc => ⟨⟨Nat.le_refl _, hc⟩, rfl, rfl⟩

theorem tame_setUnreachable : Tame setUnreachable 0 0 := by
  intro c hc
  unfold setUnreachable
  obtain ⟨ty, fs, tb, ms, gs, ls, rt, ops, frs⟩ := c
  cases frs with
  | nil => rfl
  | cons f fs =>
    obtain ⟨h1, h2⟩ := hc
    refine ⟨⟨?_, h2⟩, rfl, rfl⟩
    simp only [List.length_drop] at h1 ⊢
    omega

/-- The frames stay the same while operands are popped. -/
theorem popReversed_frames : ∀ (vs : List Val) {c c' : Ctx}, popReversed vs c = .ok ((), c') → c'.frames = c.frames
  | [], _, _, h => by cases h; rfl
  | v :: vs, c, c', h => by
    have h : (popOperand (.val v) >>= fun _ => popReversed vs) c = .ok ((), c') := h
    cases hp : popOperand (.val v) c with
    | error e => rw [bind_err hp] at h; cases h
    | ok r =>
      obtain ⟨x, c1⟩ := r
      rw [bind_ok hp] at h
      rw [popReversed_frames vs h]
      revert hp
      unfold popOperand
      intro hp
      split at hp
      · cases hp
      · split at hp
        · cases hp; rfl
        · split at hp
          · cases hp
          · split at hp
            · cases hp
            · split at hp
              · cases hp; rfl
              · cases hp; rfl
              · split at hp <;> cases hp
                rfl

theorem tame_popFrame : Tame popFrame 0 1 := by
  intro c hc
  have e : popFrame c = (match c.frames with
      | [] => V.fail .invalid
      | frame :: _ => popOperands frame.out >>= fun _ => V.get >>= fun c1 =>
        if c1.operands.length ≠ frame.height then V.fail .invalid
        else
          match c1.frames with
          | [] => V.fail .invalid
          | _ :: rest => do
            V.set { c1 with frames := rest }
            pure frame.out : V (List Val)) c := rfl
  rw [e]
  cases hf : c.frames with
  | nil => rfl
  | cons f fs =>
    simp only
    cases hp : popOperands f.out c with
    | error e => rw [bind_err hp]; exact (tame_popOperands _).err hc hp
    | ok r =>
      obtain ⟨x, c1⟩ := r
      rw [bind_ok hp, bind_ok (p := V.get) (x := c1) (c' := c1) rfl]
      obtain ⟨h1, h2, h3⟩ := (tame_popOperands _).ok hc hp
      have h4 := popReversed_frames _ hp
      rw [h4, hf]
      by_cases h5 : c1.operands.length ≠ f.height
      · rw [if_pos h5]; rfl
      · rw [if_neg h5]
        show Inv { c1 with frames := fs } ∧ Same c { c1 with frames := fs } ∧ fs.length + 1 = (f :: fs).length + 0
        unfold Inv at *
        rw [h4, hf] at h1
        refine ⟨h1.2.mono h1.1, ?_, ?_⟩
        · exact h2.trans rfl
        · rfl

theorem tame_else : Tame validateElse 0 0 :=
  Tame.cast (p := popFrame >>= fun r => pushFrame r r) (tame_popFrame.bind fun r => tame_pushFrame r r) rfl

theorem tame_end : Tame validateEnd 0 1 := tame_popFrame.seq fun r => tame_pushOperands r

theorem tame_labels (l : List Val) : ∀ ls : List Idx, Tame (validateLabels l ls) 0 0
  | [] => tame_pure ()
  | x :: xs => by
    refine (tame_label x).seq (d' := 0) fun frm => ?_
    by_cases h : l ≠ frm.label
    · simp only [if_pos h]; exact tame_fail 0 0
    · simp only [if_neg h]; exact tame_labels l xs

mutual
/-- Number of `End` marks at any depth. -/
def endsI : Instr → Nat
  | .block _ b => endsL b
  | .loop _ b => endsL b
  | .ifElse _ a b => endsL a + endsL b
  | .endMark => 1
  | _ => 0
def endsL : List Instr → Nat
  | [] => 0
  | i :: is => endsI i + endsL is
end

mutual

theorem tame_instr : ∀ i : Instr, Tame (validateInstr i) 0 (endsI i)
  | .unreachable => tame_setUnreachable
  | .nop => tame_pure ()
  | .block r b => by
    have := (tame_pushFrame r r).bind fun _ => (tame_expr b).bind fun _ => tame_end
    exact this.cast (by simp only [endsI]; omega)
  | .loop r b => by
    have := (tame_pushFrame [] r).bind fun _ => (tame_expr b).bind fun _ => tame_end
    exact this.cast (by simp only [endsI]; omega)
  | .ifElse r a b => by
    have := (tame_popOperands [.i32]).bind fun _ => (tame_pushFrame r r).bind fun _ => (tame_expr a).bind fun _ => tame_else.bind fun _ =>
      (tame_expr b).bind fun _ => tame_end
    exact this.cast (by simp only [endsI]; omega)
  | .elseMark => tame_else
  | .endMark => tame_end
  | .br l => (tame_label l).seq fun f => (tame_popOperands f.label).seq fun _ => tame_setUnreachable
  | .brIf l => (tame_label l).seq fun f => (tame_popOperands _).seq fun _ => (tame_popOperands f.label).seq fun _ => tame_pushOperands _
  | .brTable ls l => (tame_label l).seq fun f => (tame_labels f.label ls).seq fun _ => (tame_popOperands _).seq fun _ =>
      (tame_popOperands f.label).seq fun _ => tame_setUnreachable
  | .ret => by
    refine tame_get.seq (d' := 0) fun c => ?_
    cases c.ret with
    | none => exact tame_fail 0 0
    | some r => exact (tame_popOperands r).seq fun _ => tame_setUnreachable
  | .call f => (tame_lookup (·.funcs) f).seq fun t => (tame_popOperands _).seq fun _ => tame_pushOperands _
  | .callIndirect ty tb => by
    refine (tame_lookup (·.tables) tb).seq fun t => (tame_lookup (·.types) ty).seq (d' := 0) fun f => ?_
    by_cases h : t.elem ≠ .funcRef
    · simp only [if_pos h]; exact tame_fail 0 0
    · simp only [if_neg h]
      exact (tame_popOperands _).seq fun _ => (tame_popOperands _).seq fun _ => tame_pushOperands _
  | .drop => (tame_popOperand _).seq fun _ => tame_pure ()
  | .select => (tame_popOperands _).seq fun _ => (tame_popOperand _).seq fun t => (tame_popOperand t).seq fun _ => tame_pushOperand _
  | .localGet x => (tame_lookup (·.locals) x).seq fun _ => tame_pushOperands _
  | .localSet x => (tame_lookup (·.locals) x).seq fun _ => tame_popOperands _
  | .localTee x => (tame_lookup (·.locals) x).seq fun _ => (tame_popOperands _).seq fun _ => tame_pushOperands _
  | .globalGet x => (tame_lookup (·.globals) x).seq fun _ => tame_pushOperands _
  | .globalSet x => by
    refine (tame_lookup (·.globals) x).seq (d' := 0) fun t => ?_
    by_cases h : t.mt ≠ .var
    · simp only [if_pos h]; exact tame_fail 0 0
    · simp only [if_neg h]; exact tame_popOperands _
  | .load _ _ _ => (tame_lookup (·.mems) 0).seq fun _ => (tame_popOperands _).seq fun _ => tame_pushOperands _
  | .store _ _ _ => (tame_lookup (·.mems) 0).seq fun _ => tame_popOperands _
  | .memSize x => (tame_lookup (·.mems) x).seq fun _ => tame_pushOperands _
  | .memGrow x => (tame_lookup (·.mems) x).seq fun _ => (tame_popOperands _).seq fun _ => tame_pushOperands _
  | .constI32 _ => tame_pushOperands _
  | .constI64 _ => tame_pushOperands _
  | .constF32 _ => tame_pushOperands _
  | .constF64 _ => tame_pushOperands _
  | .num _ => (tame_popOperands _).seq fun _ => tame_pushOperands _

theorem tame_expr : ∀ e : List Instr, Tame (validateExpr e) 0 (endsL e)
  | [] => tame_pure ()
  | i :: is => (tame_instr i).seq fun _ => tame_expr is

end

/-- Between items: no locals, no return type, empty stacks. -/
structure Clean (c : Ctx) : Prop where
  locals : c.locals = []
  ret : c.ret = none
  operands : c.operands = []
  frames : c.frames = []

/-- `validateFunc` after the type and the locals are known. -/
def funcRest (f : Func) (ty : FuncTy) : V FuncTy := do
  pushFrame ty.results ty.results
  validateExpr f.body
  let _ ← popFrame
  checkEmpty
  (fun c => .ok (ty, { c with locals := [], ret := none }) : V FuncTy)

/-- Validation of any function in a clean context: success leaves the context alone, failure is not a panic. -/
theorem func_total {c : Ctx} (hc : Clean c) (f : Func) :
    (∃ t, c.types[f.ty.toNat]? = some t ∧ endsL f.body = 0 ∧ validateFunc f c = .ok (t, c)) ∨ validateFunc f c = .error .invalid := by
  rcases (Nat.lt_or_ge f.ty.toNat c.types.length).symm with hge | hlt
  · right
    exact bind_err (show lookup c.types f.ty c = _ by unfold lookup; rw [if_pos hge])
  have hl : c.types[f.ty.toNat]? = some c.types[f.ty.toNat] := List.getElem?_eq_getElem hlt
  generalize c.types[f.ty.toNat] = t at hl
  have h0 : validateTypeIdx f.ty c = .ok (t, c) := by
    show lookup c.types f.ty c = _
    unfold lookup
    rw [if_neg (by omega), hl]
  have e : validateFunc f c = funcRest f t { c with ret := some t.results, locals := t.params ++ f.locals } :=
    (bind_ok h0).trans rfl
  rw [e]
  generalize hc1 : ({ c with ret := some t.results, locals := t.params ++ f.locals } : Ctx) = c1
  have hfr : c1.frames = [] := by rw [← hc1]; exact hc.frames
  have hi : Inv c1 := by unfold Inv; rw [hfr]; trivial
  have hT := (tame_pushFrame t.results t.results).bind fun _ => (tame_expr f.body).bind fun _ => tame_popFrame
  simp only [Nat.zero_add, Nat.add_zero] at hT
  have hassoc : ∀ q : List Val → V FuncTy, (pushFrame t.results t.results >>= fun _ => validateExpr f.body >>= fun _ => popFrame >>= q) c1 =
      ((pushFrame t.results t.results >>= fun _ => validateExpr f.body >>= fun _ => popFrame) >>= q) c1 := by
    intro q
    cases h1 : pushFrame t.results t.results c1 with
    | error e => rw [bind_err h1, bind_err (bind_err h1)]
    | ok r =>
      obtain ⟨x, c2⟩ := r
      rw [bind_ok h1]
      cases h2 : validateExpr f.body c2 with
      | error e => rw [bind_err h2, bind_err ((bind_ok h1).trans (bind_err h2))]
      | ok r =>
        obtain ⟨y, c3⟩ := r
        rw [bind_ok h2]
        cases h3 : popFrame c3 with
        | error e => rw [bind_err h3, bind_err ((bind_ok h1).trans ((bind_ok h2).trans h3))]
        | ok r =>
          obtain ⟨z, c4⟩ := r
          rw [bind_ok h3, bind_ok ((bind_ok h1).trans ((bind_ok h2).trans h3))]
  unfold funcRest
  rw [hassoc]
  cases hp : (pushFrame t.results t.results >>= fun _ => validateExpr f.body >>= fun _ => popFrame) c1 with
  | error e =>
    right
    rw [bind_err hp, hT.err hi hp]
  | ok r =>
    obtain ⟨x, c2⟩ := r
    obtain ⟨h1, h2, h3⟩ := hT.ok hi hp
    rw [bind_ok hp]
    rw [hfr] at h3
    simp only [List.length_nil, Nat.zero_add] at h3
    have hz : endsL f.body = 0 := by omega
    have hf2 : c2.frames = [] := List.length_eq_zero_iff.mp (by omega)
    cases ho : c2.operands with
    | nil =>
      left
      refine ⟨t, hl, hz, ?_⟩
      have hce : checkEmpty c2 = .ok ((), c2) := by unfold checkEmpty; rw [hf2, ho]; rfl
      refine (bind_ok hce).trans ?_
      show Except.ok (t, _) = _
      congr 2
      obtain ⟨k1, k2, k3, k4⟩ := hc
      subst hc1
      unfold Same at h2
      cases c; cases c2
      cases k1; cases k2; cases k3; cases k4; cases hf2; cases ho
      simp only [Ctx.mk.injEq] at h2 ⊢
      obtain ⟨a1, a2, a3, a4, a5, -⟩ := h2
      exact ⟨a1, a2, a3, a4, a5, trivial, trivial, trivial, trivial⟩
    | cons v vs =>
      right
      have hce : checkEmpty c2 = .error .invalid := by unfold checkEmpty; rw [hf2, ho]; rfl
      exact bind_err hce

end Whasm
