import Verif.Spec.Compare
import Verif.Model.Compare
import Verif.Lemmas.Equality
import Verif.Lemmas.Scope

/-!
# `==` on a native stack
-/

namespace Whasm.Compare
open Spec

/-- The outcome is an abort if `bad`, and otherwise `b`. -/
def Runs (o : Option Bool) (bad : Prop) (b : Bool) : Prop := (bad → o = none) ∧ (¬ bad → o = some b)

theorem Runs.iff {o : Option Bool} {p q : Prop} {b : Bool} (h : Runs o p b) (e : q ↔ p) : Runs o q b := ⟨fun x => h.1 (e.mp x), fun x => h.2 fun y => x (e.mpr y)⟩

theorem Runs.ret (b : Bool) : Runs (some b) False b := ⟨False.elim, fun _ => rfl⟩

theorem Runs.and {o o' : Option Bool} {p p' : Prop} {b b' : Bool} (h : Runs o p b) (h' : Runs o' p' b') :
    Runs (andThen o o') (p ∨ b = true ∧ p') (b && b') := by
  constructor
  · rintro (hp | ⟨rfl, hp⟩)
    · rw [h.1 hp]; rfl
    · by_cases hq : p
      · rw [h.1 hq]; rfl
      · rw [h.2 hq, h'.1 hp]; rfl
  · intro hn
    rw [h.2 fun hp => hn (.inl hp)]
    cases b with
    | false => rfl
    | true => rw [h'.2 fun hp => hn (.inr ⟨rfl, hp⟩)]; rfl

/-- A first part that does not call anything. -/
theorem Runs.test {o : Option Bool} {p q : Prop} [Decidable q] {b : Bool} (h : Runs o p b) : Runs (andThen (some (decide q)) o) (q ∧ p) (decide q && b) :=
  ((Runs.ret _).and h).iff (by simp)

theorem firstAt_cons {α : Type} {R B : α → α → Prop} {x y : α} {xs ys : List α} :
    FirstAt R B (x :: xs) (y :: ys) ↔ xs.length = ys.length ∧ B x y ∨ R x y ∧ FirstAt R B xs ys := by
  constructor
  · rintro ⟨hl, i, a, b, ha, hb, hB, hR⟩
    have hl' : xs.length = ys.length := by simpa using hl
    cases i with
    | zero =>
      obtain rfl : x = a := by simpa using ha
      obtain rfl : y = b := by simpa using hb
      exact .inl ⟨hl', hB⟩
    | succ i => exact .inr ⟨hR 0 x y (by omega) rfl rfl, hl', i, a, b, ha, hb, hB, fun j u v hj hu hv => hR (j + 1) u v (by omega) hu hv⟩
  · rintro (⟨hl, hB⟩ | ⟨h0, hl, i, a, b, ha, hb, hB, hR⟩)
    · exact ⟨by simp [hl], 0, x, y, rfl, rfl, hB, fun j _ _ hj => absurd hj (by omega)⟩
    · refine ⟨by simp [hl], i + 1, a, b, ha, hb, hB, fun j u v hj hu hv => ?_⟩
      cases j with
      | zero =>
        obtain rfl : x = u := by simpa using hu
        obtain rfl : y = v := by simpa using hv
        exact h0
      | succ j => exact hR j u v (by omega) hu hv

theorem firstAt_nil {α : Type} {R B : α → α → Prop} : ¬ FirstAt R B [] [] := by
  rintro ⟨-, i, x, y, h, -⟩
  simp at h

theorem firstAt_exists {α β : Type} {R : α → α → Prop} {B : β → α → α → Prop} {p : β → Prop} {xs ys : List α} :
    FirstAt R (fun x y => ∃ k, B k x y ∧ p k) xs ys ↔ ∃ k, FirstAt R (B k) xs ys ∧ p k := by
  constructor
  · rintro ⟨hl, i, x, y, hx, hy, ⟨k, hB, hp⟩, hR⟩
    exact ⟨k, ⟨hl, i, x, y, hx, hy, hB, hR⟩, hp⟩
  · rintro ⟨k, ⟨hl, i, x, y, hx, hy, hB, hR⟩, hp⟩
    exact ⟨hl, i, x, y, hx, hy, ⟨k, hB, hp⟩, hR⟩

theorem runs_slice {α : Type} {f : α → α → Option Bool} {R B : α → α → Prop} {eq : α → α → Bool} (h : ∀ x y, Runs (f x y) (B x y) (eq x y))
    (hR : ∀ x y, eq x y = true ↔ R x y) : ∀ xs ys, xs.length = ys.length → Runs (slice f xs ys) (FirstAt R B xs ys) (vecEq eq xs ys)
  | [], [], _ => (Runs.ret true).iff (iff_of_false firstAt_nil id)
  | x :: xs, y :: ys, hl => by
    have hl : xs.length = ys.length := by simpa using hl
    exact ((h x y).and (runs_slice h hR xs ys hl)).iff (by rw [firstAt_cons, hR]; simp [hl])
  | [], _ :: _, hl => by simp at hl
  | _ :: _, [], hl => by simp at hl

theorem vecEq_length {α : Type} {eq : α → α → Bool} : ∀ xs ys : List α, xs.length ≠ ys.length → vecEq eq xs ys = false
  | [], [], h => absurd rfl h
  | x :: xs, y :: ys, h => by rw [vecEq, vecEq_length xs ys (by simpa using h), Bool.and_false]
  | [], _ :: _, _ => rfl
  | _ :: _, [], _ => rfl

theorem runs_vec {α : Type} {f : α → α → Option Bool} {R B : α → α → Prop} {eq : α → α → Bool} (h : ∀ x y, Runs (f x y) (B x y) (eq x y))
    (hR : ∀ x y, eq x y = true ↔ R x y) (xs ys : List α) : Runs (vec f xs ys) (FirstAt R B xs ys) (vecEq eq xs ys) := by
  unfold vec sameLength
  split
  · next hl => exact runs_slice h hR xs ys hl
  · next hl =>
    rw [vecEq_length xs ys hl]
    exact (Runs.ret false).iff (iff_of_false (fun h => hl h.1) id)

/-! ## Expressions -/

/-- `k` levels do not fit. -/
abbrev Deep (c room k : Nat) : Prop := room < c * k

abbrev BadInstr (c room : Nat) (i j : Instr) : Prop := ∃ k, EntersInstr k i j ∧ Deep c room k

abbrev BadExpr (c room : Nat) (a b : List Instr) : Prop := ∃ k, Enters k a b ∧ Deep c room k

theorem bad_inside {c room : Nat} {a b : List Instr} : (∃ k, Enters k a b ∧ Deep c room (k + 1)) ↔ room < c ∨ BadExpr c (room - c) a b := by
  constructor
  · rintro ⟨k, h, hd⟩
    rw [Deep, Nat.mul_add, Nat.mul_one] at hd
    by_cases hc : room < c
    · exact .inl hc
    · exact .inr ⟨k, h, by unfold Deep; omega⟩
  · rintro (hc | ⟨k, h, hd⟩)
    · exact ⟨0, .none, by simpa [Deep] using hc⟩
    · refine ⟨k, h, ?_⟩
      unfold Deep at hd ⊢
      rw [Nat.mul_add, Nat.mul_one]
      omega

theorem runs_enter {c room : Nat} {a b : List Instr} {v : Bool} (h : ∀ room, Runs (exprEq c a b room) (BadExpr c room a b) v) :
    Runs (enter c room (exprEq c a b)) (∃ k, Enters k a b ∧ Deep c room (k + 1)) v := by
  unfold enter
  split
  · next hc => exact (h _).iff (by rw [bad_inside]; simp [Nat.not_lt.mpr hc])
  · next hc => exact ⟨fun _ => rfl, fun hn => absurd (bad_inside.mpr (.inl (Nat.lt_of_not_le hc))) hn⟩

theorem badExpr_iff {c room : Nat} {a b : List Instr} : BadExpr c room a b ↔ FirstAt SameInstr (BadInstr c room) a b := by
  constructor
  · rintro ⟨k, h, hd⟩
    cases h with
    | none => simp [Deep] at hd
    | «at» hl hx hy hB hR => exact ⟨hl, _, _, _, hx, hy, ⟨k, hB, hd⟩, hR⟩
  · rintro ⟨hl, i, x, y, hx, hy, ⟨k, hB, hd⟩, hR⟩
    exact ⟨k, .at hl hx hy hB hR, hd⟩

theorem bad_block {c room : Nat} {t t' : RetVal} {a b : List Instr} :
    BadInstr c room (.block t a) (.block t' b) ↔ t = t' ∧ ∃ k, Enters k a b ∧ Deep c room (k + 1) := by
  constructor
  · rintro ⟨k, h, hd⟩
    cases h with
    | block h => exact ⟨rfl, _, h, hd⟩
  · rintro ⟨rfl, k, h, hd⟩
    exact ⟨_, .block h, hd⟩

theorem bad_loop {c room : Nat} {t t' : RetVal} {a b : List Instr} :
    BadInstr c room (.loop t a) (.loop t' b) ↔ t = t' ∧ ∃ k, Enters k a b ∧ Deep c room (k + 1) := by
  constructor
  · rintro ⟨k, h, hd⟩
    cases h with
    | loop h => exact ⟨rfl, _, h, hd⟩
  · rintro ⟨rfl, k, h, hd⟩
    exact ⟨_, .loop h, hd⟩

theorem bad_if {c room : Nat} {t t' : RetVal} {a b a' b' : List Instr} :
    BadInstr c room (.ifElse t a b) (.ifElse t' a' b') ↔
      t = t' ∧ ((∃ k, Enters k a a' ∧ Deep c room (k + 1)) ∨ SameExpr a a' ∧ ∃ k, Enters k b b' ∧ Deep c room (k + 1)) := by
  constructor
  · rintro ⟨k, h, hd⟩
    cases h with
    | thn h => exact ⟨rfl, .inl ⟨_, h, hd⟩⟩
    | els h h' => exact ⟨rfl, .inr ⟨h, _, h', hd⟩⟩
  · rintro ⟨rfl, ⟨k, h, hd⟩ | ⟨h, k, h', hd⟩⟩
    · exact ⟨_, .thn h, hd⟩
    · exact ⟨_, .els h h', hd⟩

theorem exprEq_vec : ∀ a b : List Instr, Whasm.exprEq a b = vecEq Whasm.instrEq a b
  | [], [] => by rw [Whasm.exprEq, vecEq]
  | i :: is, j :: js => by rw [Whasm.exprEq, vecEq, exprEq_vec is js]
  | [], _ :: _ => by simp [Whasm.exprEq, vecEq]
  | _ :: _, [] => by simp [Whasm.exprEq, vecEq]

theorem runs_if_eq {t t' : RetVal} {o : Option Bool} {p : Prop} {b : Bool} (h : Runs o p b) :
    Runs (if t = t' then o else some false) (t = t' ∧ p) (decide (t = t') && b) := by
  split
  · next e => simpa [e] using h
  · next e => simpa [e] using Runs.ret false

theorem runs_expr_of {c room : Nat} {a b : List Instr}
    (h : a.length = b.length → Runs (sliceEq c a b room) (FirstAt SameInstr (BadInstr c room) a b) (vecEq Whasm.instrEq a b)) :
    Runs (exprEq c a b room) (BadExpr c room a b) (Whasm.exprEq a b) := by
  rw [exprEq, exprEq_vec, sameLength]
  split
  · next hl => exact (h hl).iff badExpr_iff
  · next hl =>
    rw [vecEq_length a b hl]
    exact (Runs.ret false).iff (iff_of_false (fun h => hl (badExpr_iff.mp h).1) id)

mutual

theorem runs_instr (c : Nat) : ∀ (i j : Instr) (room : Nat), Runs (instrEq c i j room) (BadInstr c room i j) (Whasm.instrEq i j)
  | .block t a, j, room => by
    cases j
    case block t' b =>
      rw [instrEq, Whasm.instrEq]
      exact (runs_if_eq (runs_enter fun room => runs_expr_of fun hl => runs_instrs c a b room hl)).iff bad_block
    all_goals
      simp only [instrEq]
      exact (Runs.ret _).iff (iff_of_false (fun ⟨_, h, _⟩ => nomatch h) id)
  | .loop t a, j, room => by
    cases j
    case loop t' b =>
      rw [instrEq, Whasm.instrEq]
      exact (runs_if_eq (runs_enter fun room => runs_expr_of fun hl => runs_instrs c a b room hl)).iff bad_loop
    all_goals
      simp only [instrEq]
      exact (Runs.ret _).iff (iff_of_false (fun ⟨_, h, _⟩ => nomatch h) id)
  | .ifElse t a b, j, room => by
    cases j
    case ifElse t' a' b' =>
      rw [instrEq, Whasm.instrEq, Bool.and_assoc]
      exact (runs_if_eq ((runs_enter fun room => runs_expr_of fun hl => runs_instrs c a a' room hl).and (runs_enter fun room => runs_expr_of fun hl => runs_instrs c b b' room hl))).iff (by rw [bad_if, exprEq_iff])
    all_goals
      simp only [instrEq]
      exact (Runs.ret _).iff (iff_of_false (fun ⟨_, h, _⟩ => nomatch h) id)
  | .unreachable, j, room | .nop, j, room | .elseMark, j, room | .endMark, j, room | .br _, j, room | .brIf _, j, room | .brTable _ _, j, room | .ret, j, room
  | .call _, j, room | .callIndirect _ _, j, room | .drop, j, room | .select, j, room | .localGet _, j, room | .localSet _, j, room | .localTee _, j, room
  | .globalGet _, j, room | .globalSet _, j, room | .load _ _ _, j, room | .store _ _ _, j, room | .memSize _, j, room | .memGrow _, j, room
  | .constI32 _, j, room | .constI64 _, j, room | .constF32 _, j, room | .constF64 _, j, room | .num _, j, room => by
    simp only [instrEq]
    exact (Runs.ret _).iff (iff_of_false (fun ⟨_, h, _⟩ => nomatch h) id)

theorem runs_instrs (c : Nat) : ∀ (a b : List Instr) (room : Nat), a.length = b.length →
    Runs (sliceEq c a b room) (FirstAt SameInstr (BadInstr c room) a b) (vecEq Whasm.instrEq a b)
  | [], b, room, hl => by
    cases b with
    | nil =>
      simp only [sliceEq, vecEq]
      exact (Runs.ret true).iff (iff_of_false firstAt_nil id)
    | cons => simp at hl
  | i :: is, b, room, hl => by
    cases b with
    | nil => simp at hl
    | cons j js =>
      have hl : is.length = js.length := by simpa using hl
      rw [sliceEq, vecEq]
      exact ((runs_instr c i j room).and (runs_instrs c is js room hl)).iff (by rw [firstAt_cons, instrEq_iff]; simp [hl])

end

theorem runs_expr (c : Nat) (a b : List Instr) (room : Nat) : Runs (exprEq c a b room) (BadExpr c room a b) (Whasm.exprEq a b) := runs_expr_of fun hl => runs_instrs c a b room hl

/-! ## Modules -/

variable {c room : Nat}

theorem funcEq_iff (f g : Func) : Whasm.funcEq f g = true ↔ SameFunc f g := by simp [Whasm.funcEq, SameFunc, exprEq_iff, and_assoc]
theorem globalEq_iff (f g : Global) : Whasm.globalEq f g = true ↔ SameGlobal f g := by simp [Whasm.globalEq, SameGlobal, exprEq_iff]
theorem elemEq_iff (f g : Elem) : Whasm.elemEq f g = true ↔ SameElem f g := by simp [Whasm.elemEq, SameElem, exprEq_iff, and_assoc]
theorem dataEq_iff (f g : Data) : Whasm.dataEq f g = true ↔ SameData f g := by simp [Whasm.dataEq, SameData, exprEq_iff, and_assoc]

theorem runs_func (f g : Func) : Runs (funcEq c room f g) (∃ k, (f.ty = g.ty ∧ f.locals = g.locals ∧ Enters k f.body g.body) ∧ Deep c room k) (Whasm.funcEq f g) := by
  unfold funcEq Whasm.funcEq
  rw [Bool.and_assoc]
  exact (runs_expr c _ _ _).test.test.iff (by simp [and_assoc])

theorem runs_global (f g : Global) : Runs (globalEq c room f g) (∃ k, (f.ty = g.ty ∧ Enters k f.init g.init) ∧ Deep c room k) (Whasm.globalEq f g) := by
  unfold globalEq Whasm.globalEq
  exact (runs_expr c _ _ _).test.iff (by simp [and_assoc])

theorem runs_elem (f g : Elem) : Runs (elemEq c room f g) (∃ k, (f.table = g.table ∧ Enters k f.offset g.offset) ∧ Deep c room k) (Whasm.elemEq f g) := by
  unfold elemEq Whasm.elemEq
  rw [Bool.and_assoc]
  exact ((runs_expr c _ _ _).and (.ret _)).test.iff (by simp [and_assoc])

theorem runs_data (f g : Data) : Runs (dataEq c room f g) (∃ k, (f.mem = g.mem ∧ Enters k f.offset g.offset) ∧ Deep c room k) (Whasm.dataEq f g) := by
  unfold dataEq Whasm.dataEq
  rw [Bool.and_assoc]
  exact ((runs_expr c _ _ _).and (.ret _)).test.iff (by simp [and_assoc])

theorem runs_module (c room : Nat) (m n : Module) : Runs (moduleEq c m n room) (∃ k, EntersModule k m n ∧ Deep c room k) (Whasm.moduleEq m n) := by
  have hd := (runs_vec (runs_data (c := c) (room := room)) dataEq_iff m.data n.data).and (Runs.test (q := m.start = n.start) <| Runs.test (q := m.imports = n.imports) (.ret (decide (m.exports = n.exports))))
  have he := (runs_vec (runs_elem (c := c) (room := room)) elemEq_iff m.elem n.elem).and hd
  have hg := (runs_vec (runs_global (c := c) (room := room)) globalEq_iff m.globals n.globals).and he
  have hf := ((runs_vec (runs_func (c := c) (room := room)) funcEq_iff m.funcs n.funcs).and ((hg.test (q := m.mems = n.mems)).test (q := m.tables = n.tables))).test (q := m.types = n.types)
  unfold moduleEq Whasm.moduleEq
  simp only [Bool.and_assoc]
  refine hf.iff ?_
  rw [firstAt_exists, firstAt_exists, firstAt_exists, firstAt_exists, vecEq_iff funcEq_iff, vecEq_iff globalEq_iff, vecEq_iff elemEq_iff]
  simp only [and_false, or_false]
  constructor
  · rintro ⟨k, h, hd⟩
    cases h with
    | func h1 h2 => exact ⟨h1, .inl ⟨k, h2, hd⟩⟩
    | global h1 h2 h3 h4 h5 => exact ⟨h1, .inr ⟨h2, h3, h4, .inl ⟨k, h5, hd⟩⟩⟩
    | elem h1 h2 h3 h4 h5 h6 => exact ⟨h1, .inr ⟨h2, h3, h4, .inr ⟨h5, .inl ⟨k, h6, hd⟩⟩⟩⟩
    | data h1 h2 h3 h4 h5 h6 h7 => exact ⟨h1, .inr ⟨h2, h3, h4, .inr ⟨h5, .inr ⟨h6, ⟨k, h7, hd⟩⟩⟩⟩⟩
  · rintro ⟨h1, ⟨k, h2, hd⟩ | ⟨h2, h3, h4, ⟨k, h5, hd⟩ | ⟨h5, ⟨k, h6, hd⟩ | ⟨h6, ⟨k, h7, hd⟩⟩⟩⟩⟩
    · exact ⟨k, .func h1 h2, hd⟩
    · exact ⟨k, .global h1 h2 h3 h4 h5, hd⟩
    · exact ⟨k, .elem h1 h2 h3 h4 h5 h6, hd⟩
    · exact ⟨k, .data h1 h2 h3 h4 h5 h6 h7, hd⟩

/-! ## Depth -/

theorem depth_mem {x : Instr} : ∀ {a : List Instr}, x ∈ a → depthI x ≤ depthL a
  | i :: is, h => by
    rw [depthL]
    rcases List.mem_cons.mp h with rfl | h
    · exact Nat.le_max_left _ _
    · exact Nat.le_trans (depth_mem h) (Nat.le_max_right _ _)

theorem sameExpr_length : ∀ {a b : List Instr}, SameExpr a b → a.length = b.length
  | _, _, .nil => rfl
  | _, _, .cons _ h => by simp [sameExpr_length h]

mutual

theorem enters_depthI : ∀ {k : Nat} {i j : Instr}, EntersInstr k i j → k ≤ depthI i
  | _, _, _, .block h => by have := enters_depth h; simp only [depthI]; omega
  | _, _, _, .loop h => by have := enters_depth h; simp only [depthI]; omega
  | _, _, _, .thn h => by have := enters_depth h; simp only [depthI]; omega
  | _, _, _, .els _ h => by have := enters_depth h; simp only [depthI]; omega

theorem enters_depth : ∀ {k : Nat} {a b : List Instr}, Enters k a b → k ≤ depthL a
  | _, _, _, .none => Nat.zero_le _
  | _, _, _, .at _ hx _ h _ => Nat.le_trans (enters_depthI h) (depth_mem (List.mem_of_getElem? hx))

end

mutual

theorem entersI_symm : ∀ {k : Nat} {i j : Instr}, EntersInstr k i j → EntersInstr k j i
  | _, _, _, .block h => .block (enters_symm h)
  | _, _, _, .loop h => .loop (enters_symm h)
  | _, _, _, .thn h => .thn (enters_symm h)
  | _, _, _, .els h h' => .els (sameExpr_symm h) (enters_symm h')

theorem enters_symm : ∀ {k : Nat} {a b : List Instr}, Enters k a b → Enters k b a
  | _, _, _, .none => .none
  | _, _, _, .at hl hx hy h hR => .at hl.symm hy hx (entersI_symm h) fun j u v hj hu hv => sameInstr_symm (hR j v u hj hv hu)

end

theorem firstAt_symm {α : Type} {R B : α → α → Prop} (hR : ∀ x y, R x y → R y x) (hB : ∀ x y, B x y → B y x) {xs ys : List α} (h : FirstAt R B xs ys) : FirstAt R B ys xs := by
  obtain ⟨hl, i, x, y, hx, hy, h, h'⟩ := h
  exact ⟨hl.symm, i, y, x, hy, hx, hB _ _ h, fun j u v hj hu hv => hR _ _ (h' j v u hj hv hu)⟩

theorem sameFunc_symm (f g : Func) (h : SameFunc f g) : SameFunc g f := ⟨h.1.symm, h.2.1.symm, sameExpr_symm h.2.2⟩
theorem sameGlobal_symm (f g : Global) (h : SameGlobal f g) : SameGlobal g f := ⟨h.1.symm, sameExpr_symm h.2⟩
theorem sameElem_symm (f g : Elem) (h : SameElem f g) : SameElem g f := ⟨h.1.symm, sameExpr_symm h.2.1, h.2.2.symm⟩
theorem sameData_symm (f g : Data) (h : SameData f g) : SameData g f := ⟨h.1.symm, sameExpr_symm h.2.1, h.2.2.symm⟩

theorem entersModule_symm {k : Nat} {m n : Module} (h : EntersModule k m n) : EntersModule k n m := by
  cases h with
  | func h1 h2 => exact .func h1.symm (firstAt_symm sameFunc_symm (fun _ _ h => ⟨h.1.symm, h.2.1.symm, enters_symm h.2.2⟩) h2)
  | global h1 h2 h3 h4 h5 =>
    exact .global h1.symm (pointwise_symm sameFunc_symm h2) h3.symm h4.symm (firstAt_symm sameGlobal_symm (fun _ _ h => ⟨h.1.symm, enters_symm h.2⟩) h5)
  | elem h1 h2 h3 h4 h5 h6 =>
    exact .elem h1.symm (pointwise_symm sameFunc_symm h2) h3.symm h4.symm (pointwise_symm sameGlobal_symm h5)
      (firstAt_symm sameElem_symm (fun _ _ h => ⟨h.1.symm, enters_symm h.2⟩) h6)
  | data h1 h2 h3 h4 h5 h6 h7 =>
    exact .data h1.symm (pointwise_symm sameFunc_symm h2) h3.symm h4.symm (pointwise_symm sameGlobal_symm h5) (pointwise_symm sameElem_symm h6)
      (firstAt_symm sameData_symm (fun _ _ h => ⟨h.1.symm, enters_symm h.2⟩) h7)

theorem firstAt_mem {α : Type} {R B : α → α → Prop} {xs ys : List α} (h : FirstAt R B xs ys) : ∃ x ∈ xs, ∃ y, B x y := by
  obtain ⟨_, i, x, y, hx, _, h, _⟩ := h
  exact ⟨x, List.mem_of_getElem? hx, y, h⟩

theorem entersModule_depth {k d : Nat} {m n : Module} (h : EntersModule k m n) (hn : NestsAtMost d m) : k ≤ d := by
  cases h with
  | func _ h => obtain ⟨x, hx, y, h⟩ := firstAt_mem h; exact Nat.le_trans (enters_depth h.2.2) (hn.funcs x hx)
  | global _ _ _ _ h => obtain ⟨x, hx, y, h⟩ := firstAt_mem h; exact Nat.le_trans (enters_depth h.2) (hn.globals x hx)
  | elem _ _ _ _ _ h => obtain ⟨x, hx, y, h⟩ := firstAt_mem h; exact Nat.le_trans (enters_depth h.2) (hn.elem x hx)
  | data _ _ _ _ _ _ h => obtain ⟨x, hx, y, h⟩ := firstAt_mem h; exact Nat.le_trans (enters_depth h.2) (hn.data x hx)

mutual

theorem same_entersI : ∀ {i j : Instr}, SameInstr i j → depthI i ≠ 0 → EntersInstr (depthI i) i j
  | _, _, .block _ h, _ => by rw [depthI, Nat.add_comm]; exact .block (same_enters h)
  | _, _, .loop _ h, _ => by rw [depthI, Nat.add_comm]; exact .loop (same_enters h)
  | .ifElse _ a b, _, .ifElse _ h h', _ => by
    rw [depthI, Nat.add_comm]
    rcases Nat.le_total (depthL a) (depthL b) with hle | hle
    · rw [Nat.max_eq_right hle]; exact .els h (same_enters h')
    · rw [Nat.max_eq_left hle]; exact .thn (same_enters h)
  | _, _, .f32 _ _, h => absurd rfl h
  | _, _, .f64 _ _, h => absurd rfl h
  | i, _, .other _ _ h1 h2 h3, h => by
    cases i <;> first | exact absurd rfl h | exact absurd rfl (h1 _ _) | exact absurd rfl (h2 _ _) | exact absurd rfl (h3 _ _ _)

theorem same_enters : ∀ {a b : List Instr}, SameExpr a b → Enters (depthL a) a b
  | _, _, .nil => .none
  | _, _, .cons (i := i) (is := is) h h' => by
    rw [depthL]
    have hl := sameExpr_length h'
    rcases Nat.le_total (depthI i) (depthL is) with hle | hle
    · rw [Nat.max_eq_right hle]
      have e := same_enters h'
      generalize depthL is = d at e
      cases e with
      | none => exact .none
      | «at» _ hx hy hB hR =>
        refine .at (i := _ + 1) (by simp [hl]) hx hy hB fun j u v hj hu hv => ?_
        cases j with
        | zero => cases hu; cases hv; exact h
        | succ j => exact hR j u v (by omega) hu hv
    · rw [Nat.max_eq_left hle]
      by_cases h0 : depthI i = 0
      · rw [h0]; exact .none
      · exact .at (i := 0) (by simp [hl]) rfl rfl (same_entersI h h0) fun j _ _ hj => absurd hj (by omega)

end

theorem same_firstAt {α : Type} {R B : α → α → Prop} {xs ys : List α} (h : Pointwise R xs ys) {x : α} (hx : x ∈ xs) (hB : ∀ y, R x y → B x y) : FirstAt R B xs ys := by
  obtain ⟨i, hi⟩ := List.mem_iff_getElem?.mp hx
  have hlt : i < ys.length := by rw [← h.1]; exact (List.getElem?_eq_some_iff.mp hi).1
  have hy : ys[i]? = some ys[i] := List.getElem?_eq_getElem hlt
  exact ⟨h.1, i, x, _, hi, hy, hB _ (h.2 i _ _ hi hy), fun j u v _ hu hv => h.2 j u v hu hv⟩

/-- Modules that are equal have to be looked into completely. -/
theorem same_module {m n : Module} (h : SameModule m n) : (∃ k, EntersModule k m n ∧ Deep c room k) ↔ Scope.walkModule c m room = false := by
  rw [Bool.eq_false_iff, Ne, Scope.walk_module]
  constructor
  · rintro ⟨k, hk, hd⟩ ⟨w1, w2, w3, w4⟩
    have key : ∀ {d}, k ≤ d → c * d ≤ room → False := fun h1 h2 => absurd (Nat.le_trans (Nat.mul_le_mul_left c h1) h2) (Nat.not_le.mpr hd)
    cases hk with
    | func _ h => obtain ⟨x, hx, y, h⟩ := firstAt_mem h; exact key (enters_depth h.2.2) (w1 x hx)
    | global _ _ _ _ h => obtain ⟨x, hx, y, h⟩ := firstAt_mem h; exact key (enters_depth h.2) (w2 x hx)
    | elem _ _ _ _ _ h => obtain ⟨x, hx, y, h⟩ := firstAt_mem h; exact key (enters_depth h.2) (w3 x hx)
    | data _ _ _ _ _ _ h => obtain ⟨x, hx, y, h⟩ := firstAt_mem h; exact key (enters_depth h.2) (w4 x hx)
  · intro hn
    refine Classical.byContradiction fun hk => hn ⟨fun x hx => ?_, fun x hx => ?_, fun x hx => ?_, fun x hx => ?_⟩ <;>
      refine Nat.le_of_not_lt fun hd => hk ⟨_, ?_, hd⟩
    · exact .func h.types (same_firstAt h.funcs hx fun y e => ⟨e.1, e.2.1, same_enters e.2.2⟩)
    · exact .global h.types h.funcs h.tables h.mems (same_firstAt h.globals hx fun y e => ⟨e.1, same_enters e.2⟩)
    · exact .elem h.types h.funcs h.tables h.mems h.globals (same_firstAt h.elem hx fun y e => ⟨e.1, same_enters e.2.1⟩)
    · exact .data h.types h.funcs h.tables h.mems h.globals h.elem (same_firstAt h.data hx fun y e => ⟨e.1, same_enters e.2.1⟩)

end Whasm.Compare
