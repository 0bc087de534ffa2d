import Verif.Lemmas.Float
import Verif.Lemmas.Plain
import Verif.Lemmas.Siblings

/-!
# Derived equality
-/

namespace Whasm
open Spec

/-! ## Vectors -/

theorem pointwise_cons {α : Type} {R : α → α → Prop} {x y : α} {xs ys : List α} :
    Pointwise R (x :: xs) (y :: ys) ↔ R x y ∧ Pointwise R xs ys := by
  constructor
  · rintro ⟨hl, h⟩
    exact ⟨h 0 x y rfl rfl, by simpa using hl, fun i a b ha hb => h (i + 1) a b ha hb⟩
  · rintro ⟨h0, hl, h⟩
    refine ⟨by simp [hl], fun i a b ha hb => ?_⟩
    cases i with
    | zero =>
      obtain rfl : x = a := by simpa using ha
      obtain rfl : y = b := by simpa using hb
      exact h0
    | succ i => exact h i a b ha hb

theorem pointwise_nil {α : Type} {R : α → α → Prop} : Pointwise R [] [] := ⟨rfl, fun _ _ _ h => by simp at h⟩

theorem vecEq_iff {α : Type} {eq : α → α → Bool} {R : α → α → Prop} (h : ∀ x y, eq x y = true ↔ R x y) :
    ∀ xs ys, vecEq eq xs ys = true ↔ Pointwise R xs ys
  | [], [] => by simp [vecEq, pointwise_nil]
  | [], y :: ys => by
    simp only [vecEq, Bool.false_eq_true, false_iff]
    rintro ⟨h, _⟩; simp at h
  | x :: xs, [] => by
    simp only [vecEq, Bool.false_eq_true, false_iff]
    rintro ⟨h, _⟩; simp at h
  | x :: xs, y :: ys => by
    simp only [vecEq, Bool.and_eq_true, h, vecEq_iff h xs ys, pointwise_cons]

theorem pointwise_refl {α : Type} {R : α → α → Prop} {xs : List α} : Pointwise R xs xs ↔ ∀ x ∈ xs, R x x := by
  constructor
  · rintro ⟨_, h⟩ x hx
    obtain ⟨i, hi⟩ := List.mem_iff_getElem?.mp hx
    exact h i x x hi hi
  · intro h
    refine ⟨rfl, fun i a b ha hb => ?_⟩
    obtain rfl : a = b := by rw [ha] at hb; simpa using hb
    exact h _ (List.mem_of_getElem? ha)

theorem pointwise_symm {α : Type} {R : α → α → Prop} (hR : ∀ x y, R x y → R y x) {xs ys : List α} (h : Pointwise R xs ys) :
    Pointwise R ys xs :=
  ⟨h.1.symm, fun i _ _ ha hb => hR _ _ (h.2 i _ _ hb ha)⟩

theorem pointwise_trans {α : Type} {R : α → α → Prop} (hR : ∀ x y z, R x y → R y z → R x z) {xs ys zs : List α}
    (h : Pointwise R xs ys) (h' : Pointwise R ys zs) : Pointwise R xs zs := by
  refine ⟨h.1.trans h'.1, fun i x z hx hz => ?_⟩
  have hi : i < ys.length := by rw [← h.1]; exact (List.getElem?_eq_some_iff.mp hx).1
  exact hR _ _ _ (h.2 i _ _ hx (List.getElem?_eq_getElem hi)) (h'.2 i _ _ (List.getElem?_eq_getElem hi) hz)

theorem pointwise_map {α β : Type} {R : α → α → Prop} (f : α → β) (hR : ∀ x y, R x y → f x = f y) :
    ∀ {xs ys : List α}, Pointwise R xs ys → xs.map f = ys.map f
  | [], [], _ => rfl
  | [], _ :: _, h => by simp [Pointwise] at h
  | _ :: _, [], h => by simp [Pointwise] at h
  | x :: xs, y :: ys, h => by
    obtain ⟨h0, h⟩ := pointwise_cons.mp h
    rw [List.map_cons, List.map_cons, hR _ _ h0, pointwise_map f hR h]

/-! ## Expressions -/

mutual

theorem sameInstr_refl : ∀ i : Instr, SameInstr i i ↔ ∀ j, Occurs j [i] → ¬ NaNConst j
  | .block t a => by
    constructor
    · intro h j hj
      cases h with
      | block _ h =>
        cases hj with
        | here h => obtain rfl := List.mem_singleton.mp h; rintro (⟨_, h, _⟩ | ⟨_, h, _⟩) <;> cases h
        | block h1 h2 => simp at h1; exact (sameExpr_refl a).mp h j (h1.2 ▸ h2)
        | loop h1 h2 => simp at h1
        | thn h1 h2 => simp at h1
        | els h1 h2 => simp at h1
      | other _ _ h => exact (h _ _ rfl).elim
    · intro h
      exact .block _ ((sameExpr_refl a).mpr fun j hj => h j (.block (List.mem_singleton.mpr rfl) hj))
  | .loop t a => by
    constructor
    · intro h j hj
      cases h with
      | loop _ h =>
        cases hj with
        | here h => obtain rfl := List.mem_singleton.mp h; rintro (⟨_, h, _⟩ | ⟨_, h, _⟩) <;> cases h
        | loop h1 h2 => simp at h1; exact (sameExpr_refl a).mp h j (h1.2 ▸ h2)
        | block h1 h2 => simp at h1
        | thn h1 h2 => simp at h1
        | els h1 h2 => simp at h1
      | other _ _ _ h => exact (h _ _ rfl).elim
    · intro h
      exact .loop _ ((sameExpr_refl a).mpr fun j hj => h j (.loop (List.mem_singleton.mpr rfl) hj))
  | .ifElse t a b => by
    constructor
    · intro h j hj
      cases h with
      | ifElse _ h h' =>
        cases hj with
        | here h => obtain rfl := List.mem_singleton.mp h; rintro (⟨_, h, _⟩ | ⟨_, h, _⟩) <;> cases h
        | loop h1 h2 => simp at h1
        | block h1 h2 => simp at h1
        | thn h1 h2 => simp at h1; exact (sameExpr_refl a).mp h j (h1.2.1 ▸ h2)
        | els h1 h2 => simp at h1; exact (sameExpr_refl b).mp h' j (h1.2.2 ▸ h2)
      | other _ _ _ _ h => exact (h _ _ _ rfl).elim
    · intro h
      exact .ifElse _ ((sameExpr_refl a).mpr fun j hj => h j (.thn (List.mem_singleton.mpr rfl) hj))
        ((sameExpr_refl b).mpr fun j hj => h j (.els (List.mem_singleton.mpr rfl) hj))
  | .constF32 v => by
    constructor
    · intro h j hj
      cases h with
      | f32 h =>
        cases hj with
        | here h' => obtain rfl := List.mem_singleton.mp h'; rintro (⟨_, h', hn⟩ | ⟨_, h', _⟩) <;> cases h'; exact h hn
        | loop h1 h2 => simp at h1
        | block h1 h2 => simp at h1
        | thn h1 h2 => simp at h1
        | els h1 h2 => simp at h1
      | other h => exact (h _ rfl).elim
    · intro h
      exact .f32 (fun hn => h _ (.here (List.mem_singleton.mpr rfl)) (.inl ⟨v, rfl, hn⟩)) rfl
  | .constF64 v => by
    constructor
    · intro h j hj
      cases h with
      | f64 h =>
        cases hj with
        | here h' => obtain rfl := List.mem_singleton.mp h'; rintro (⟨_, h', _⟩ | ⟨_, h', hn⟩) <;> cases h'; exact h hn
        | loop h1 h2 => simp at h1
        | block h1 h2 => simp at h1
        | thn h1 h2 => simp at h1
        | els h1 h2 => simp at h1
      | other _ h => exact (h _ rfl).elim
    · intro h
      exact .f64 (fun hn => h _ (.here (List.mem_singleton.mpr rfl)) (.inr ⟨v, rfl, hn⟩)) rfl
  | .unreachable | .nop | .br _ | .brIf _ | .brTable _ _ | .ret | .call _
  | .callIndirect _ _ | .drop | .select | .localGet _ | .localSet _ | .localTee _
  | .globalGet _ | .globalSet _ | .load _ _ _ | .store _ _ _ | .memSize _ | .memGrow _
  | .constI32 _ | .constI64 _ | .num _ | .elseMark | .endMark => by
    constructor
    · intro _ j hj
      cases hj with
      | here h => obtain rfl := List.mem_singleton.mp h; rintro (⟨_, h, _⟩ | ⟨_, h, _⟩) <;> cases h
      | block h1 h2 => simp at h1
      | loop h1 h2 => simp at h1
      | thn h1 h2 => simp at h1
      | els h1 h2 => simp at h1
    · intro _
      exact .other (by simp) (by simp) (by simp) (by simp) (by simp)

theorem sameExpr_refl : ∀ e : List Instr, SameExpr e e ↔ ∀ j, Occurs j e → ¬ NaNConst j
  | [] => by
    constructor
    · intro _ j hj
      cases hj with
      | here h => simp at h
      | block h1 h2 => simp at h1
      | loop h1 h2 => simp at h1
      | thn h1 h2 => simp at h1
      | els h1 h2 => simp at h1
    · intro _; exact .nil
  | i :: is => by
    constructor
    · intro h j hj
      cases h with
      | cons h1 h2 =>
        rcases occurs_split.mp hj with hj | hj
        · exact (sameInstr_refl i).mp h1 j hj
        · exact (sameExpr_refl is).mp h2 j hj
    · intro h
      exact .cons ((sameInstr_refl i).mpr fun j hj => h j (occurs_split.mpr (.inl hj)))
        ((sameExpr_refl is).mpr fun j hj => h j (occurs_split.mpr (.inr hj)))

end

mutual

theorem sameInstr_symm : ∀ {i j : Instr}, SameInstr i j → SameInstr j i
  | _, _, .f32 h h' => .f32 (h' ▸ h) h'.symm
  | _, _, .f64 h h' => .f64 (h' ▸ h) h'.symm
  | _, _, .block t h => .block t (sameExpr_symm h)
  | _, _, .loop t h => .loop t (sameExpr_symm h)
  | _, _, .ifElse t h h' => .ifElse t (sameExpr_symm h) (sameExpr_symm h')
  | _, _, .other h1 h2 h3 h4 h5 => .other h1 h2 h3 h4 h5

theorem sameExpr_symm : ∀ {a b : List Instr}, SameExpr a b → SameExpr b a
  | _, _, .nil => .nil
  | _, _, .cons h h' => .cons (sameInstr_symm h) (sameExpr_symm h')

end

mutual

theorem sameInstr_trans : ∀ {i j k : Instr}, SameInstr i j → SameInstr j k → SameInstr i k
  | _, _, _, .f32 h h', g => by
    cases g with
    | f32 g g' => exact .f32 h (h'.trans g')
    | other g => exact (g _ rfl).elim
  | _, _, _, .f64 h h', g => by
    cases g with
    | f64 g g' => exact .f64 h (h'.trans g')
    | other _ g => exact (g _ rfl).elim
  | _, _, _, .block t h, g => by
    cases g with
    | block _ g => exact .block t (sameExpr_trans h g)
    | other _ _ g => exact (g _ _ rfl).elim
  | _, _, _, .loop t h, g => by
    cases g with
    | loop _ g => exact .loop t (sameExpr_trans h g)
    | other _ _ _ g => exact (g _ _ rfl).elim
  | _, _, _, .ifElse t h h', g => by
    cases g with
    | ifElse _ g g' => exact .ifElse t (sameExpr_trans h g) (sameExpr_trans h' g')
    | other _ _ _ _ g => exact (g _ _ _ rfl).elim
  | _, _, _, .other _ _ _ _ _, g => g

theorem sameExpr_trans : ∀ {a b c : List Instr}, SameExpr a b → SameExpr b c → SameExpr a c
  | _, _, _, .nil, g => g
  | _, _, _, .cons h h', g => by
    cases g with
    | cons g g' => exact .cons (sameInstr_trans h g) (sameExpr_trans h' g')

end

mutual

theorem sameInstr_forget : ∀ {i j : Instr}, SameInstr i j → forget i = forget j
  | _, _, .f32 _ _ => by simp only [forget]
  | _, _, .f64 _ _ => by simp only [forget]
  | _, _, .block t h => by simp only [forget, sameExpr_forget h]
  | _, _, .loop t h => by simp only [forget, sameExpr_forget h]
  | _, _, .ifElse t h h' => by simp only [forget, sameExpr_forget h, sameExpr_forget h']
  | _, _, .other _ _ _ _ _ => rfl

theorem sameExpr_forget : ∀ {a b : List Instr}, SameExpr a b → forgetL a = forgetL b
  | _, _, .nil => rfl
  | _, _, .cons h h' => by simp only [forgetL, sameInstr_forget h, sameExpr_forget h']

end

/-! ## Modules -/

theorem moduleEq_iff (m n : Module) : moduleEq m n = true ↔ SameModule m n := by
  have hf := vecEq_iff (eq := funcEq) (R := fun f g => f.ty = g.ty ∧ f.locals = g.locals ∧ SameExpr f.body g.body)
    (fun f g => by simp [funcEq, exprEq_iff, and_assoc]) m.funcs n.funcs
  have hg := vecEq_iff (eq := globalEq) (R := fun f g => f.ty = g.ty ∧ SameExpr f.init g.init)
    (fun f g => by simp [globalEq, exprEq_iff]) m.globals n.globals
  have he := vecEq_iff (eq := elemEq) (R := fun f g => f.table = g.table ∧ SameExpr f.offset g.offset ∧ f.init = g.init)
    (fun f g => by simp [elemEq, exprEq_iff, and_assoc]) m.elem n.elem
  have hd := vecEq_iff (eq := dataEq) (R := fun f g => f.mem = g.mem ∧ SameExpr f.offset g.offset ∧ f.init = g.init)
    (fun f g => by simp [dataEq, exprEq_iff, and_assoc]) m.data n.data
  simp only [moduleEq, Bool.and_eq_true, decide_eq_true_eq, hf, hg, he, hd]
  constructor
  · rintro ⟨⟨⟨⟨⟨⟨⟨⟨⟨h1, h2⟩, h3⟩, h4⟩, h5⟩, h6⟩, h7⟩, h8⟩, h9⟩, h10⟩
    exact ⟨h1, h2, h3, h4, h5, h6, h7, h8, h9, h10⟩
  · rintro ⟨h1, h2, h3, h4, h5, h6, h7, h8, h9, h10⟩
    exact ⟨⟨⟨⟨⟨⟨⟨⟨⟨h1, h2⟩, h3⟩, h4⟩, h5⟩, h6⟩, h7⟩, h8⟩, h9⟩, h10⟩

theorem sameModule_refl (m : Module) : SameModule m m ↔ NaNFree m := by
  constructor
  · intro h e he
    refine (sameExpr_refl e).mp ?_
    simp only [exprsOf, List.mem_append, List.mem_map] at he
    rcases he with ((⟨f, hf, rfl⟩ | ⟨f, hf, rfl⟩) | ⟨f, hf, rfl⟩) | ⟨f, hf, rfl⟩
    · exact (pointwise_refl.mp h.funcs f hf).2.2
    · exact (pointwise_refl.mp h.globals f hf).2
    · exact (pointwise_refl.mp h.elem f hf).2.1
    · exact (pointwise_refl.mp h.data f hf).2.1
  · intro h
    have key : ∀ e ∈ exprsOf m, SameExpr e e := fun e he => (sameExpr_refl e).mpr (h e he)
    refine ⟨rfl, pointwise_refl.mpr fun f hf => ⟨rfl, rfl, key _ ?_⟩, rfl, rfl, pointwise_refl.mpr fun f hf => ⟨rfl, key _ ?_⟩,
      pointwise_refl.mpr fun f hf => ⟨rfl, key _ ?_, rfl⟩, pointwise_refl.mpr fun f hf => ⟨rfl, key _ ?_, rfl⟩, rfl, rfl, rfl⟩ <;>
      simp only [exprsOf, List.mem_append, List.mem_map]
    · exact .inl (.inl (.inl ⟨f, hf, rfl⟩))
    · exact .inl (.inl (.inr ⟨f, hf, rfl⟩))
    · exact .inl (.inr ⟨f, hf, rfl⟩)
    · exact .inr ⟨f, hf, rfl⟩

theorem sameModule_symm {m n : Module} (h : SameModule m n) : SameModule n m :=
  ⟨h.types.symm, pointwise_symm (fun _ _ g => ⟨g.1.symm, g.2.1.symm, sameExpr_symm g.2.2⟩) h.funcs, h.tables.symm, h.mems.symm,
    pointwise_symm (fun _ _ g => ⟨g.1.symm, sameExpr_symm g.2⟩) h.globals,
    pointwise_symm (fun _ _ g => ⟨g.1.symm, sameExpr_symm g.2.1, g.2.2.symm⟩) h.elem,
    pointwise_symm (fun _ _ g => ⟨g.1.symm, sameExpr_symm g.2.1, g.2.2.symm⟩) h.data, h.start.symm, h.imports.symm, h.exports.symm⟩

theorem sameModule_trans {l m n : Module} (h : SameModule l m) (k : SameModule m n) : SameModule l n :=
  ⟨h.types.trans k.types,
    pointwise_trans (fun _ _ _ g g' => ⟨g.1.trans g'.1, g.2.1.trans g'.2.1, sameExpr_trans g.2.2 g'.2.2⟩) h.funcs k.funcs,
    h.tables.trans k.tables, h.mems.trans k.mems,
    pointwise_trans (fun _ _ _ g g' => ⟨g.1.trans g'.1, sameExpr_trans g.2 g'.2⟩) h.globals k.globals,
    pointwise_trans (fun _ _ _ g g' => ⟨g.1.trans g'.1, sameExpr_trans g.2.1 g'.2.1, g.2.2.trans g'.2.2⟩) h.elem k.elem,
    pointwise_trans (fun _ _ _ g g' => ⟨g.1.trans g'.1, sameExpr_trans g.2.1 g'.2.1, g.2.2.trans g'.2.2⟩) h.data k.data,
    h.start.trans k.start, h.imports.trans k.imports, h.exports.trans k.exports⟩

theorem sameModule_forget {m n : Module} (h : SameModule m n) : forgetModule m = forgetModule n := by
  obtain ⟨h1, h2, h3, h4, h5, h6, h7, h8, h9, h10⟩ := h
  cases m
  cases n
  simp only at h1 h3 h4 h8 h9 h10
  simp only [forgetModule, Module.mk.injEq]
  refine ⟨h1, pointwise_map _ ?_ h2, h3, h4, pointwise_map _ ?_ h5, pointwise_map _ ?_ h6, pointwise_map _ ?_ h7, h8, h9, h10⟩
  · rintro ⟨⟩ ⟨⟩ ⟨g1, g2, g3⟩; simp_all [sameExpr_forget g3]
  · rintro ⟨⟩ ⟨⟩ ⟨g1, g2⟩; simp_all [sameExpr_forget g2]
  · rintro ⟨⟩ ⟨⟩ ⟨g1, g2, g3⟩; simp_all [sameExpr_forget g2]
  · rintro ⟨⟩ ⟨⟩ ⟨g1, g2, g3⟩; simp_all [sameExpr_forget g2]

end Whasm
