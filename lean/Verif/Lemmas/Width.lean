import Verif.Lemmas.Deep
import Verif.Model.Width
import Verif.Spec.Width

/-!
# Validation with `usize` of a given width

For `Props/Target.lean` and `Props/Width.lean`.
-/

namespace Whasm
open Spec Run

/-! ## Labels -/

theorem label_agree {w : Nat} {build : Build} {i : Idx} {c : Ctx} (hi : i.toNat + 1 < 2 ^ w) :
    validateLabelOn w build i c = validateLabel i c := by
  unfold validateLabelOn validateLabel addUsize subUsize
  simp only [hi, if_true]
  by_cases h : i.toNat + 1 < c.frames.length
  · have h1 : i.toNat ≤ c.frames.length := by omega
    have h2 : 1 ≤ c.frames.length - i.toNat := by omega
    have h3 : ¬ c.frames.length < i.toNat + 1 := by omega
    simp only [h, not_true, if_false, h1, if_true, Option.bind_some, h2, h3]
    cases c.frames.reverse[c.frames.length - i.toNat - 1]? <;> rfl
  · simp only [h, not_false_iff, if_true]

theorem label_overflow {w : Nat} {build : Build} {i : Idx} {c : Ctx} (hi : i.toNat + 1 = 2 ^ w) (h0 : 0 < c.frames.length)
    (h1 : c.frames.length < 2 ^ w) : validateLabelOn w build i c = .error .panic := by
  unfold validateLabelOn addUsize subUsize
  generalize i.toNat = n at hi
  generalize 2 ^ w = m at hi h1
  have e : ¬ n + 1 < m := by omega
  cases build with
  | debug => simp only [e, if_false]
  | release =>
    have h2 : ∀ k, c.frames.length ≤ k → c.frames.reverse[k]? = none := fun k hk => List.getElem?_eq_none (by simpa using hk)
    have h3 : (n + 1) % m = 0 := by rw [hi]; exact Nat.mod_self m
    simp only [e, if_false, h3, h0, not_true]
    by_cases hl : n ≤ c.frames.length
    · have h4 : ¬ 1 ≤ c.frames.length - n := by omega
      simp only [hl, if_true, Option.bind_some, h4, if_false]
      rw [h2 _ (by omega)]
    · have h4 : 1 ≤ c.frames.length + m - n := by omega
      simp only [hl, if_false, Option.bind_some, h4, if_true]
      rw [h2 _ (by omega)]

theorem bindV_congr {α β : Type} {p q : V α} {f g : α → V β} {c : Ctx} (h : p c = q c) (hf : ∀ x c', q c = .ok (x, c') → f x c' = g x c') : (p >>= f) c = (q >>= g) c := by
  cases hq : q c with
  | error e => rw [bind_err (h.trans hq), bind_err hq]
  | ok z => obtain ⟨x, c'⟩ := z; rw [bind_ok (h.trans hq), bind_ok hq]; exact hf x c' hq

theorem bindV_left {α β : Type} {p q : V α} {f : α → V β} {c : Ctx} (h : p c = q c) : (p >>= f) c = (q >>= f) c := bindV_congr h fun _ _ _ => rfl

theorem labelOn_same {w : Nat} {build : Build} {i : Idx} (h : 32 < w ∨ w = 32 ∧ i ≠ 0xFFFFFFFF) : validateLabelOn w build i = validateLabel i := by
  funext c
  refine label_agree ?_
  have hi := i.isLt
  rcases h with h | ⟨rfl, h⟩
  · have : 2 ^ 33 ≤ 2 ^ w := Nat.pow_le_pow_right (by decide) h
    omega
  · have : i.toNat ≠ 0xFFFFFFFF := fun e => h (BitVec.eq_of_toNat_eq e)
    omega

/-! ## More than 32 bits -/

theorem width_labels {w : Nat} {build : Build} (h : 32 < w) (t : List Val) : ∀ ls, Width.validateLabels w build t ls = validateLabels t ls
  | [] => rfl
  | l :: ls => by
    unfold Width.validateLabels validateLabels
    rw [labelOn_same (.inl h), width_labels h t ls]

mutual

theorem width_instr {w : Nat} {build : Build} (h : 32 < w) : ∀ i, Width.validateInstr w build i = validateInstr i
  | .block r b => by unfold Width.validateInstr validateInstr; rw [width_expr h b]
  | .loop r b => by unfold Width.validateInstr validateInstr; rw [width_expr h b]
  | .ifElse r a b => by unfold Width.validateInstr validateInstr; rw [width_expr h a, width_expr h b]
  | .br l => by unfold Width.validateInstr validateInstr; rw [labelOn_same (.inl h)]
  | .brIf l => by unfold Width.validateInstr validateInstr; rw [labelOn_same (.inl h)]
  | .brTable ls l => by
    unfold Width.validateInstr validateInstr
    rw [labelOn_same (.inl h)]
    simp only [width_labels h]
  | .unreachable | .nop | .elseMark | .endMark | .ret | .call _ | .callIndirect _ _ | .drop | .select | .localGet _ | .localSet _ | .localTee _ | .globalGet _ | .globalSet _
  | .load _ _ _ | .store _ _ _ | .memSize _ | .memGrow _ | .constI32 _ | .constI64 _ | .constF32 _ | .constF64 _ | .num _ => rfl

theorem width_expr {w : Nat} {build : Build} (h : 32 < w) : ∀ e, Width.validateExpr w build e = validateExpr e
  | [] => rfl
  | i :: is => by unfold Width.validateExpr validateExpr; rw [width_instr h i, width_expr h is]

end

theorem width_module {w : Nat} {build : Build} (h : 32 < w) (m : Module) : Width.validateModule w build m = validateModule m := by
  have hf : ∀ f, Width.validateFunc w build f = validateFunc f := fun f => by unfold Width.validateFunc validateFunc; rw [width_expr h]
  have hb : Width.validateModuleBody w build m = validateModuleBody m := by
    unfold Width.validateModuleBody validateModuleBody
    simp only [hf]
    rfl
  unfold Width.validateModule validateModule
  rw [hb]
  rfl

/-! ## 32 bits -/

mutual

/-- Validation gets to a branch to the last label. -/
def hitI (C : Env) : Instr → Loc → Prop
  | .block r b, _ => hitL { C with labels := r :: C.labels } b ([], false)
  | .loop _ b, _ => hitL { C with labels := [] :: C.labels } b ([], false)
  | .ifElse r a b, s => ∃ s1, popsL [.i32] s = some s1 ∧ (hitL { C with labels := r :: C.labels } a ([], false) ∨
      ∃ s2, evalExpr { C with labels := r :: C.labels } a ([], false) = some s2 ∧ endL r s2 = some () ∧ hitL { C with labels := r :: C.labels } b ([], false))
  | i, _ => LastLabel C.labels i

def hitL (C : Env) : List Instr → Loc → Prop
  | [], _ => False
  | i :: is, s => hitI C i s ∨ ∃ s', evalInstr C i s = some s' ∧ hitL C is s'

end

section
variable {x : Ctx} {build : Build}

theorem hit_label {base : List Operand} {l o : List Val} {rest : List Frame} {s : Loc} (hr : rest.length + 1 < 2 ^ 32) :
    validateLabelOn 32 build 0xFFFFFFFF (mk x base l o rest s) = .error .panic :=
  label_overflow (by decide) (Nat.succ_pos _) hr

theorem hit_labels {base : List Operand} {l o : List Val} {rest : List Frame} {s : Loc} {t : List Val} (hr : rest.length + 1 < 2 ^ 32) : ∀ ls : List Idx,
    ((∃ a b, ls = a ++ 0xFFFFFFFF :: b ∧ ∀ y ∈ a, (labelsOf l rest)[y.toNat]? = some t) ∧ Width.validateLabels 32 build t ls (mk x base l o rest s) = .error .panic) ∨
    ((¬ ∃ a b, ls = a ++ 0xFFFFFFFF :: b ∧ ∀ y ∈ a, (labelsOf l rest)[y.toNat]? = some t) ∧
      Width.validateLabels 32 build t ls (mk x base l o rest s) = validateLabels t ls (mk x base l o rest s))
  | [] => .inr ⟨by (rintro ⟨a, b, h, _⟩; cases a <;> cases h), rfl⟩
  | y :: ys => by
    by_cases hy : y = 0xFFFFFFFF
    · exact .inl ⟨⟨[], ys, by (rw [hy]; rfl), fun _ h => by (cases h)⟩, by
        subst hy
        exact bind_err (hit_label hr)⟩
    · have h1 : Width.validateLabels 32 build t (y :: ys) = (validateLabel y >>= fun frm => if t ≠ frm.label then V.fail .invalid else Width.validateLabels 32 build t ys) := by
        show (validateLabelOn 32 build y >>= _) = _
        rw [labelOn_same (.inr ⟨rfl, hy⟩)]
      have h2 : validateLabels t (y :: ys) = (validateLabel y >>= fun frm => if t ≠ frm.label then V.fail .invalid else validateLabels t ys) := rfl
      have hsplit : (∃ a b, y :: ys = a ++ 0xFFFFFFFF :: b ∧ ∀ z ∈ a, (labelsOf l rest)[z.toNat]? = some t) ↔
          (labelsOf l rest)[y.toNat]? = some t ∧ ∃ a b, ys = a ++ 0xFFFFFFFF :: b ∧ ∀ z ∈ a, (labelsOf l rest)[z.toNat]? = some t := by
        constructor
        · rintro ⟨a, b, h, ha⟩
          cases a with
          | nil => cases h; exact absurd rfl hy
          | cons z a => cases h; exact ⟨ha _ List.mem_cons_self, a, b, rfl, fun z hz => ha z (List.mem_cons_of_mem _ hz)⟩
        · rintro ⟨h, a, b, rfl, ha⟩
          exact ⟨y :: a, b, rfl, List.forall_mem_cons.mpr ⟨h, ha⟩⟩
      rw [hsplit, h1, h2]
      cases hl : (labelsOf l rest)[y.toNat]? with
      | none =>
        refine .inr ⟨fun h => by (cases h.1), ?_⟩
        rw [bind_err (validateLabel_none x base l o rest hl), bind_err (validateLabel_none x base l o rest hl)]
      | some r =>
        obtain ⟨fr, rfl, h3⟩ := validateLabel_some x base l o rest (s := s) hl
        rw [bind_ok h3, bind_ok h3]
        by_cases ht : t = fr.label
        · have ht' : ¬ t ≠ fr.label := fun h => h ht
          rw [if_neg ht', if_neg ht']
          rcases hit_labels (s := s) (t := t) hr ys with ⟨h4, h5⟩ | ⟨h4, h5⟩
          · exact .inl ⟨⟨by rw [ht], h4⟩, h5⟩
          · exact .inr ⟨fun h => h4 h.2, h5⟩
        · rw [if_pos ht, if_pos ht]
          exact .inr ⟨fun h => ht (Option.some.inj h.1).symm, rfl⟩

/-- In the context of a branch: aborted, or as with an unlimited `usize`. -/
def Either (p q : V Unit) (c : Ctx) (hit : Prop) : Prop := (hit ∧ p c = .error .panic) ∨ (¬ hit ∧ p c = q c)

mutual

theorem either_instr : ∀ (i : Instr), plainI i → ∀ (base : List Operand) (l o : List Val) (rest : List Frame) (s : Loc), rest.length + 1 + depthI i < 2 ^ 32 →
    Either (Width.validateInstr 32 build i) (validateInstr i) (mk x base l o rest s) (hitI (envOf x (labelsOf l rest)) i s)
  | .block r b, hp, base, l, o, rest, s, hr => by
    rw [plainI] at hp
    simp only [depthI] at hr
    have h := either_list b hp (s.1 ++ base) r r (⟨l, o, base.length, s.2⟩ :: rest) ([], false) (by simp only [List.length_cons]; omega)
    unfold Either hitI
    unfold Width.validateInstr validateInstr
    rcases h with ⟨h1, h2⟩ | ⟨h1, h2⟩
    · exact .inl ⟨h1, bind_err (p := Width.validateExpr 32 build b) (f := fun _ => validateEnd) h2⟩
    · exact .inr ⟨h1, bindV_left (p := Width.validateExpr 32 build b) (f := fun _ => validateEnd) h2⟩
  | .loop r b, hp, base, l, o, rest, s, hr => by
    rw [plainI] at hp
    simp only [depthI] at hr
    have h := either_list b hp (s.1 ++ base) [] r (⟨l, o, base.length, s.2⟩ :: rest) ([], false) (by simp only [List.length_cons]; omega)
    unfold Either hitI
    unfold Width.validateInstr validateInstr
    rcases h with ⟨h1, h2⟩ | ⟨h1, h2⟩
    · exact .inl ⟨h1, bind_err (p := Width.validateExpr 32 build b) (f := fun _ => validateEnd) h2⟩
    · exact .inr ⟨h1, bindV_left (p := Width.validateExpr 32 build b) (f := fun _ => validateEnd) h2⟩
  | .ifElse r a b, hp, base, l, o, rest, s, hr => by
    rw [plainI] at hp
    simp only [depthI] at hr
    unfold Either hitI
    unfold Width.validateInstr validateInstr
    have hq := Whasm.pops (c := x) (base := base) (l := l) (o := o) (rest := rest) [.i32] s
    rw [List.reverse_singleton] at hq
    cases h0 : popsL [.i32] s with
    | none =>
      rw [h0] at hq
      refine .inr ⟨fun ⟨_, h, _⟩ => by (cases h), ?_⟩
      exact (bind_err hq).trans (bind_err hq).symm
    | some s1 =>
      rw [h0] at hq
      let rest' := ⟨l, o, base.length, s1.2⟩ :: rest
      have hra : rest'.length + 1 + depthL a < 2 ^ 32 := by simp only [rest', List.length_cons]; omega
      have hrb : rest'.length + 1 + depthL b < 2 ^ 32 := by simp only [rest', List.length_cons]; omega
      have ha := either_list a hp.1 (s1.1 ++ base) r r rest' ([], false) hra
      have hb := either_list b hp.2 (s1.1 ++ base) r r rest' ([], false) hrb
      have hxa := exec_expr x a hp.1 (s1.1 ++ base) r r rest' ([], false)
      have e1 : ∀ (p q : V Unit), (popOperands [.i32] >>= fun _ => pushFrame r r >>= fun _ => p >>= fun _ => validateElse >>= fun _ => q >>= fun _ => validateEnd) (mk x base l o rest s) =
          (p >>= fun _ => validateElse >>= fun _ => q >>= fun _ => validateEnd) (mk x (s1.1 ++ base) r r rest' ([], false)) := fun p q => bind_ok hq
      have e2 : ∀ (p q : V Unit), (validateRetVal r >>= fun ret => popOperands [.i32] >>= fun _ => pushFrame ret ret >>= fun _ => p >>= fun _ => validateElse >>= fun _ => q >>= fun _ => validateEnd)
          (mk x base l o rest s) = (p >>= fun _ => validateElse >>= fun _ => q >>= fun _ => validateEnd) (mk x (s1.1 ++ base) r r rest' ([], false)) := fun p q => e1 p q
      rw [e2, e2]
      have hiff : (∃ s', some s1 = some s' ∧ (hitL { envOf x (labelsOf l rest) with labels := r :: (envOf x (labelsOf l rest)).labels } a ([], false) ∨
          ∃ s2, evalExpr { envOf x (labelsOf l rest) with labels := r :: (envOf x (labelsOf l rest)).labels } a ([], false) = some s2 ∧ endL r s2 = some () ∧
            hitL { envOf x (labelsOf l rest) with labels := r :: (envOf x (labelsOf l rest)).labels } b ([], false))) ↔
          (hitL (envOf x (labelsOf r rest')) a ([], false) ∨ ∃ s2, evalExpr (envOf x (labelsOf r rest')) a ([], false) = some s2 ∧ endL r s2 = some () ∧
            hitL (envOf x (labelsOf r rest')) b ([], false)) := ⟨fun ⟨_, _, h⟩ => h, fun h => ⟨s1, rfl, h⟩⟩
      rw [hiff]
      rcases ha with ⟨h1, h2⟩ | ⟨h1, h2⟩
      · exact .inl ⟨.inl h1, bind_err h2⟩
      · cases h3 : evalExpr (envOf x (labelsOf r rest')) a ([], false) with
        | none =>
          rw [h3] at hxa
          refine .inr ⟨?_, ?_⟩
          · rintro (h | ⟨_, h, _⟩)
            · exact h1 h
            · cases h
          · rw [bind_err (h2.trans hxa), bind_err hxa]
        | some s2 =>
          rw [h3] at hxa
          rw [bind_ok (h2.trans hxa), bind_ok hxa]
          have hf := popFrame_mk x (s1.1 ++ base) r r rest' s2
          cases h4 : endL r s2 with
          | none =>
            rw [h4] at hf
            have hv : validateElse (mk x (s1.1 ++ base) r r rest' s2) = .error .invalid := bind_err hf
            refine .inr ⟨?_, ?_⟩
            · rintro (h | ⟨s2', h, h', _⟩)
              · exact h1 h
              · cases h; rw [h4] at h'; cases h'
            · rw [bind_err hv, bind_err hv]
          | some u =>
            rw [h4] at hf
            have hv : validateElse (mk x (s1.1 ++ base) r r rest' s2) = .ok ((), mk x (s1.1 ++ base) r r rest' ([], false)) := by
              show (popFrame >>= fun ret => pushFrame ret ret) _ = _
              rw [bind_ok hf]
              rfl
            rw [bind_ok hv, bind_ok hv]
            rcases hb with ⟨h5, h6⟩ | ⟨h5, h6⟩
            · exact .inl ⟨.inr ⟨s2, rfl, h4, h5⟩, bind_err h6⟩
            · refine .inr ⟨?_, bindV_left h6⟩
              rintro (h | ⟨_, _, _, h⟩)
              · exact h1 h
              · exact h5 h
  | .br i, _, base, l, o, rest, s, hr => by
    simp only [depthI] at hr
    unfold Either hitI
    unfold Width.validateInstr
    by_cases hi : i = 0xFFFFFFFF
    · subst hi
      exact .inl ⟨.br, bind_err (hit_label hr)⟩
    · refine .inr ⟨fun h => ?_, ?_⟩
      · cases h; exact hi rfl
      · unfold validateInstr
        rw [labelOn_same (.inr ⟨rfl, hi⟩)]
  | .brIf i, _, base, l, o, rest, s, hr => by
    simp only [depthI] at hr
    unfold Either hitI
    unfold Width.validateInstr
    by_cases hi : i = 0xFFFFFFFF
    · subst hi
      exact .inl ⟨.brIf, bind_err (hit_label hr)⟩
    · refine .inr ⟨fun h => ?_, ?_⟩
      · cases h; exact hi rfl
      · unfold validateInstr
        rw [labelOn_same (.inr ⟨rfl, hi⟩)]
  | .brTable ls i, _, base, l, o, rest, s, hr => by
    simp only [depthI] at hr
    unfold Either hitI
    unfold Width.validateInstr
    by_cases hi : i = 0xFFFFFFFF
    · subst hi
      exact .inl ⟨.byDefault ls, bind_err (hit_label hr)⟩
    · unfold validateInstr
      rw [labelOn_same (.inr ⟨rfl, hi⟩)]
      have hiff : LastLabel (labelsOf l rest) (.brTable ls i) ↔ ∃ t, (labelsOf l rest)[i.toNat]? = some t ∧
          ∃ a b, ls = a ++ 0xFFFFFFFF :: b ∧ ∀ y ∈ a, (labelsOf l rest)[y.toNat]? = some t := by
        constructor
        · intro h
          generalize he : Instr.brTable ls i = j at h
          cases h with
          | br => cases he
          | brIf => cases he
          | byDefault => cases he; exact absurd rfl hi
          | inTable b hl ha => cases he; exact ⟨_, hl, _, b, rfl, ha⟩
        · rintro ⟨t, hl, a, b, rfl, ha⟩
          exact .inTable b hl ha
      show (LastLabel (labelsOf l rest) _ ∧ _) ∨ (¬ LastLabel (labelsOf l rest) _ ∧ _)
      rw [hiff]
      cases hl : (labelsOf l rest)[i.toNat]? with
      | none =>
        refine .inr ⟨fun ⟨_, h, _⟩ => by (cases h), ?_⟩
        rw [bind_err (validateLabel_none x base l o rest hl), bind_err (validateLabel_none x base l o rest hl)]
      | some t =>
        obtain ⟨fr, rfl, h3⟩ := validateLabel_some x base l o rest (s := s) hl
        rw [bind_ok h3, bind_ok h3]
        rcases hit_labels (x := x) (build := build) (base := base) (l := l) (o := o) (rest := rest) (s := s) (t := fr.label) hr ls with ⟨h4, h5⟩ | ⟨h4, h5⟩
        · exact .inl ⟨⟨_, rfl, h4⟩, bind_err h5⟩
        · refine .inr ⟨?_, bindV_left h5⟩
          rintro ⟨t, ht, h⟩
          cases ht
          exact h4 h
  | .unreachable, _, _, _, _, _, _, _ | .nop, _, _, _, _, _, _, _ | .ret, _, _, _, _, _, _, _ | .call _, _, _, _, _, _, _, _ | .callIndirect _ _, _, _, _, _, _, _, _ | .drop, _, _, _, _, _, _, _
  | .select, _, _, _, _, _, _, _ | .localGet _, _, _, _, _, _, _, _ | .localSet _, _, _, _, _, _, _, _ | .localTee _, _, _, _, _, _, _, _ | .globalGet _, _, _, _, _, _, _, _
  | .globalSet _, _, _, _, _, _, _, _ | .load _ _ _, _, _, _, _, _, _, _ | .store _ _ _, _, _, _, _, _, _, _ | .memSize _, _, _, _, _, _, _, _ | .memGrow _, _, _, _, _, _, _, _
  | .constI32 _, _, _, _, _, _, _, _ | .constI64 _, _, _, _, _, _, _, _ | .constF32 _, _, _, _, _, _, _, _ | .constF64 _, _, _, _, _, _, _, _ | .num _, _, _, _, _, _, _, _ =>
    .inr ⟨by (unfold hitI; intro h; cases h), rfl⟩

theorem either_list : ∀ (e : List Instr), plainL e → ∀ (base : List Operand) (l o : List Val) (rest : List Frame) (s : Loc), rest.length + 1 + depthL e < 2 ^ 32 →
    Either (Width.validateExpr 32 build e) (validateExpr e) (mk x base l o rest s) (hitL (envOf x (labelsOf l rest)) e s)
  | [], _, _, _, _, _, _, _ => .inr ⟨by (unfold hitL; exact id), rfl⟩
  | i :: is, hp, base, l, o, rest, s, hr => by
    simp only [depthL] at hr
    have hxi := exec_instr x i hp.1 base l o rest s
    unfold Either hitL
    unfold Width.validateExpr validateExpr
    rcases either_instr i hp.1 base l o rest s (by omega) with ⟨h1, h2⟩ | ⟨h1, h2⟩
    · exact .inl ⟨.inl h1, bind_err h2⟩
    · cases h3 : evalInstr (envOf x (labelsOf l rest)) i s with
      | none =>
        rw [h3] at hxi
        refine .inr ⟨?_, ?_⟩
        · rintro (h | ⟨_, h, _⟩)
          · exact h1 h
          · cases h
        · rw [bind_err (h2.trans hxi), bind_err hxi]
      | some s' =>
        rw [h3] at hxi
        rw [bind_ok (h2.trans hxi), bind_ok hxi]
        rcases either_list is hp.2 base l o rest s' (by omega) with ⟨h4, h5⟩ | ⟨h4, h5⟩
        · exact .inl ⟨.inr ⟨s', rfl, h4⟩, h5⟩
        · refine .inr ⟨?_, h5⟩
          rintro (h | ⟨s2, h, h'⟩)
          · exact h1 h
          · cases h; exact h4 h'

end

end

/-! ## Places -/

mutual

/-- Up to the branch the code can be completed. -/
theorem place_of_hitI : ∀ (i : Instr) (is : List Instr) (C : Env) (s : Loc), hitI C i s →
    ∃ p e i' L, SameBefore p (i :: is) e ∧ evalExpr C e s = some ([], true) ∧ p.branch (i :: is) C.labels = some (i', L) ∧ LastLabel L i'
  | .block r b, is, C, s, h => by
    unfold hitI at h
    obtain ⟨p, e, i', L, h1, h2, h3, h4⟩ := place_of_hitL b _ _ h
    refine ⟨.inside 0 p, [.block r e, .unreachable], i', L, .block [] is _ r h1, ?_, h3, h4⟩
    simp only [evalExpr, evalInstr, h2, Option.bind_some, endL_poly]
  | .loop r b, is, C, s, h => by
    unfold hitI at h
    obtain ⟨p, e, i', L, h1, h2, h3, h4⟩ := place_of_hitL b _ _ h
    refine ⟨.inside 0 p, [.loop r e, .unreachable], i', L, .loop [] is _ r h1, ?_, h3, h4⟩
    simp only [evalExpr, evalInstr, h2, Option.bind_some, endL_poly]
  | .ifElse r a b, is, C, s, h => by
    unfold hitI at h
    obtain ⟨s1, h0, h | ⟨s2, h5, h6, h⟩⟩ := h
    · obtain ⟨p, e, i', L, h1, h2, h3, h4⟩ := place_of_hitL a _ _ h
      refine ⟨.inside 0 p, [.ifElse r e [.unreachable], .unreachable], i', L, .ifThen [] is _ r b _ h1, ?_, h3, h4⟩
      simp only [evalExpr, evalInstr, h0, h2, Option.bind_some, endL_poly]
    · obtain ⟨p, e, i', L, h1, h2, h3, h4⟩ := place_of_hitL b _ _ h
      refine ⟨.inElse 0 p, [.ifElse r a e, .unreachable], i', L, .ifElse [] is _ r a h1, ?_, h3, h4⟩
      simp only [evalExpr, evalInstr, h0, h2, h5, h6, Option.bind_some, endL_poly]
  | .br l, is, C, s, h | .brIf l, is, C, s, h => by
    unfold hitI at h
    exact ⟨.here 0, [.unreachable], _, _, .here [] _ _, rfl, rfl, h⟩
  | .brTable ls l, is, C, s, h => by
    unfold hitI at h
    exact ⟨.here 0, [.unreachable], _, _, .here [] _ _, rfl, rfl, h⟩
  | .unreachable, _, _, _, h | .nop, _, _, _, h | .elseMark, _, _, _, h | .endMark, _, _, _, h | .ret, _, _, _, h | .call _, _, _, _, h | .callIndirect _ _, _, _, _, h | .drop, _, _, _, h
  | .select, _, _, _, h | .localGet _, _, _, _, h | .localSet _, _, _, _, h | .localTee _, _, _, _, h | .globalGet _, _, _, _, h | .globalSet _, _, _, _, h | .load _ _ _, _, _, _, h
  | .store _ _ _, _, _, _, h | .memSize _, _, _, _, h | .memGrow _, _, _, _, h | .constI32 _, _, _, _, h | .constI64 _, _, _, _, h | .constF32 _, _, _, _, h | .constF64 _, _, _, _, h
  | .num _, _, _, _, h => by unfold hitI at h; cases h

theorem place_of_hitL : ∀ (e : List Instr) (C : Env) (s : Loc), hitL C e s →
    ∃ p e' i' L, SameBefore p e e' ∧ evalExpr C e' s = some ([], true) ∧ p.branch e C.labels = some (i', L) ∧ LastLabel L i'
  | [], _, _, h => by unfold hitL at h; exact h.elim
  | i :: is, C, s, h => by
    unfold hitL at h
    rcases h with h | ⟨s', h0, h⟩
    · exact place_of_hitI i is C s h
    · obtain ⟨p, e', i', L, h1, h2, h3, h4⟩ := place_of_hitL is C s' h
      refine ⟨later p, i :: e', i', L, same_later i h1, ?_, ?_, h4⟩
      · simp only [evalExpr, h0, Option.bind_some, h2]
      · rw [← h3]
        cases p <;> rfl

end

theorem hitL_append {C : Env} : ∀ (pre e : List Instr) (s s' : Loc), evalExpr C pre s = some s' → hitL C e s' → hitL C (pre ++ e) s
  | [], e, s, s', h, h' => by cases h; exact h'
  | i :: pre, e, s, s', h, h' => by
    simp only [evalExpr, Option.bind_eq_some_iff] at h
    obtain ⟨s1, h1, h2⟩ := h
    show hitL C (i :: (pre ++ e)) s
    unfold hitL
    exact .inr ⟨s1, h1, hitL_append pre e s1 s' h2 h'⟩

theorem hitI_of_last {C : Env} {i : Instr} {s : Loc} (h : LastLabel C.labels i) : hitI C i s := by
  cases h <;> (unfold hitI; constructor)
  all_goals assumption

theorem hit_of_place {p : Place} {a b : List Instr} (h : SameBefore p a b) : ∀ {C : Env} {s s' : Loc} {i : Instr} {L : List (List Val)}, evalExpr C b s = some s' →
    p.branch a C.labels = some (i, L) → LastLabel L i → hitL C a s := by
  induction h with
  | here pre a b =>
    intro C s s' i L he hb hl
    rw [evalExpr_append, Option.bind_eq_some_iff] at he
    obtain ⟨s1, h1, _⟩ := he
    cases a with
    | nil => simp [Place.branch] at hb
    | cons j a =>
      simp only [Place.branch, get_mid, Option.map_some, Option.some.injEq, Prod.mk.injEq] at hb
      obtain ⟨rfl, rfl⟩ := hb
      refine hitL_append pre _ s s1 h1 ?_
      unfold hitL
      exact .inl (hitI_of_last hl)
  | block pre a b r h ih =>
    intro C s s' i L he hb hl
    simp only [evalExpr_append, evalExpr, evalInstr, Option.bind_eq_some_iff] at he
    obtain ⟨s1, h1, s2, ⟨s3, h3, _⟩, _⟩ := he
    simp only [Place.branch, get_mid] at hb
    refine hitL_append pre _ s s1 h1 ?_
    unfold hitL
    refine .inl ?_
    unfold hitI
    exact ih h3 hb hl
  | loop pre a b r h ih =>
    intro C s s' i L he hb hl
    simp only [evalExpr_append, evalExpr, evalInstr, Option.bind_eq_some_iff] at he
    obtain ⟨s1, h1, s2, ⟨s3, h3, _⟩, _⟩ := he
    simp only [Place.branch, get_mid] at hb
    refine hitL_append pre _ s s1 h1 ?_
    unfold hitL
    refine .inl ?_
    unfold hitI
    exact ih h3 hb hl
  | ifThen pre a b r e e' h ih =>
    intro C s s' i L he hb hl
    simp only [evalExpr_append, evalExpr, evalInstr, Option.bind_eq_some_iff] at he
    obtain ⟨s1, h1, s2, ⟨s3, h3, s4, h4, _⟩, _⟩ := he
    simp only [Place.branch, get_mid] at hb
    refine hitL_append pre _ s s1 h1 ?_
    unfold hitL
    refine .inl ?_
    unfold hitI
    exact ⟨s3, h3, .inl (ih h4 hb hl)⟩
  | ifElse pre a b r t h ih =>
    intro C s s' i L he hb hl
    simp only [evalExpr_append, evalExpr, evalInstr, Option.bind_eq_some_iff] at he
    obtain ⟨s1, h1, s2, ⟨s3, h3, s4, h4, _, h5, s6, h6, _⟩, _⟩ := he
    simp only [Place.branch, get_mid] at hb
    refine hitL_append pre _ s s1 h1 ?_
    unfold hitL
    refine .inl ?_
    unfold hitI
    exact ⟨s3, h3, .inr ⟨s4, h4, h5, ih h6 hb hl⟩⟩

/-! ## Functions and modules -/

/-- A function: aborted if it gets to such a branch, otherwise as with an unlimited `usize`. -/
theorem width_func {build : Build} {m : Module} {f : Func} (hp : plainL f.body) (hd : depthL f.body + 1 < 2 ^ 32) :
    (GetsToLast m f ∧ Width.validateFunc 32 build f (ctxOf m) = .error .panic) ∨
    (¬ GetsToLast m f ∧ Width.validateFunc 32 build f (ctxOf m) = validateFunc f (ctxOf m)) := by
  cases ht : m.types[f.ty.toNat]? with
  | none =>
    have hl : validateTypeIdx f.ty (ctxOf m) = .error .invalid := by
      show lookup m.types f.ty (ctxOf m) = _
      unfold lookup
      rw [if_pos (List.getElem?_eq_none_iff.mp ht)]
    refine .inr ⟨?_, (bind_err hl : Width.validateFunc 32 build f (ctxOf m) = _).trans (bind_err hl : validateFunc f (ctxOf m) = _).symm⟩
    rintro ⟨p, b', i, L, _, ⟨t, h, _⟩, _⟩
    have h' : m.types[f.ty.toNat]? = some t := h
    rw [ht] at h'
    cases h'
  | some t =>
    let x : Ctx := { ctxOf m with ret := some t.results, locals := t.params ++ f.locals }
    have hl : validateTypeIdx f.ty (ctxOf m) = .ok (t, ctxOf m) := by
      show lookup m.types f.ty (ctxOf m) = _
      unfold lookup
      rw [ht, if_neg (Nat.not_le_of_lt (List.getElem?_eq_some_iff.mp ht).1)]
    have start1 : Width.validateFunc 32 build f (ctxOf m) = (Width.validateExpr 32 build f.body >>= _) (mk x [] t.results t.results [] ([], false)) := bind_ok hl
    have start2 : validateFunc f (ctxOf m) = (validateExpr f.body >>= _) (mk x [] t.results t.results [] ([], false)) := bind_ok hl
    have hiff : GetsToLast m f ↔ hitL (bodyEnv .code m t f.locals) f.body ([], false) := by
      constructor
      · rintro ⟨p, b', i, L, h1, ⟨t', h2, h3⟩, h4, h5⟩
        have h2' : m.types[f.ty.toNat]? = some t' := h2
        obtain rfl : t = t' := Option.some.inj (ht.symm.trans h2')
        obtain ⟨s, hs, _⟩ := complete_expr (C := bodyEnv .code m t f.locals) h3 (s := ([], false)) (r := []) (.inr rfl)
        exact hit_of_place h1 hs h4 h5
      · intro h
        obtain ⟨p, b', i, L, h1, h2, h3, h4⟩ := place_of_hitL _ _ _ h
        refine ⟨p, b', i, L, h1, ⟨t, ht, (eval_iff (C := bodyEnv .code m t f.locals) rfl).mp ?_⟩, h3, h4⟩
        rw [h2]
        exact endL_poly _
    rw [hiff, start1, start2]
    rcases either_list (x := x) (build := build) f.body hp [] t.results t.results [] ([], false) (by simp only [List.length_nil]; omega) with ⟨h1, h2⟩ | ⟨h1, h2⟩
    · exact .inl ⟨h1, bind_err h2⟩
    · exact .inr ⟨h1, bindV_left h2⟩

/-- If each function panics where it has `P` and is otherwise validated as usual, then validation of all of them panics iff one has `P` and those before it are valid. -/
theorem each_func {m : Module} {q : Func → V FuncTy} {P : Func → Prop} : ∀ fs : List Func,
    (∀ f ∈ fs, (P f ∧ q f (ctxOf m) = .error .panic) ∨ (¬ P f ∧ q f (ctxOf m) = validateFunc f (ctxOf m))) →
    ((∃ before f after, fs = before ++ f :: after ∧ (∀ g ∈ before, Accepted m g) ∧ P f) ∧
      forEach (fun f => do let _ ← q f; pure ()) fs (ctxOf m) = .error .panic) ∨
    ((¬ ∃ before f after, fs = before ++ f :: after ∧ (∀ g ∈ before, Accepted m g) ∧ P f) ∧
      forEach (fun f => do let _ ← q f; pure ()) fs (ctxOf m) = forEach (fun f => do let _ ← validateFunc f; pure ()) fs (ctxOf m))
  | [], _ => .inr ⟨by (rintro ⟨before, f, after, h, _⟩; cases before <;> cases h), rfl⟩
  | g :: fs, hf => by
    have step1 : forEach (fun f => do let _ ← q f; pure ()) (g :: fs) (ctxOf m) =
        ((do let _ ← q g; pure ()) >>= fun _ => forEach (fun f => do let _ ← q f; pure ()) fs) (ctxOf m) := rfl
    have step2 : forEach (fun f => do let _ ← validateFunc f; pure ()) (g :: fs) (ctxOf m) =
        ((do let _ ← validateFunc g; pure ()) >>= fun _ => forEach (fun f => do let _ ← validateFunc f; pure ()) fs) (ctxOf m) := rfl
    rw [step1, step2]
    rcases hf g List.mem_cons_self with ⟨h1, h2⟩ | ⟨h1, h2⟩
    · exact .inl ⟨⟨[], g, fs, rfl, fun _ h => by (cases h), h1⟩, bind_err (bind_err h2)⟩
    · rcases func_total (clean_ctxOf m) g with ⟨t, _, _, h⟩ | h
      · rw [bind_ok (x := ()) (c' := ctxOf m) (bind_ok (h2.trans h)), bind_ok (x := ()) (c' := ctxOf m) (bind_ok h)]
        have hiff : (∃ before f after, g :: fs = before ++ f :: after ∧ (∀ g ∈ before, Accepted m g) ∧ P f) ↔
            ∃ before f after, fs = before ++ f :: after ∧ (∀ g ∈ before, Accepted m g) ∧ P f := by
          constructor
          · rintro ⟨before, f, after, h3, h4, h5⟩
            cases before with
            | nil => cases h3; exact absurd h5 h1
            | cons y before => cases h3; exact ⟨before, f, after, rfl, fun y hy => h4 y (List.mem_cons_of_mem _ hy), h5⟩
          · rintro ⟨before, f, after, rfl, h4, h5⟩
            exact ⟨g :: before, f, after, rfl, List.forall_mem_cons.mpr ⟨⟨t, h⟩, h4⟩, h5⟩
        rw [hiff]
        exact each_func fs fun f hf' => hf f (List.mem_cons_of_mem _ hf')
      · rw [bind_err (bind_err (h2.trans h)), bind_err (bind_err h)]
        refine .inr ⟨?_, rfl⟩
        rintro ⟨before, f, after, h3, h4, h5⟩
        cases before with
        | nil => cases h3; exact h1 h5
        | cons y before =>
          cases h3
          obtain ⟨t, h6⟩ := h4 g List.mem_cons_self
          rw [h] at h6
          cases h6

theorem width_funcs {build : Build} {m : Module} (fs : List Func) (h : ∀ f ∈ fs, plainL f.body ∧ depthL f.body + 1 < 2 ^ 32) :
    ((∃ before f after, fs = before ++ f :: after ∧ (∀ g ∈ before, Accepted m g) ∧ GetsToLast m f) ∧
      forEach (fun f => do let _ ← Width.validateFunc 32 build f; pure ()) fs (ctxOf m) = .error .panic) ∨
    ((¬ ∃ before f after, fs = before ++ f :: after ∧ (∀ g ∈ before, Accepted m g) ∧ GetsToLast m f) ∧
      forEach (fun f => do let _ ← Width.validateFunc 32 build f; pure ()) fs (ctxOf m) = forEach (fun f => do let _ ← validateFunc f; pure ()) fs (ctxOf m)) :=
  each_func fs fun f hf => width_func (h f hf).1 (h f hf).2

theorem width_either {build : Build} {m : Module} (hp : Plain m) (hd : ∀ f ∈ m.funcs, depthL f.body + 1 < 2 ^ 32) :
    (BranchesToLast m ∧ Width.validateModule 32 build m = .error .panic) ∨ (¬ BranchesToLast m ∧ Width.validateModule 32 build m = validateModule m) := by
  obtain ⟨c1, c2⟩ := contextFrom_eq m
  have ht : Checks (forEach validateFuncTy m.types) (ctxOf m) (∀ t ∈ m.types, t.results.length ≤ 1) := checks_forEach fun t _ => checks_if.congr (by simp)
  by_cases hi : TypesIn m
  · by_cases htt : ∀ t ∈ m.types, t.results.length ≤ 1
    · have hiff : BranchesToLast m ↔ ∃ before f after, m.funcs = before ++ f :: after ∧ (∀ g ∈ before, Accepted m g) ∧ GetsToLast m f := by
        constructor
        · rintro ⟨_, _, _, before, f, after, h4, h5, h6⟩
          have hm : ∀ g, g ∈ before ++ f :: after → plainL g.body := fun g hg => hp g (h4 ▸ hg)
          exact ⟨before, f, after, h4, fun g hg => (accepted_iff m (hm g (List.mem_append_left _ hg))).mpr (h5 g hg), h6⟩
        · rintro ⟨before, f, after, h4, h5, h6⟩
          have hm : ∀ g, g ∈ before ++ f :: after → plainL g.body := fun g hg => hp g (h4 ▸ hg)
          exact ⟨hi.1, hi.2, htt, before, f, after, h4, fun g hg => (accepted_iff m (hm g (List.mem_append_left _ hg))).mp (h5 g hg), h6⟩
      rw [hiff]
      rcases width_funcs (build := build) (m := m) m.funcs fun f hf => ⟨hp f hf, hd f hf⟩ with ⟨h1, h2⟩ | ⟨h1, h2⟩
      · refine .inl ⟨h1, ?_⟩
        unfold Width.validateModule
        rw [bind_ok (c1 hi), show Width.validateModuleBody 32 build m (ctxOf m) = .error .panic from (bind_ok (ht.1 htt)).trans (bind_err h2)]
      · refine .inr ⟨h1, ?_⟩
        unfold Width.validateModule validateModule
        rw [bind_ok (c1 hi), bind_ok (c1 hi)]
        have hb : Width.validateModuleBody 32 build m (ctxOf m) = validateModuleBody m (ctxOf m) := by
          refine (bind_ok (ht.1 htt)).trans (Eq.trans ?_ (bind_ok (ht.1 htt)).symm)
          exact bindV_congr h2 fun _ _ _ => rfl
        rw [hb]
        rfl
    · refine .inr ⟨fun h => htt h.types, ?_⟩
      unfold Width.validateModule validateModule
      rw [bind_ok (c1 hi), bind_ok (c1 hi), show Width.validateModuleBody 32 build m (ctxOf m) = .error .invalid from bind_err (ht.2 htt),
        show validateModuleBody m (ctxOf m) = .error .invalid from bind_err (ht.2 htt)]
  · refine .inr ⟨fun h => hi ⟨h.imports, h.indices⟩, ?_⟩
    unfold Width.validateModule validateModule
    rw [bind_err (c2 hi), bind_err (c2 hi)]

end Whasm
