import Verif.Lemmas.Held
import Verif.Lemmas.Validity
import Verif.Lemmas.Plain

/-!
# Lemmas on the parts of a module in a held context
-/

namespace Whasm.Held
open Spec

section
variable {α β : Type}

theorem erase_of_ok {p : H α} {x : α} {c c' : Ctx} (h : p c = (.ok x, c')) : erase p c = .ok (x, c') := by
  unfold erase
  rw [h]

theorem of_erase_ok {p : H α} {x : α} {c c' : Ctx} (h : erase p c = .ok (x, c')) : p c = (.ok x, c') := by
  unfold erase at h
  rcases hp : p c with ⟨e | y, d⟩ <;> rw [hp] at h <;> cases h
  rfl

/-- The verdict, and the context after a success, by a `Checks` fact on the main model. -/
theorem of_checks {p : H Unit} {c : Ctx} {Q : Prop} (h : Checks (erase p) c Q) :
    (Q → p c = (.ok (), c)) ∧ (¬ Q → (p c).1 = .error .invalid) := by
  refine ⟨fun q => of_erase_ok (h.1 q), fun q => ?_⟩
  have h := h.2 q
  unfold erase at h
  rcases hp : p c with ⟨e | y, d⟩ <;> rw [hp] at h <;> cases h
  rfl

/-- A step that sees only the declarations of the context and leaves it alone. -/
def Sees (p : H α) : Prop := ∀ c d, SameDecls c d → (p d).1 = (p c).1 ∧ (p d).2 = d

theorem Sees.pure (x : α) : Sees (Pure.pure x) := fun _ _ _ => ⟨rfl, rfl⟩

theorem Sees.fail (e : VErr) : Sees (H.fail e : H α) := fun _ _ _ => ⟨rfl, rfl⟩

theorem SameDecls.refl (c : Ctx) : SameDecls c c := ⟨rfl, rfl, rfl, rfl, rfl⟩

theorem Sees.bind {p : H α} {f : α → H β} (h : Sees p) (hf : ∀ x, Sees (f x)) : Sees (p >>= f) := by
  intro c d hd
  obtain ⟨h1, h2⟩ := h c d hd
  obtain ⟨_, h3⟩ := h c c (SameDecls.refl c)
  show (H.bind p f d).1 = (H.bind p f c).1 ∧ (H.bind p f d).2 = d
  unfold H.bind
  rcases hc : p c with ⟨r, c'⟩
  rcases hd' : p d with ⟨s, d'⟩
  rw [hc] at h1 h3
  rw [hd'] at h1 h2
  dsimp only at h1 h2 h3
  subst h1 h2 h3
  cases s with
  | error e => exact ⟨rfl, rfl⟩
  | ok x => exact hf x _ _ hd

theorem Sees.ite {b : Prop} [Decidable b] {p q : H α} (hp : Sees p) (hq : Sees q) : Sees (if b then p else q) := by
  split
  · exact hp
  · exact hq

theorem Sees.drop {p : H α} (h : Sees p) : Sees (Held.drop p) := h.bind fun _ => Sees.pure ()

theorem sees_lookup {l l' : List α} (h : l' = l) (i : Idx) (c d : Ctx) : (lookup l' i d).1 = (lookup l i c).1 ∧ (lookup l' i d).2 = d := by
  subst h
  refine ⟨?_, (looks_lookup _ _ _).1⟩
  unfold lookup
  split
  · rfl
  · split <;> rfl

end

theorem sees_typeIdx (i : Idx) : Sees (validateTypeIdx i) := fun c d h => sees_lookup h.1 i c d
theorem sees_funcIdx (i : Idx) : Sees (validateFuncIdx i) := fun c d h => sees_lookup h.2.1 i c d
theorem sees_tableIdx (i : Idx) : Sees (validateTableIdx i) := fun c d h => sees_lookup h.2.2.1 i c d
theorem sees_memIdx (i : Idx) : Sees (validateMemIdx i) := fun c d h => sees_lookup h.2.2.2.1 i c d
theorem sees_globalIdx (i : Idx) : Sees (validateGlobalIdx i) := fun c d h => sees_lookup h.2.2.2.2 i c d

theorem sees_limits (l : Limits) : Sees (validateLimits l) := (Sees.fail _).ite (Sees.pure _)
theorem sees_funcTy (t : FuncTy) : Sees (validateFuncTy t) := (Sees.fail _).ite (Sees.pure _)
theorem sees_tableTy (t : TableTy) : Sees (validateTableTy t) := (sees_limits _).bind fun _ => (Sees.fail _).ite (Sees.pure _)
theorem sees_memTy (t : MemTy) : Sees (validateMemTy t) := (sees_limits _).bind fun _ => (Sees.fail _).ite (Sees.pure _)
theorem sees_table (t : Table) : Sees (validateTable t) := (sees_tableTy _).bind fun _ => Sees.pure _
theorem sees_mem (t : Mem) : Sees (validateMem t) := (sees_memTy _).bind fun _ => Sees.pure _
theorem sees_start (s : Start) : Sees (validateStart s) := (sees_funcIdx _).bind fun _ => (Sees.fail _).ite (Sees.pure _)

theorem sees_import (i : Import) : Sees (validateImport i) := by
  unfold validateImport
  cases i.desc with
  | func t => exact (sees_typeIdx _).bind fun _ => Sees.pure _
  | table t => exact (sees_tableTy _).bind fun _ => Sees.pure _
  | mem t => exact (sees_memTy _).bind fun _ => Sees.pure _
  | global t => exact (Sees.pure ()).bind fun _ => Sees.pure _

theorem sees_export (i : Export) : Sees (validateExport i) := by
  unfold validateExport
  cases i.desc with
  | func t => exact (sees_funcIdx _).bind fun _ => Sees.pure _
  | table t => exact (sees_tableIdx _).bind fun _ => Sees.pure _
  | mem t => exact (sees_memIdx _).bind fun _ => Sees.pure _
  | global t => exact (sees_globalIdx _).bind fun _ => Sees.pure _

theorem sees_moduleIn (m : Module) : Sees (validateModuleIn m) := fun c d _ => by
  rw [module_in, module_in]
  exact ⟨rfl, rfl⟩

/-! ## Parts with a frame of their own -/

/-- A step that opens a frame of its own: it can only succeed on empty stacks, and a failure leaves the context alone or something on the stacks. -/
def Framed {α : Type} (p : H α) : Prop := ∀ c,
  (Dirty c → (∃ e, (p c).1 = .error e) ∧ Dirty (p c).2) ∧ (Clean c → p c = ((p c).1, c) ∨ ((∃ e, (p c).1 = .error e) ∧ Dirty (p c).2))

theorem drop_eq {α : Type} (p : H α) (c : Ctx) : Held.drop p c = match p c with
    | (.ok _, c') => (.ok (), c')
    | (.error e, c') => (.error e, c') := rfl

theorem Framed.drop {α : Type} {p : H α} (h : Framed p) : Framed (Held.drop p) := by
  intro c
  have h := h c
  rw [drop_eq]
  rcases hp : p c with ⟨e | x, c'⟩ <;> rw [hp] at h
  · refine ⟨fun hd => ⟨⟨e, rfl⟩, (h.1 hd).2⟩, fun hc => ?_⟩
    rcases h.2 hc with h | h
    · left; dsimp only at h ⊢; cases h; rfl
    · exact .inr ⟨⟨e, rfl⟩, h.2⟩
  · refine ⟨fun hd => ?_, fun hc => ?_⟩
    · obtain ⟨⟨e, he⟩, _⟩ := h.1 hd; cases he
    · rcases h.2 hc with h | ⟨⟨e, he⟩, _⟩
      · left; dsimp only at h ⊢; cases h; rfl
      · cases he

/-- What `leads_frame` says of one run. -/
theorem frame_run {c : Ctx} {r : List Val} {p : H Unit} (h : Steps c.frames c.operands.length p) :
    match (do pushFrame r r; p; let _ ← popFrame; checkEmpty : H Unit) c with
    | (.ok _, c') => ¬ Dirty c ∧ ¬ Dirty c'
    | (.error _, c') => Dirty c' := by
  have h := leads_frame (r := r) h c (on_self c)
  rcases hp : (do pushFrame r r; p; let _ ← popFrame; checkEmpty : H Unit) c with ⟨e | x, c'⟩ <;> rw [hp] at h
  · exact h
  · exact ⟨fun hd => h.2 (h.1.dirty hd), h.2⟩

theorem clean_not_dirty {c : Ctx} (h : Clean c) : ¬ Dirty c := fun hd => by
  rcases hd with hd | hd
  · exact hd h.frames
  · exact hd h.operands

theorem init_run (c : Ctx) (r : List Val) (e : ConstExpr) :
    match validateInit r e c with
    | (.ok _, c') => ¬ Dirty c ∧ ¬ Dirty c'
    | (.error _, c') => Dirty c' := frame_run (steps_constExpr e)

theorem framed_init (t : Val) (e : ConstExpr) : Framed (validateInit [t] e) := by
  intro c
  have h := init_run c [t] e
  rcases hp : validateInit [t] e c with ⟨x | x, c'⟩ <;> rw [hp] at h
  · exact ⟨fun _ => ⟨⟨x, rfl⟩, h⟩, fun _ => .inr ⟨⟨x, rfl⟩, h⟩⟩
  · refine ⟨fun hd => (h.1 hd).elim, fun hc => .inl ?_⟩
    have hk := of_checks (p := validateInit [t] e) (c := c) (by rw [erase_init]; exact checks_init hc.operands hc.frames t e)
    by_cases hq : ConstOk (envOf c []) e t
    · have := hk.1 hq; rw [hp] at this; cases this; rfl
    · have := hk.2 hq; rw [hp] at this; cases this

theorem bind_eq {α β : Type} (p : H α) (f : α → H β) (c : Ctx) : (p >>= f) c = match p c with
    | (.ok x, c') => f x c'
    | (.error e, c') => (.error e, c') := rfl

/-- Something that only looks, before. -/
theorem Framed.after {α β : Type} {p : H α} {f : α → H β} (h : Looks p) (hf : ∀ x, Framed (f x)) : Framed (p >>= f) := by
  intro c
  rw [bind_eq]
  have h := (h c).1
  rcases hp : p c with ⟨e | x, c'⟩ <;> rw [hp] at h <;> dsimp only at h <;> subst h
  · exact ⟨fun hd => ⟨⟨e, rfl⟩, hd⟩, fun _ => .inl rfl⟩
  · exact hf x c'

/-- Something that only looks, afterwards. -/
theorem Framed.before {α β : Type} {p : H α} {f : α → H β} (h : Framed p) (hf : ∀ x, Looks (f x)) : Framed (p >>= f) := by
  intro c
  rw [bind_eq]
  have h := h c
  rcases hp : p c with ⟨e | x, c'⟩ <;> rw [hp] at h
  · refine ⟨fun hd => ⟨⟨e, rfl⟩, (h.1 hd).2⟩, fun hc => ?_⟩
    rcases h.2 hc with h | h
    · left; dsimp only at h ⊢; cases h; rfl
    · exact .inr ⟨⟨e, rfl⟩, h.2⟩
  · refine ⟨fun hd => ?_, fun hc => ?_⟩
    · obtain ⟨⟨e, he⟩, _⟩ := h.1 hd; cases he
    · rcases h.2 hc with h | ⟨⟨e, he⟩, _⟩
      · left
        dsimp only at h ⊢
        cases h
        have := (hf x c).1
        rcases hx : f x c with ⟨r, d⟩
        rw [hx] at this
        dsimp only at this
        rw [this]
      · cases he

theorem framed_global (g : Global) : Framed (validateGlobal g) :=
  Framed.after (Looks.pure ()) fun _ => (framed_init _ _).before fun _ => Looks.pure _

theorem Framed.ite {α : Type} {b : Prop} [Decidable b] {p : H α} (h : Framed p) : Framed (if b then H.fail .invalid else p) := by
  split
  · exact fun c => ⟨fun hd => ⟨⟨_, rfl⟩, hd⟩, fun _ => .inl rfl⟩
  · exact h

theorem framed_elem (e : Elem) : Framed (validateElem e) :=
  Framed.after (looks_tableIdx _) fun _ => Framed.ite ((framed_init _ _).before fun _ =>
    Looks.forEach (fun i => (looks_funcIdx i).bind fun _ => Looks.pure _) _)

theorem framed_data (d : Data) : Framed (validateData d) :=
  Framed.after (looks_memIdx _) fun _ => framed_init _ _

theorem func_eq (f : Func) : validateFunc f = validateTypeIdx f.ty >>= fun ty =>
    H.modify (fun c => { c with ret := some ty.results, locals := ty.params ++ f.locals }) >>= fun _ =>
      (do pushFrame ty.results ty.results; validateExpr f.body; let _ ← popFrame; checkEmpty : H Unit) >>= fun _ =>
        (do H.modify fun c => { c with locals := [], ret := none }; pure ty : H FuncTy) := by
  have assoc : ∀ {α β γ : Type} (p : H α) (f : α → H β) (g : β → H γ), (p >>= f) >>= g = p >>= fun x => f x >>= g := by
    intro α β γ p f g
    funext c
    rw [bind_eq, bind_eq, bind_eq]
    rcases p c with ⟨e | x, c'⟩ <;> rfl
  unfold validateFunc
  simp only [assoc]

/-- A function without marks: an error leaves something on the stacks unless the type does not exist. -/
theorem func_run {f : Func} (hp : plainL f.body) (c : Ctx) :
    match validateFunc f c with
    | (.ok _, _) => ¬ Dirty c
    | (.error _, c') => (c' = c ∧ c.types.length ≤ f.ty.toNat) ∨ Dirty c' := by
  rw [func_eq, bind_eq]
  have hl := (looks_typeIdx f.ty c).1
  rcases ht : validateTypeIdx f.ty c with ⟨e | t, c'⟩ <;> rw [ht] at hl <;> dsimp only at hl <;> subst hl
  · refine .inl ⟨rfl, ?_⟩
    unfold validateTypeIdx lookup at ht
    by_cases h : f.ty.toNat ≥ c'.types.length
    · exact h
    · rw [if_neg h, List.getElem?_eq_getElem (by omega)] at ht
      cases ht
  · dsimp only
    rw [bind_eq]
    show match ((do pushFrame t.results t.results; validateExpr f.body; let _ ← popFrame; checkEmpty : H Unit) >>= fun _ =>
      (do H.modify fun c => { c with locals := [], ret := none }; pure t : H FuncTy))
        { c' with ret := some t.results, locals := t.params ++ f.locals } with
      | (.ok _, _) => ¬ Dirty c'
      | (.error _, d) => (d = c' ∧ c'.types.length ≤ f.ty.toNat) ∨ Dirty d
    rw [bind_eq]
    have h := frame_run (c := { c' with ret := some t.results, locals := t.params ++ f.locals }) (r := t.results) (steps_expr f.body hp)
    rcases hr : (do pushFrame t.results t.results; validateExpr f.body; let _ ← popFrame; checkEmpty : H Unit)
      { c' with ret := some t.results, locals := t.params ++ f.locals } with ⟨e | x, d⟩ <;> rw [hr] at h
    · exact .inr h
    · exact h.1

theorem framed_func {f : Func} (hp : plainL f.body) : Framed (validateFunc f) := by
  intro c
  have hk : Clean c → ∀ t c', validateFunc f c = (.ok t, c') → c' = c := by
    intro hc t c' h
    rcases func_total hc f with ⟨t', _, _, h'⟩ | h' <;> rw [← erase_func, erase_of_ok h] at h' <;> cases h'
    rfl
  have h := func_run hp c
  rcases hr : validateFunc f c with ⟨e | x, d⟩ <;> rw [hr] at h
  · refine ⟨fun hd => ⟨⟨e, rfl⟩, ?_⟩, fun _ => ?_⟩
    · rcases h with ⟨rfl, _⟩ | h
      · exact hd
      · exact h
    · rcases h with ⟨rfl, _⟩ | h
      · exact .inl rfl
      · exact .inr ⟨⟨e, rfl⟩, h⟩
  · exact ⟨fun hd => (h hd).elim, fun hc => .inl (by rw [hk hc x d hr])⟩

/-! ## The context of a module -/

theorem contextOf_eq {m : Module} {c : Ctx} (h : contextOf m = .ok c) : c = ctxOf m := by
  unfold contextOf at h
  rcases hp : contextFrom m {} with ⟨e | x, c'⟩ <;> rw [hp] at h <;> cases h
  have h1 : Whasm.contextFrom m {} = .ok ((), c) := by
    rw [← erase_contextFrom]
    exact erase_of_ok hp
  by_cases ht : TypesIn m
  · rw [(contextFrom_eq m).1 ht] at h1; cases h1; rfl
  · rw [(contextFrom_eq m).2 ht] at h1; cases h1

end Whasm.Held
