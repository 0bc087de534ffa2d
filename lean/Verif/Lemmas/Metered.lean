import Verif.Model.Metered
import Verif.Spec.Cost
import Verif.Lemmas.Siblings
import Verif.Lemmas.Plain

/-!
# The cost of validation
-/

namespace Whasm.Meter
open Spec

/-! ## The result -/

/-- `p` computes what `v` computes. -/
def Erases {α : Type} (p : T α) (v : V α) : Prop := ∀ c, (p c).out = v c

theorem bind_ok' {α β : Type} {p : T α} {f : α → T β} {c c' : Ctx} {x : α} (h : (p c).out = .ok (x, c')) :
    (p >>= f) c = ⟨(f x c').out, (p c).steps + (f x c').steps, max (p c).peak (f x c').peak⟩ := by
  show T.bind p f c = _
  unfold T.bind
  rcases hp : p c with ⟨o, n, k⟩
  rw [hp] at h
  dsimp only at h
  subst h
  rfl

theorem bind_err' {α β : Type} {p : T α} {f : α → T β} {c : Ctx} {e : VErr} (h : (p c).out = .error e) :
    (p >>= f) c = ⟨.error e, (p c).steps, (p c).peak⟩ := by
  show T.bind p f c = _
  unfold T.bind
  rcases hp : p c with ⟨o, n, k⟩
  rw [hp] at h
  dsimp only at h
  subst h
  rfl

section
variable {α β : Type}

theorem erases_pure (x : α) : Erases (pure x : T α) (pure x) := fun _ => rfl
theorem erases_fail (e : VErr) : Erases (T.fail e : T α) (V.fail e) := fun _ => rfl
theorem erases_op (n : Nat) (v : V α) : Erases (op n v) v := fun _ => rfl

theorem erases_bind {p : T α} {v : V α} {f : α → T β} {g : α → V β} (h : Erases p v) (hf : ∀ x, Erases (f x) (g x)) : Erases (p >>= f) (v >>= g) := by
  intro c
  have h := h c
  cases hv : v c with
  | error e =>
    rw [hv] at h
    rw [bind_err' h, bind_err hv]
  | ok r =>
    rw [hv] at h
    rw [bind_ok' h, bind_ok hv]
    exact hf r.1 r.2

theorem erases_tick {v : V β} {n : Nat} {f : Unit → T β} (h : Erases (f ()) v) : Erases (tick n >>= f) v := by
  intro c
  rw [bind_ok' (p := tick n) (x := ()) (c' := c) rfl]
  exact h c

theorem erases_ite {c : Prop} [Decidable c] {p q : T α} {v w : V α} (h : Erases p v) (hq : Erases q w) : Erases (if c then p else q) (if c then v else w) := by
  by_cases hc : c
  · rw [if_pos hc, if_pos hc]; exact h
  · rw [if_neg hc, if_neg hc]; exact hq

theorem erases_pushOperands : ∀ vs : List Val, Erases (pushOperands vs) (Whasm.pushOperands vs)
  | [] => erases_pure ()
  | _ :: vs => erases_bind (erases_op _ _) fun _ => erases_pushOperands vs

theorem erases_popReversed : ∀ vs : List Val, Erases (popReversed vs) (Whasm.popReversed vs)
  | [] => erases_pure ()
  | _ :: vs => erases_bind (erases_op _ _) fun _ => erases_popReversed vs

theorem erases_popOperands (vs : List Val) : Erases (popOperands vs) (Whasm.popOperands vs) := erases_popReversed _

theorem erases_popFrame : Erases popFrame Whasm.popFrame := by
  refine erases_bind (fun _ => rfl) fun c => ?_
  cases c.frames with
  | nil => exact erases_fail _
  | cons f _ =>
    refine erases_bind (erases_popOperands _) fun _ => erases_bind (fun _ => rfl) fun c => erases_ite (erases_fail _) ?_
    cases c.frames with
    | nil => exact erases_fail _
    | cons _ _ => exact erases_bind (erases_op _ _) fun _ => erases_pure _

theorem erases_end : Erases validateEnd Whasm.validateEnd := erases_bind erases_popFrame fun _ => erases_pushOperands _
theorem erases_else : Erases validateElse Whasm.validateElse := erases_bind erases_popFrame fun _ => erases_op _ _

theorem erases_labels (l : List Val) : ∀ ls : List Idx, Erases (validateLabels l ls) (Whasm.validateLabels l ls)
  | [] => erases_pure ()
  | _ :: ls => erases_bind (erases_op _ _) fun _ => erases_tick (erases_ite (erases_fail _) (erases_labels l ls))

mutual

theorem erases_instr : ∀ i : Instr, Erases (validateInstr i) (Whasm.validateInstr i)
  | .block _ b => erases_bind (erases_op _ _) fun _ => erases_bind (erases_op _ _) fun _ => erases_bind (erases_expr b) fun _ => erases_end
  | .loop _ b => erases_bind (erases_op _ _) fun _ => erases_bind (erases_op _ _) fun _ => erases_bind (erases_expr b) fun _ => erases_end
  | .ifElse _ a b => erases_bind (erases_op _ _) fun _ => erases_bind (erases_popOperands _) fun _ => erases_bind (erases_op _ _) fun _ =>
      erases_bind (erases_expr a) fun _ => erases_bind erases_else fun _ => erases_bind (erases_expr b) fun _ => erases_end
  | .elseMark => erases_else
  | .endMark => erases_end
  | .unreachable => erases_op _ _
  | .nop => erases_pure ()
  | .br _ => erases_bind (erases_op _ _) fun _ => erases_bind (erases_popOperands _) fun _ => erases_op _ _
  | .brIf _ => erases_bind (erases_op _ _) fun _ => erases_bind (erases_popOperands _) fun _ => erases_bind (erases_popOperands _) fun _ =>
      erases_pushOperands _
  | .brTable ls _ => erases_bind (erases_op _ _) fun _ => erases_bind (erases_labels _ ls) fun _ => erases_bind (erases_popOperands _) fun _ =>
      erases_bind (erases_popOperands _) fun _ => erases_op _ _
  | .ret => by
    refine erases_bind (fun _ => rfl) fun c => ?_
    cases c.ret with
    | none => exact erases_fail _
    | some t => exact erases_bind (erases_popOperands _) fun _ => erases_op _ _
  | .call _ => erases_bind (erases_op _ _) fun _ => erases_bind (erases_popOperands _) fun _ => erases_pushOperands _
  | .callIndirect _ _ => erases_bind (erases_op _ _) fun _ => erases_bind (erases_op _ _) fun _ => erases_ite (erases_fail _)
      (erases_bind (erases_popOperands _) fun _ => erases_bind (erases_popOperands _) fun _ => erases_pushOperands _)
  | .drop => erases_bind (erases_op _ _) fun _ => erases_pure ()
  | .select => erases_bind (erases_popOperands _) fun _ => erases_bind (erases_op _ _) fun _ => erases_bind (erases_op _ _) fun _ => erases_op _ _
  | .localGet _ => erases_bind (erases_op _ _) fun _ => erases_pushOperands _
  | .localSet _ => erases_bind (erases_op _ _) fun _ => erases_popOperands _
  | .localTee _ => erases_bind (erases_op _ _) fun _ => erases_bind (erases_popOperands _) fun _ => erases_pushOperands _
  | .globalGet _ => erases_bind (erases_op _ _) fun _ => erases_pushOperands _
  | .globalSet _ => erases_bind (erases_op _ _) fun _ => erases_ite (erases_fail _) (erases_popOperands _)
  | .load _ _ _ => erases_bind (erases_op _ _) fun _ => erases_bind (erases_popOperands _) fun _ => erases_pushOperands _
  | .store _ _ _ => erases_bind (erases_op _ _) fun _ => erases_popOperands _
  | .memSize _ => erases_bind (erases_op _ _) fun _ => erases_pushOperands _
  | .memGrow _ => erases_bind (erases_op _ _) fun _ => erases_bind (erases_popOperands _) fun _ => erases_pushOperands _
  | .constI32 _ => erases_pushOperands _
  | .constI64 _ => erases_pushOperands _
  | .constF32 _ => erases_pushOperands _
  | .constF64 _ => erases_pushOperands _
  | .num _ => erases_bind (erases_popOperands _) fun _ => erases_pushOperands _

theorem erases_expr : ∀ e : List Instr, Erases (validateExpr e) (Whasm.validateExpr e)
  | [] => erases_pure ()
  | i :: is => erases_tick (erases_bind (erases_instr i) fun _ => erases_expr is)

end

theorem erases_constCheck : ∀ i : Instr, Erases (validateConstCheck i) (Whasm.validateConstCheck i) := by
  intro i
  cases i
  case globalGet => exact erases_bind (erases_op _ _) fun _ => erases_ite (erases_fail _) (erases_pure ())
  all_goals first | exact erases_pure () | exact erases_fail _

theorem erases_constExpr : ∀ e : List Instr, Erases (validateConstExpr e) (Whasm.validateConstExpr e)
  | [] => erases_pure ()
  | i :: is => erases_tick (erases_bind (erases_constCheck i) fun _ => erases_bind (erases_instr i) fun _ => erases_constExpr is)

theorem erases_forEach {f : α → T Unit} {g : α → V Unit} (h : ∀ x, Erases (f x) (g x)) : ∀ xs : List α, Erases (forEach f xs) (Whasm.forEach g xs)
  | [] => erases_pure ()
  | x :: xs => erases_bind (h x) fun _ => erases_forEach h xs

theorem erases_collect {f : α → T β} {g : α → V β} (h : ∀ x, Erases (f x) (g x)) : ∀ xs : List α, Erases (collect f xs) (Whasm.collect g xs)
  | [] => erases_pure []
  | x :: xs => erases_bind (h x) fun _ => erases_bind (erases_collect h xs) fun _ => erases_pure _

theorem erases_discard {p : T α} {v : V α} (h : Erases p v) : Erases (do let _ ← p; pure ()) (do let _ ← v; pure ()) :=
  erases_bind h fun _ => erases_pure ()

theorem erases_contextFrom (m : Module) : Erases (contextFrom m) (Whasm.contextFrom m) := by
  refine erases_bind (erases_op _ _) fun _ => erases_bind (erases_forEach (fun i => ?_) _) fun _ => erases_bind (erases_forEach (fun i => ?_) _) fun _ =>
    erases_bind (erases_forEach (fun i => ?_) _) fun _ => erases_bind (erases_forEach (fun i => ?_) _) fun _ =>
    erases_bind (erases_forEach (fun i => ?_) _) fun _ => erases_bind (erases_forEach (fun i => ?_) _) fun _ =>
    erases_bind (erases_forEach (fun i => ?_) _) fun _ => erases_forEach (fun i => ?_) _
  · cases i.desc with
    | func x => exact erases_bind (erases_op _ _) fun _ => erases_op _ _
    | _ => exact erases_op _ _
  · cases i.desc <;> exact erases_op _ _
  · cases i.desc <;> exact erases_op _ _
  · cases i.desc <;> exact erases_op _ _
  · exact erases_bind (erases_op _ _) fun _ => erases_op _ _
  · exact erases_op _ _
  · exact erases_op _ _
  · exact erases_op _ _

theorem erases_func (f : Func) : Erases (validateFunc f) (Whasm.validateFunc f) :=
  erases_bind (erases_op _ _) fun _ => erases_bind (erases_op _ _) fun _ => erases_bind (erases_op _ _) fun _ => erases_bind (erases_expr _) fun _ =>
    erases_bind erases_popFrame fun _ => erases_bind (erases_op _ _) fun _ => erases_bind (erases_op _ _) fun _ => erases_pure _

theorem erases_init (t : List Val) (e : ConstExpr) : Erases (validateInit t e) (Whasm.validateInit t e) :=
  erases_bind (erases_op _ _) fun _ => erases_bind (erases_constExpr _) fun _ => erases_bind erases_popFrame fun _ => erases_op _ _

theorem erases_global (g : Global) : Erases (validateGlobal g) (Whasm.validateGlobal g) :=
  erases_bind (erases_op _ _) fun _ => erases_bind (erases_init _ _) fun _ => erases_pure _

theorem erases_elem (e : Elem) : Erases (validateElem e) (Whasm.validateElem e) :=
  erases_bind (erases_op _ _) fun _ => erases_ite (erases_fail _) (erases_bind (erases_init _ _) fun _ => erases_forEach (fun _ => erases_discard (erases_op _ _)) _)

theorem erases_data (d : Data) : Erases (validateData d) (Whasm.validateData d) := erases_bind (erases_op _ _) fun _ => erases_init _ _

theorem erases_start (s : Start) : Erases (validateStart s) (Whasm.validateStart s) :=
  erases_bind (erases_op _ _) fun _ => erases_ite (erases_fail _) (erases_pure ())

theorem erases_import (i : Import) : Erases (validateImport i) (Whasm.validateImport i) := by
  unfold validateImport Whasm.validateImport
  cases i.desc <;> exact erases_bind (erases_op _ _) fun _ => erases_pure _

theorem erases_export (e : Export) : Erases (validateExport e) (Whasm.validateExport e) := by
  unfold validateExport Whasm.validateExport
  cases e.desc <;> exact erases_bind (erases_op _ _) fun _ => erases_pure _

theorem erases_withCtx {c0 : Ctx} {p : T α} {v : V α} {c1 : Ctx} {u : V Unit} (hu : u c1 = .ok ((), c0)) (h : Erases p v) :
    Erases (withCtx c0 p) (Whasm.withCtx c1 (u >>= fun _ => v)) := by
  intro c
  unfold withCtx Whasm.withCtx
  rw [bind_ok hu]
  have h := h c0
  rcases hp : p c0 with ⟨o, n, k⟩
  rw [hp] at h
  dsimp only at h
  rw [← h]
  rcases o with e | ⟨x, c'⟩ <;> rfl

theorem erases_body (m : Module) : Erases (validateModuleBody m) (Whasm.validateModuleBody m) := by
  refine erases_tick (erases_bind (erases_forEach (fun _ => erases_op _ _) _) fun _ => erases_bind (erases_forEach (fun _ => erases_discard (erases_func _)) _) fun _ =>
    erases_bind (erases_forEach (fun _ => erases_discard (erases_bind (erases_op _ _) fun _ => erases_pure _)) _) fun _ =>
    erases_bind (erases_forEach (fun _ => erases_discard (erases_bind (erases_op _ _) fun _ => erases_pure _)) _) fun _ =>
    erases_bind (erases_withCtx (useGlobals_eq m.globals {}) (erases_forEach (fun _ => erases_discard (erases_global _)) _)) fun _ =>
    erases_bind (erases_forEach erases_elem _) fun _ => erases_bind (erases_forEach erases_data _) fun _ => ?_)
  have hrest : Erases (do
      let imports ← collect validateImport m.imports
      let exports ← collect validateExport m.exports
      if ¬ (m.tables.length ≤ 1) then T.fail .invalid
      else if ¬ (m.mems.length ≤ 1) then T.fail .invalid
      else
        tick m.exports.length
        let exportNames := m.exports.map (·.name)
        let exportNames := dedup (sortNames exportNames)
        if exportNames.length ≠ m.exports.length then T.fail .invalid
        else pure { imports := imports, exports := exports } : T ModuleResult) (do
      let imports ← Whasm.collect Whasm.validateImport m.imports
      let exports ← Whasm.collect Whasm.validateExport m.exports
      if ¬ (m.tables.length ≤ 1) then V.fail .invalid
      else if ¬ (m.mems.length ≤ 1) then V.fail .invalid
      else
        let exportNames := m.exports.map (·.name)
        let exportNames := dedup (sortNames exportNames)
        if exportNames.length ≠ m.exports.length then V.fail .invalid
        else pure { imports := imports, exports := exports }) :=
    erases_bind (erases_collect erases_import _) fun _ => erases_bind (erases_collect erases_export _) fun _ =>
      erases_ite (erases_fail _) (erases_ite (erases_fail _) (erases_tick (erases_ite (erases_fail _) (erases_pure _))))
  cases m.start with
  | none => exact hrest
  | some s => exact erases_bind (erases_start s) fun _ => hrest

/-- The metered validator computes what the validator computes. -/
theorem erases_module (m : Module) : Whasm.validateModule m = match (validateModule m).out with | .ok (r, _) => .ok r | .error e => .error e := by
  unfold Whasm.validateModule validateModule
  rw [erases_bind (erases_contextFrom m) fun _ => erases_body m]
  rfl

end

/-! ## Bounds -/

/-- From a context with `I`, `p` does at most `n` steps, the context grows by at most `g` entries, and success ends with `Q`. -/
def Bound {α : Type} (I : Ctx → Prop) (p : T α) (n g : Nat) (Q : α → Ctx → Prop) : Prop :=
  ∀ c, I c → (p c).steps ≤ n ∧ (p c).peak ≤ entries c + g ∧ ∀ x c', (p c).out = .ok (x, c') → Q x c' ∧ entries c' ≤ entries c + g

section
variable {α β : Type} {I J : Ctx → Prop}

theorem bound_bind {p : T α} {k : α → T β} {n1 n2 g1 g2 : Nat} {Q : α → Ctx → Prop} {Q' : β → Ctx → Prop} (h : Bound I p n1 g1 Q)
    (hk : ∀ x, Bound (Q x) (k x) n2 g2 Q') : Bound I (p >>= k) (n1 + n2) (g1 + g2) Q' := by
  intro c hc
  obtain ⟨h1, h2, h3⟩ := h c hc
  cases hp : (p c).out with
  | error e =>
    rw [bind_err' hp]
    exact ⟨by show (p c).steps ≤ _; omega, by show (p c).peak ≤ _; omega, fun x c' h => by cases h⟩
  | ok r =>
    obtain ⟨x, c'⟩ := r
    obtain ⟨hq, hg⟩ := h3 x c' hp
    obtain ⟨k1, k2, k3⟩ := hk x c' hq
    rw [bind_ok' hp]
    refine ⟨by show _ + _ ≤ _; omega, by show max _ _ ≤ _; omega, fun y c'' h => ?_⟩
    obtain ⟨a, b⟩ := k3 y c'' h
    exact ⟨a, by omega⟩

theorem bound_mono {p : T α} {n g n' g' : Nat} {Q Q' : α → Ctx → Prop} (h : Bound J p n g Q) (hn : n ≤ n') (hg : g ≤ g') (hI : ∀ c, I c → J c)
    (hQ : ∀ x c, Q x c → Q' x c) : Bound I p n' g' Q' := by
  intro c hc
  obtain ⟨h1, h2, h3⟩ := h c (hI c hc)
  refine ⟨by omega, by omega, fun x c' h => ?_⟩
  obtain ⟨a, b⟩ := h3 x c' h
  exact ⟨hQ x c' a, by omega⟩

theorem bound_le {p : T α} {n g n' g' : Nat} {Q : α → Ctx → Prop} (h : Bound I p n g Q) (hn : n ≤ n') (hg : g ≤ g') : Bound I p n' g' Q :=
  bound_mono h hn hg (fun _ h => h) fun _ _ h => h

theorem bound_fail {e : VErr} {Q : α → Ctx → Prop} : Bound I (T.fail e : T α) 0 0 Q :=
  fun _ _ => ⟨Nat.le_refl _, Nat.zero_le _, fun _ _ h => by cases h⟩

theorem bound_op {v : V α} {n g : Nat} {Q : α → Ctx → Prop} (h : ∀ c, I c → ∀ x c', v c = .ok (x, c') → Q x c' ∧ entries c' ≤ entries c + g) :
    Bound I (op n v) n g Q := by
  intro c hc
  refine ⟨Nat.le_refl _, ?_, h c hc⟩
  show (match v c with | .ok (_, c') => entries c' | .error _ => 0) ≤ _
  cases hv : v c with
  | error e => exact Nat.zero_le _
  | ok r => exact (h c hc r.1 r.2 hv).2

/-- `p` keeps `I` and gives a result with `P`. -/
abbrev Keeps (I : Ctx → Prop) (p : T α) (n g : Nat) (P : α → Prop) : Prop := Bound I p n g fun x c => P x ∧ I c

theorem keeps_bind {p : T α} {k : α → T β} {n1 n2 g1 g2 : Nat} {P : α → Prop} {Q' : β → Ctx → Prop} (h : Keeps I p n1 g1 P)
    (hk : ∀ x, P x → Bound I (k x) n2 g2 Q') : Bound I (p >>= k) (n1 + n2) (g1 + g2) Q' :=
  bound_bind h fun x c hc => hk x hc.1 c hc.2

theorem keeps_pure {x : α} {P : α → Prop} (h : P x) : Keeps I (pure x : T α) 0 0 P :=
  fun _ hc => ⟨Nat.le_refl _, Nat.zero_le _, fun _ _ e => by cases e; exact ⟨⟨h, hc⟩, Nat.le_refl _⟩⟩

theorem keeps_tick {n : Nat} : Keeps I (tick n) n 0 fun _ => True :=
  bound_op fun _ hc _ _ e => by cases e; exact ⟨⟨trivial, hc⟩, Nat.le_refl _⟩

theorem keeps_ite {c : Prop} [Decidable c] {p : T α} {e : VErr} {n g : Nat} {P : α → Prop} (h : Keeps I p n g P) :
    Keeps I (if c then T.fail e else p) n g P := by
  by_cases hc : c
  · rw [if_pos hc]; exact bound_le bound_fail (Nat.zero_le _) (Nat.zero_le _)
  · rw [if_neg hc]; exact h

theorem keeps_forEach {f : α → T Unit} {n g : α → Nat} : ∀ xs : List α, (∀ x ∈ xs, Keeps I (f x) (n x) (g x) fun _ => True) →
    Keeps I (forEach f xs) (total n xs) (total g xs) fun _ => True
  | [], _ => keeps_pure trivial
  | x :: xs, h => keeps_bind (h x (.head _)) fun _ _ => keeps_forEach xs fun y hy => h y (.tail _ hy)

theorem keeps_collect {f : α → T β} {n g : α → Nat} : ∀ xs : List α, (∀ x ∈ xs, Keeps I (f x) (n x) (g x) fun _ => True) →
    Keeps I (collect f xs) (total n xs) (total g xs) fun _ => True
  | [], _ => keeps_pure trivial
  | x :: xs, h => keeps_bind (h x (.head _)) fun _ _ => bound_le (keeps_bind (keeps_collect xs fun y hy => h y (.tail _ hy)) fun _ _ => keeps_pure trivial)
      (Nat.le_refl _) (Nat.le_refl _)

/-- A loop whose body leaves the context as it was grows only by its largest iteration. -/
theorem bound_forEach_same {f : α → T Unit} {n : α → Nat} {g : Nat} : ∀ xs : List α, (∀ x ∈ xs, ∀ c, I c → (f x c).steps ≤ n x ∧ (f x c).peak ≤ entries c + g ∧ ∀ y c', (f x c).out = .ok (y, c') → c' = c) →
    ∀ c, I c → (forEach f xs c).steps ≤ total n xs ∧ (forEach f xs c).peak ≤ entries c + g ∧ ∀ y c', (forEach f xs c).out = .ok (y, c') → c' = c
  | [], _, c, hc => ⟨Nat.le_refl _, Nat.zero_le _, fun _ _ h => by cases h; rfl⟩
  | x :: xs, h, c, hc => by
    obtain ⟨h1, h2, h3⟩ := h x (.head _) c hc
    have ih := bound_forEach_same xs (fun y hy => h y (.tail _ hy)) c hc
    show ((f x >>= fun _ => forEach f xs) c).steps ≤ n x + total n xs ∧ _
    cases hp : (f x c).out with
    | error e =>
      refine ⟨?_, ?_, ?_⟩
      · rw [bind_err' hp]; show (f x c).steps ≤ _; omega
      · show ((f x >>= fun _ => forEach f xs) c).peak ≤ _
        rw [bind_err' hp]; show (f x c).peak ≤ _; omega
      · intro y c' hy
        have hy : ((f x >>= fun _ => forEach f xs) c).out = _ := hy
        rw [bind_err' hp] at hy
        cases hy
    | ok r =>
      obtain ⟨u, c'⟩ := r
      cases h3 u c' hp
      refine ⟨?_, ?_, ?_⟩
      · rw [bind_ok' hp]; show _ + _ ≤ _; omega
      · show ((f x >>= fun _ => forEach f xs) c).peak ≤ _
        rw [bind_ok' hp]; show max _ _ ≤ _; omega
      · intro y c'' hy
        have hy : ((f x >>= fun _ => forEach f xs) c).out = _ := hy
        rw [bind_ok' hp] at hy
        exact ih.2.2 y c'' hy

theorem total_const {f : α → Nat} {k : Nat} (h : ∀ x, f x = k) : ∀ xs : List α, total f xs = k * xs.length
  | [] => rfl
  | x :: xs => by show f x + total f xs = _; rw [total_const h xs, h x, List.length_cons, Nat.mul_succ]; omega

theorem total_le {f g : α → Nat} : ∀ xs : List α, (∀ x ∈ xs, f x ≤ g x) → total f xs ≤ total g xs
  | [], _ => Nat.le_refl _
  | x :: xs, h => Nat.add_le_add (h x (.head _)) (total_le xs fun y hy => h y (.tail _ hy))

theorem total_mul {f : α → Nat} {k : Nat} : ∀ xs : List α, total (fun x => f x * k) xs = total f xs * k
  | [] => (Nat.zero_mul _).symm
  | x :: xs => by show f x * k + total _ xs = (f x + total f xs) * k; rw [total_mul xs, Nat.add_mul]

theorem total_mem {f : α → Nat} {x : α} : ∀ {xs : List α}, x ∈ xs → f x ≤ total f xs
  | y :: ys, h => by
    show f x ≤ f y + total f ys
    rcases List.mem_cons.mp h with h | h
    · rw [h]; omega
    · have := total_mem (f := f) h; omega

end

/-- At most `w` parameters and `r` results everywhere in the context. -/
structure Wide (w r : Nat) (c : Ctx) : Prop where
  types : ∀ t ∈ c.types, t.params.length ≤ w ∧ t.results.length ≤ r
  funcs : ∀ t ∈ c.funcs, t.params.length ≤ w ∧ t.results.length ≤ r
  frames : ∀ f ∈ c.frames, f.label.length ≤ r ∧ f.out.length ≤ r
  ret : ∀ t, c.ret = some t → t.length ≤ r

section
variable {w r : Nat}

/-- A result that occurs in a list of the context, which remains as it was. -/
theorem keeps_lookup {α : Type} {sel : Ctx → List α} {P : α → Prop} {i : Idx} (h : ∀ c, Wide w r c → ∀ t ∈ sel c, P t) :
    Keeps (Wide w r) (op 1 fun c => lookup (sel c) i c) 1 0 P :=
  bound_op fun c hc x c' e => by
    have e : lookup (sel c) i c = _ := e
    unfold lookup at e
    split at e
    · cases e
    · split at e
      · rename_i hx
        cases e
        exact ⟨⟨h c hc x (List.mem_of_getElem? hx), hc⟩, Nat.le_refl _⟩
      · cases e

theorem bound_get {β : Type} {I : Ctx → Prop} {k : Ctx → T β} {n g : Nat} {Q : β → Ctx → Prop} (h : ∀ c, I c → Bound (fun c' => I c' ∧ c' = c) (k c) n g Q) :
    Bound I (T.get >>= k) n g Q := by
  intro c hc
  rw [bind_ok' (p := T.get) (x := c) (c' := c) rfl]
  obtain ⟨a, b, d⟩ := h c hc c ⟨hc, rfl⟩
  exact ⟨by show 0 + _ ≤ _; omega, by show max 0 _ ≤ _; omega, d⟩

theorem keeps_pushOperand (x : Operand) : Keeps (Wide w r) (pushOperand x) 1 1 fun _ => True :=
  bound_op fun c hc _ _ e => by
    cases e
    refine ⟨⟨trivial, hc.types, hc.funcs, hc.frames, hc.ret⟩, ?_⟩
    unfold entries
    simp only [List.length_cons]
    omega

/-- A context with fewer operands. -/
theorem wide_operands {c : Ctx} (h : Wide w r c) (ops : List Operand) : Wide w r { c with operands := ops } := ⟨h.types, h.funcs, h.frames, h.ret⟩

theorem keeps_popOperand (x : Operand) : Keeps (Wide w r) (popOperand x) 1 0 fun _ => True :=
  bound_op fun c hc y c' e => by
    suffices h : ∃ ops, c' = { c with operands := ops } ∧ ops.length ≤ c.operands.length by
      obtain ⟨ops, rfl, hl⟩ := h
      refine ⟨⟨trivial, wide_operands hc ops⟩, ?_⟩
      unfold entries
      dsimp only
      omega
    unfold Whasm.popOperand at e
    split at e
    · cases e
    · split at e
      · cases e; exact ⟨c.operands, rfl, Nat.le_refl _⟩
      · split at e
        · cases e
        · split at e
          · cases e
          · rename_i v rest ho
            have hl : rest.length ≤ c.operands.length := by rw [ho, List.length_cons]; omega
            split at e
            · cases e; exact ⟨rest, rfl, hl⟩
            · cases e; exact ⟨rest, rfl, hl⟩
            · split at e
              · cases e; exact ⟨rest, rfl, hl⟩
              · cases e

theorem keeps_pushOperands : ∀ vs : List Val, Keeps (Wide w r) (pushOperands vs) vs.length vs.length fun _ => True
  | [] => keeps_pure trivial
  | _ :: vs => bound_le (keeps_bind (keeps_pushOperand _) fun _ _ => keeps_pushOperands vs) (by rw [List.length_cons]; omega) (by rw [List.length_cons]; omega)

theorem keeps_popReversed : ∀ vs : List Val, Keeps (Wide w r) (popReversed vs) vs.length 0 fun _ => True
  | [] => keeps_pure trivial
  | _ :: vs => bound_le (keeps_bind (keeps_popOperand _) fun _ _ => keeps_popReversed vs) (by rw [List.length_cons]; omega) (Nat.le_refl _)

theorem keeps_popOperands (vs : List Val) : Keeps (Wide w r) (popOperands vs) vs.length 0 fun _ => True :=
  bound_le (keeps_popReversed _) (by rw [List.length_reverse]; exact Nat.le_refl _) (Nat.le_refl _)

theorem keeps_pushFrame {l o : List Val} (hl : l.length ≤ r) (ho : o.length ≤ r) : Keeps (Wide w r) (pushFrame l o) 1 1 fun _ => True :=
  bound_op fun c hc _ _ e => by
    cases e
    refine ⟨⟨trivial, hc.types, hc.funcs, fun f hf => ?_, hc.ret⟩, ?_⟩
    · rcases List.mem_cons.mp hf with hf | hf
      · rw [hf]; exact ⟨hl, ho⟩
      · exact hc.frames f hf
    · unfold entries
      simp only [List.length_cons]
      omega

theorem keeps_setUnreachable : Keeps (Wide w r) setUnreachable 1 0 fun _ => True :=
  bound_op fun c hc _ _ e => by
    unfold Whasm.setUnreachable at e
    split at e
    · cases e
    · rename_i f rest hf
      cases e
      have h := hc.frames
      rw [hf] at h
      refine ⟨⟨trivial, hc.types, hc.funcs, fun g hg => ?_, hc.ret⟩, ?_⟩
      · rcases List.mem_cons.mp hg with hg | hg
        · rw [hg]; exact h f (.head _)
        · exact h g (.tail _ hg)
      · unfold entries
        simp only [hf, List.length_drop, List.length_cons]
        omega

theorem keeps_popFrame : Keeps (Wide w r) popFrame (r + 1) 0 fun o => o.length ≤ r := by
  refine bound_get fun c hc => ?_
  cases hf : c.frames with
  | nil => exact bound_le bound_fail (Nat.zero_le _) (Nat.zero_le _)
  | cons f rest =>
    have ho := (hc.frames f (by rw [hf]; exact .head _)).2
    have hrest : Keeps (Wide w r) (T.get >>= fun c => if c.operands.length ≠ f.height then T.fail .invalid
        else match c.frames with | [] => T.fail .invalid | _ :: rest => op 1 (V.set { c with frames := rest }) >>= fun _ => pure f.out)
        1 0 fun o => o.length ≤ r := by
      refine bound_get fun c hc => ?_
      by_cases hh : c.operands.length ≠ f.height
      · rw [if_pos hh]; exact bound_le bound_fail (Nat.zero_le _) (Nat.zero_le _)
      · rw [if_neg hh]
        cases hf : c.frames with
        | nil => exact bound_le bound_fail (Nat.zero_le _) (Nat.zero_le _)
        | cons g rest =>
          refine bound_le (bound_bind (Q := fun _ c => Wide w r c) (n1 := 1) (g1 := 0) (n2 := 0) (g2 := 0) (bound_op fun d hd _ _ e => ?_)
            fun _ => keeps_pure ho) (Nat.le_refl _) (Nat.le_refl _)
          obtain ⟨_, rfl⟩ := hd
          cases e
          refine ⟨⟨hc.types, hc.funcs, fun f h => hc.frames f (by rw [hf]; exact .tail _ h), hc.ret⟩, ?_⟩
          unfold entries
          simp only [hf, List.length_cons]
          omega
    exact bound_mono (keeps_bind (keeps_popOperands f.out) fun _ _ => hrest) (by omega) (Nat.le_refl _) (fun _ h => h.1) fun _ _ h => h

theorem keeps_end : Keeps (Wide w r) validateEnd (2 * r + 1) r fun _ => True :=
  bound_le (keeps_bind keeps_popFrame fun o ho => bound_le (keeps_pushOperands o) ho ho) (by omega) (by omega)

theorem keeps_else : Keeps (Wide w r) validateElse (r + 2) 1 fun _ => True :=
  bound_le (keeps_bind keeps_popFrame fun _ ho => keeps_pushFrame ho ho) (by omega) (by omega)

theorem keeps_label (i : Idx) : Keeps (Wide w r) (validateLabel i) 1 0 fun f => f.label.length ≤ r :=
  bound_op fun c hc x c' e => by
    unfold Whasm.validateLabel at e
    dsimp only at e
    split at e
    · cases e
    · split at e
      · cases e
      · split at e
        · rename_i hx
          cases e
          exact ⟨⟨(hc.frames x (List.mem_reverse.mp (List.mem_of_getElem? hx))).1, hc⟩, Nat.le_refl _⟩
        · cases e

theorem keeps_labels {l : List Val} (hl : l.length ≤ r) : ∀ ls : List Idx, Keeps (Wide w r) (validateLabels l ls) (ls.length * (1 + r)) 0 fun _ => True
  | [] => bound_le (keeps_pure trivial) (Nat.zero_le _) (Nat.le_refl _)
  | _ :: ls => bound_le (keeps_bind (keeps_label _) fun _ _ => keeps_bind keeps_tick fun _ _ => keeps_ite (keeps_labels hl ls))
      (by rw [List.length_cons, Nat.add_mul]; omega) (Nat.le_refl _)

theorem keeps_typeIdx (i : Idx) : Keeps (Wide w r) (validateTypeIdx i) 1 0 fun t => t.params.length ≤ w ∧ t.results.length ≤ r :=
  keeps_lookup (sel := Ctx.types) fun _ h => h.types
theorem keeps_funcIdx (i : Idx) : Keeps (Wide w r) (validateFuncIdx i) 1 0 fun t => t.params.length ≤ w ∧ t.results.length ≤ r :=
  keeps_lookup (sel := Ctx.funcs) fun _ h => h.funcs
theorem keeps_tableIdx (i : Idx) : Keeps (Wide w r) (validateTableIdx i) 1 0 fun _ => True := keeps_lookup (sel := Ctx.tables) fun _ _ _ _ => trivial
theorem keeps_memIdx (i : Idx) : Keeps (Wide w r) (validateMemIdx i) 1 0 fun _ => True := keeps_lookup (sel := Ctx.mems) fun _ _ _ _ => trivial
theorem keeps_globalIdx (i : Idx) : Keeps (Wide w r) (validateGlobalIdx i) 1 0 fun _ => True := keeps_lookup (sel := Ctx.globals) fun _ _ _ _ => trivial
theorem keeps_localIdx (i : Idx) : Keeps (Wide w r) (validateLocalIdx i) 1 0 fun _ => True := keeps_lookup (sel := Ctx.locals) fun _ _ _ _ => trivial

/-- A check that leaves the context alone. -/
theorem keeps_check {α : Type} {I : Ctx → Prop} {v : V α} {P : α → Prop} (h : ∀ c x c', v c = .ok (x, c') → c' = c ∧ P x) : Keeps I (op 1 v) 1 0 P :=
  bound_op fun c hc x c' e => by
    obtain ⟨rfl, hp⟩ := h c x c' e
    exact ⟨⟨hp, hc⟩, Nat.le_refl _⟩

theorem keeps_retVal {t : RetVal} (h : t.length ≤ r) : Keeps (Wide w r) (validateRetVal t) 1 0 fun t => t.length ≤ r :=
  keeps_check fun c x c' e => by cases e; exact ⟨rfl, h⟩

/-- Steps per part, with `w` parameters and `r` results. -/
def rate (w r : Nat) : Nat := w + 3 * r + 7

theorem numSig_length (o : NumOp) : (numSig o).1.length ≤ 2 ∧ (numSig o).2.length ≤ 1 := by
  cases o <;> simp [numSig]

/-- The block types of `e` have at most `r` results. -/
def Flat (r : Nat) (e : List Instr) : Prop := ∀ j, Occurs j e → ∀ t ∈ blockTypes j, t.length ≤ r

/-- Block with a body of known cost. -/
theorem keeps_framed {t : RetVal} {l : List Val} {b : List Instr} {n g : Nat} (ht : t.length ≤ r) (hl : l.length ≤ r)
    (hb : Keeps (Wide w r) (validateExpr b) n g fun _ => True) :
    Keeps (Wide w r) (pushFrame l t >>= fun _ => validateExpr b >>= fun _ => validateEnd) (n + 2 * r + 2) (g + r + 1) fun _ => True :=
  bound_le (keeps_bind (keeps_pushFrame hl ht) fun _ _ => keeps_bind hb fun _ _ => keeps_end) (by omega) (by omega)

theorem flat_block {t : RetVal} {b e : List Instr} (h : Flat r e) (he : Instr.block t b ∈ e) : t.length ≤ r ∧ Flat r b :=
  ⟨h _ (.here he) t (.head _), fun j hj => h j (.block he hj)⟩
theorem flat_loop {t : RetVal} {b e : List Instr} (h : Flat r e) (he : Instr.loop t b ∈ e) : t.length ≤ r ∧ Flat r b :=
  ⟨h _ (.here he) t (.head _), fun j hj => h j (.loop he hj)⟩
theorem flat_if {t : RetVal} {a b e : List Instr} (h : Flat r e) (he : Instr.ifElse t a b ∈ e) : t.length ≤ r ∧ Flat r a ∧ Flat r b :=
  ⟨h _ (.here he) t (.head _), fun j hj => h j (.thn he hj), fun j hj => h j (.els he hj)⟩

/-- The cost of an instruction, short of the step of visiting it. -/
def Cheap (w r : Nat) (p : T Unit) (b : Nat) : Prop := ∃ n g, n + 1 ≤ b * rate w r ∧ g ≤ b * (r + 2) ∧ Keeps (Wide w r) p n g fun _ => True

theorem cheap_one {p : T Unit} {n g : Nat} (h : Keeps (Wide w r) p n g fun _ => True) (hn : n ≤ w + 3 * r + 6 := by omega) (hg : g ≤ r + 2 := by omega) :
    Cheap w r p 1 :=
  ⟨n, g, by unfold rate; omega, by omega, h⟩

mutual

theorem keeps_instr : ∀ (i : Instr) {e : List Instr}, i ∈ e → Flat r e → Cheap w r (validateInstr i) (bulkI i)
  | .block t b, e, he, h => by
    obtain ⟨ht, hb⟩ := flat_block h he
    refine ⟨_, _, ?_, ?_, keeps_bind (keeps_retVal ht) fun t ht => keeps_framed ht ht (keeps_expr b hb)⟩
    · show _ ≤ (1 + t.length + bulkL b) * rate w r
      have : (1 + bulkL b) * rate w r ≤ (1 + t.length + bulkL b) * rate w r := Nat.mul_le_mul_right _ (by omega)
      rw [Nat.add_mul] at this
      have e : rate w r = w + 3 * r + 7 := rfl
      omega
    · show _ ≤ (1 + t.length + bulkL b) * (r + 2)
      have : (1 + bulkL b) * (r + 2) ≤ (1 + t.length + bulkL b) * (r + 2) := Nat.mul_le_mul_right _ (by omega)
      rw [Nat.add_mul] at this
      omega
  | .loop t b, e, he, h => by
    obtain ⟨ht, hb⟩ := flat_loop h he
    refine ⟨_, _, ?_, ?_, keeps_bind (keeps_retVal ht) fun t ht => keeps_framed (l := []) ht (Nat.zero_le _) (keeps_expr b hb)⟩
    · show _ ≤ (1 + t.length + bulkL b) * rate w r
      have : (1 + bulkL b) * rate w r ≤ (1 + t.length + bulkL b) * rate w r := Nat.mul_le_mul_right _ (by omega)
      rw [Nat.add_mul] at this
      have e : rate w r = w + 3 * r + 7 := rfl
      omega
    · show _ ≤ (1 + t.length + bulkL b) * (r + 2)
      have : (1 + bulkL b) * (r + 2) ≤ (1 + t.length + bulkL b) * (r + 2) := Nat.mul_le_mul_right _ (by omega)
      rw [Nat.add_mul] at this
      omega
  | .ifElse t a b, e, he, h => by
    obtain ⟨ht, ha, hb⟩ := flat_if h he
    refine ⟨_, _, ?_, ?_, keeps_bind (keeps_retVal ht) fun t ht => keeps_bind (keeps_popOperands [.i32]) fun _ _ =>
      keeps_bind (keeps_pushFrame ht ht) fun _ _ => keeps_bind (keeps_expr a ha) fun _ _ => keeps_bind keeps_else fun _ _ =>
      keeps_bind (keeps_expr b hb) fun _ _ => keeps_end⟩
    · show _ ≤ (1 + t.length + bulkL a + bulkL b) * rate w r
      have : (1 + bulkL a + bulkL b) * rate w r ≤ (1 + t.length + bulkL a + bulkL b) * rate w r := Nat.mul_le_mul_right _ (by omega)
      rw [Nat.add_mul, Nat.add_mul] at this
      have e : rate w r = w + 3 * r + 7 := rfl
      show 1 + (1 + _) + 1 ≤ _
      omega
    · show _ ≤ (1 + t.length + bulkL a + bulkL b) * (r + 2)
      have : (1 + bulkL a + bulkL b) * (r + 2) ≤ (1 + t.length + bulkL a + bulkL b) * (r + 2) := Nat.mul_le_mul_right _ (by omega)
      rw [Nat.add_mul, Nat.add_mul] at this
      omega
  | .elseMark, _, _, _ => cheap_one keeps_else
  | .endMark, _, _, _ => cheap_one keeps_end
  | .unreachable, _, _, _ => cheap_one keeps_setUnreachable
  | .nop, _, _, _ => cheap_one (keeps_pure trivial)
  | .br _, _, _, _ => cheap_one (keeps_bind (keeps_label _) fun f hf => keeps_bind (bound_le (keeps_popOperands f.label) hf (Nat.le_refl _)) fun _ _ => keeps_setUnreachable)
  | .brIf _, _, _, _ => cheap_one (keeps_bind (keeps_label _) fun f hf => keeps_bind (keeps_popOperands [.i32]) fun _ _ =>
      keeps_bind (bound_le (keeps_popOperands f.label) hf (Nat.le_refl _)) fun _ _ => bound_le (keeps_pushOperands f.label) hf hf)
      (by show 1 + (1 + _) ≤ _; omega)
  | .brTable ls _, _, _, _ => by
    refine ⟨_, _, ?_, ?_, keeps_bind (keeps_label _) fun f hf => keeps_bind (keeps_labels hf ls) fun _ _ => keeps_bind (keeps_popOperands [.i32]) fun _ _ =>
      keeps_bind (bound_le (keeps_popOperands f.label) hf (Nat.le_refl _)) fun _ _ => keeps_setUnreachable⟩
    · show 1 + (ls.length * (1 + r) + (1 + (r + 1))) + 1 ≤ (1 + ls.length) * rate w r
      have : ls.length * (1 + r) ≤ ls.length * rate w r := Nat.mul_le_mul_left _ (by unfold rate; omega)
      rw [Nat.add_mul]
      have e : rate w r = w + 3 * r + 7 := rfl
      omega
    · exact Nat.zero_le _
  | .ret, _, _, _ => by
    refine cheap_one (n := r + 1) (g := 0) (bound_get fun c hc => ?_)
    cases ht : c.ret with
    | none => exact bound_le bound_fail (Nat.zero_le _) (Nat.zero_le _)
    | some t =>
      exact bound_mono (keeps_bind (bound_le (keeps_popOperands t) (hc.ret t ht) (Nat.le_refl _)) fun _ _ => keeps_setUnreachable)
        (Nat.le_refl _) (Nat.le_refl _) (fun _ h => h.1) fun _ _ h => h
  | .call _, _, _, _ => cheap_one (keeps_bind (keeps_funcIdx _) fun t ht => keeps_bind (bound_le (keeps_popOperands _) ht.1 (Nat.le_refl _)) fun _ _ =>
      bound_le (keeps_pushOperands _) ht.2 ht.2)
  | .callIndirect _ _, _, _, _ => cheap_one (keeps_bind (keeps_tableIdx _) fun _ _ => keeps_bind (keeps_typeIdx _) fun t ht => keeps_ite
      (keeps_bind (keeps_popOperands [.i32]) fun _ _ => keeps_bind (bound_le (keeps_popOperands _) ht.1 (Nat.le_refl _)) fun _ _ =>
      bound_le (keeps_pushOperands _) ht.2 ht.2)) (by show 1 + (1 + (1 + _)) ≤ _; omega)
  | .drop, _, _, _ => cheap_one (keeps_bind (keeps_popOperand _) fun _ _ => keeps_pure trivial)
  | .select, _, _, _ => cheap_one (keeps_bind (keeps_popOperands [.i32]) fun _ _ => keeps_bind (keeps_popOperand _) fun _ _ => keeps_bind (keeps_popOperand _) fun _ _ =>
      keeps_pushOperand _) (by show 1 + _ ≤ _; omega)
  | .localGet _, _, _, _ => cheap_one (keeps_bind (keeps_localIdx _) fun v _ => keeps_pushOperands [v]) (by show 1 + 1 ≤ _; omega) (by show 0 + 1 ≤ _; omega)
  | .localSet _, _, _, _ => cheap_one (keeps_bind (keeps_localIdx _) fun v _ => keeps_popOperands [v]) (by show 1 + 1 ≤ _; omega)
  | .localTee _, _, _, _ => cheap_one (keeps_bind (keeps_localIdx _) fun v _ => keeps_bind (keeps_popOperands [v]) fun _ _ => keeps_pushOperands [v])
      (by show 1 + (1 + 1) ≤ _; omega) (by show 0 + (0 + 1) ≤ _; omega)
  | .globalGet _, _, _, _ => cheap_one (keeps_bind (keeps_globalIdx _) fun v _ => keeps_pushOperands [v.val]) (by show 1 + 1 ≤ _; omega) (by show 0 + 1 ≤ _; omega)
  | .globalSet _, _, _, _ => cheap_one (keeps_bind (keeps_globalIdx _) fun v _ => keeps_ite (keeps_popOperands [v.val])) (by show 1 + 1 ≤ _; omega)
  | .load _ _ _, _, _, _ => cheap_one (keeps_bind (keeps_memIdx _) fun _ _ => keeps_bind (keeps_popOperands [.i32]) fun _ _ => keeps_pushOperands [_])
      (by show 1 + (1 + 1) ≤ _; omega) (by show 0 + (0 + 1) ≤ _; omega)
  | .store _ _ _, _, _, _ => cheap_one (keeps_bind (keeps_memIdx _) fun _ _ => keeps_popOperands [.i32, _]) (by show 1 + 2 ≤ _; omega)
  | .memSize _, _, _, _ => cheap_one (keeps_bind (keeps_memIdx _) fun _ _ => keeps_pushOperands [.i32]) (by show 1 + 1 ≤ _; omega) (by show 0 + 1 ≤ _; omega)
  | .memGrow _, _, _, _ => cheap_one (keeps_bind (keeps_memIdx _) fun _ _ => keeps_bind (keeps_popOperands [.i32]) fun _ _ => keeps_pushOperands [.i32])
      (by show 1 + (1 + 1) ≤ _; omega) (by show 0 + (0 + 1) ≤ _; omega)
  | .constI32 _, _, _, _ => cheap_one (keeps_pushOperands [.i32]) (by show 1 ≤ _; omega) (by show 1 ≤ _; omega)
  | .constI64 _, _, _, _ => cheap_one (keeps_pushOperands [.i64]) (by show 1 ≤ _; omega) (by show 1 ≤ _; omega)
  | .constF32 _, _, _, _ => cheap_one (keeps_pushOperands [.f32]) (by show 1 ≤ _; omega) (by show 1 ≤ _; omega)
  | .constF64 _, _, _, _ => cheap_one (keeps_pushOperands [.f64]) (by show 1 ≤ _; omega) (by show 1 ≤ _; omega)
  | .num o, _, _, _ => by
    have hs := numSig_length o
    exact cheap_one (keeps_bind (bound_le (keeps_popOperands _) hs.1 (Nat.le_refl _)) fun _ _ => bound_le (keeps_pushOperands _) hs.2 hs.2)

theorem keeps_expr : ∀ (e : List Instr), Flat r e → Keeps (Wide w r) (validateExpr e) (bulkL e * rate w r) (bulkL e * (r + 2)) fun _ => True
  | [], _ => bound_le (keeps_pure trivial) (Nat.zero_le _) (Nat.zero_le _)
  | i :: is, h => by
    obtain ⟨n, g, hn, hg, hi⟩ := keeps_instr i (.head is) h
    have hs := keeps_expr is fun j hj => h j (occurs_cons hj)
    refine bound_le (keeps_bind keeps_tick fun _ _ => keeps_bind hi fun _ _ => hs) ?_ ?_
    · show _ ≤ (bulkI i + bulkL is) * rate w r
      rw [Nat.add_mul]; omega
    · show _ ≤ (bulkI i + bulkL is) * (r + 2)
      rw [Nat.add_mul]; omega

end

/-! ## Definitions -/

theorem keeps_constCheck (i : Instr) : Keeps (Wide w r) (validateConstCheck i) 1 0 fun _ => True := by
  cases i
  case globalGet =>
    exact keeps_bind (keeps_globalIdx _) fun ty _ => (keeps_ite (keeps_pure trivial) : Keeps _ (if ty.mt ≠ .const then T.fail .invalid else pure ()) 0 0 _)
  all_goals first | exact bound_le (keeps_pure trivial) (Nat.zero_le _) (Nat.le_refl _) | exact bound_le bound_fail (Nat.zero_le _) (Nat.le_refl _)

theorem keeps_constExpr : ∀ (e : List Instr), Flat r e → Keeps (Wide w r) (validateConstExpr e) (bulkL e * (rate w r + 1)) (bulkL e * (r + 2)) fun _ => True
  | [], _ => bound_le (keeps_pure trivial) (Nat.zero_le _) (Nat.zero_le _)
  | i :: is, h => by
    obtain ⟨n, g, hn, hg, hi⟩ := keeps_instr (w := w) i (.head is) h
    have hs := keeps_constExpr is fun j hj => h j (occurs_cons hj)
    refine bound_le (keeps_bind keeps_tick fun _ _ => keeps_bind (keeps_constCheck i) fun _ _ => keeps_bind hi fun _ _ => hs) ?_ ?_
    · show _ ≤ (bulkI i + bulkL is) * (rate w r + 1)
      have : 1 ≤ bulkI i := by
        rcases Nat.eq_zero_or_pos (bulkI i) with h | h
        · rw [h, Nat.zero_mul] at hn; omega
        · exact h
      rw [Nat.add_mul, Nat.mul_add (bulkI i), Nat.mul_one]
      omega
    · show _ ≤ (bulkI i + bulkL is) * (r + 2)
      rw [Nat.add_mul]; omega

theorem keeps_checkEmpty {I : Ctx → Prop} : Keeps I checkEmpty 1 0 fun _ => True :=
  keeps_check fun c x c' e => by
    unfold Whasm.checkEmpty at e
    split at e
    · cases e
    · cases e; exact ⟨rfl, trivial⟩

theorem keeps_init {t : List Val} {e : ConstExpr} (ht : t.length ≤ r) (he : Flat r e) :
    Keeps (Wide w r) (validateInit t e) (bulkL e * (rate w r + 1) + r + 3) (bulkL e * (r + 2) + 1) fun _ => True :=
  bound_le (keeps_bind (keeps_pushFrame ht ht) fun _ _ => keeps_bind (keeps_constExpr e he) fun _ _ => keeps_bind keeps_popFrame fun _ _ => keeps_checkEmpty)
    (by omega) (by omega)

theorem rate_eq : rate w r = w + 3 * r + 7 := rfl

theorem keeps_global {g : Global} (hr : 1 ≤ r) (he : Flat r g.init) :
    Keeps (Wide w r) (validateGlobal g) ((1 + bulkL g.init) * (rate w r + 1)) ((1 + bulkL g.init) * (r + 2)) fun _ => True := by
  refine bound_le (keeps_bind (keeps_check (P := fun _ => True) fun c x c' e => by cases e; exact ⟨rfl, trivial⟩) fun _ _ =>
    keeps_bind (keeps_init (t := [g.ty.val]) hr he) fun _ _ => keeps_pure trivial) ?_ ?_
  · rw [Nat.add_mul, rate_eq]; omega
  · rw [Nat.add_mul]; omega

theorem keeps_elem {e : Elem} (hr : 1 ≤ r) (he : Flat r e.offset) :
    Keeps (Wide w r) (validateElem e) ((1 + bulkL e.offset + e.init.length) * (rate w r + 1)) ((1 + bulkL e.offset + e.init.length) * (r + 2)) fun _ => True := by
  refine bound_le (keeps_bind (keeps_tableIdx _) fun _ _ => keeps_ite (keeps_bind (keeps_init (t := [.i32]) hr he) fun _ _ =>
    keeps_forEach (n := fun _ => 1) (g := fun _ => 0) _ fun i _ => bound_le (keeps_bind (keeps_funcIdx i) fun _ _ => keeps_pure trivial) (Nat.le_refl _) (Nat.le_refl _))) ?_ ?_
  · rw [total_const (fun _ => rfl), Nat.add_mul, Nat.add_mul, rate_eq]
    have : e.init.length * 1 ≤ e.init.length * (w + 3 * r + 7 + 1) := Nat.mul_le_mul_left _ (by omega)
    omega
  · rw [total_const (fun _ => rfl), Nat.add_mul, Nat.add_mul]; omega

theorem keeps_data {d : Data} (hr : 1 ≤ r) (he : Flat r d.offset) :
    Keeps (Wide w r) (validateData d) ((1 + bulkL d.offset) * (rate w r + 1)) ((1 + bulkL d.offset) * (r + 2)) fun _ => True := by
  refine bound_le (keeps_bind (keeps_memIdx _) fun _ _ => keeps_init (t := [.i32]) hr he) ?_ ?_
  · rw [Nat.add_mul, rate_eq]; omega
  · rw [Nat.add_mul]; omega

theorem keeps_start (s : Start) : Keeps (Wide w r) (validateStart s) 1 0 fun _ => True :=
  keeps_bind (keeps_funcIdx _) fun ty _ => (keeps_ite (keeps_pure trivial) : Keeps _ (if ty.params ≠ [] ∨ ty.results ≠ [] then T.fail .invalid else pure ()) 0 0 _)

theorem keeps_func {f : Func} (he : Flat r f.body) : Keeps (Wide w r) (validateFunc f) ((1 + f.locals.length + bulkL f.body) * rate w r)
    (w + 1 + f.locals.length + bulkL f.body * (r + 2)) fun _ => True := by
  refine bound_le (keeps_bind (keeps_typeIdx _) fun ty hty => bound_bind (Q := fun _ c => Wide w r c) (n1 := w + f.locals.length) (g1 := w + f.locals.length)
    (bound_le (bound_op (g := ty.params.length + f.locals.length) fun c hc _ _ e => ?_) (by omega) (by omega)) fun _ => keeps_bind (keeps_pushFrame hty.2 hty.2) fun _ _ => keeps_bind (keeps_expr f.body he) fun _ _ =>
    keeps_bind keeps_popFrame fun _ _ => keeps_bind keeps_checkEmpty fun _ _ => bound_bind (Q := fun _ c => Wide w r c) (n1 := 1) (g1 := 0)
    (bound_op fun c hc _ _ e => ?_) fun _ => keeps_pure trivial) ?_ ?_
  · cases e
    refine ⟨⟨hc.types, hc.funcs, hc.frames, fun t ht => by cases ht; exact hty.2⟩, ?_⟩
    unfold entries
    simp only [List.length_append]
    omega
  · cases e
    refine ⟨⟨hc.types, hc.funcs, hc.frames, fun t ht => by cases ht⟩, ?_⟩
    unfold entries
    simp only [List.length_nil]
    omega
  · rw [Nat.add_mul, Nat.add_mul, rate_eq]
    have : f.locals.length * 1 ≤ f.locals.length * (w + 3 * r + 7) := Nat.mul_le_mul_left _ (by omega)
    omega
  · omega

/-- A function leaves a clean context as it was. -/
theorem func_same {f : Func} {c c' : Ctx} {t : FuncTy} (hc : Clean c) (h : (validateFunc f c).out = .ok (t, c')) : c' = c := by
  rw [erases_func f c] at h
  rcases func_total hc f with ⟨t', _, _, h'⟩ | h' <;> rw [h'] at h <;> cases h
  rfl

/-! ## Modules -/

theorem bound_context {m : Module} (hp : ∀ t ∈ m.types, t.params.length ≤ w ∧ t.results.length ≤ r) :
    Keeps (Wide w r) (contextFrom m) (m.types.length + 5 * m.imports.length + 2 * m.funcs.length + m.tables.length + m.mems.length + m.globals.length)
      (m.types.length + 4 * m.imports.length + m.funcs.length + m.tables.length + m.mems.length + m.globals.length) fun _ => True := by
  have htypes : Keeps (Wide w r) (useTypes m.types) m.types.length m.types.length fun _ => True :=
    bound_op fun c hc _ _ e => by
      cases e
      refine ⟨⟨trivial, fun t ht => ?_, hc.funcs, hc.frames, hc.ret⟩, ?_⟩
      · rcases List.mem_append.mp ht with ht | ht
        · exact hc.types t ht
        · exact hp t ht
      · unfold entries
        simp only [List.length_append]
        omega
  have hfunc : ∀ i : Idx, Keeps (Wide w r) (validateTypeIdx i >>= fun ty => op 1 fun c => .ok ((), { c with funcs := c.funcs ++ [ty] })) 2 1 fun _ => True := fun i =>
    bound_le (keeps_bind (n2 := 1) (g2 := 1) (keeps_typeIdx i) fun ty hty => bound_op fun c hc _ _ e => by
      cases e
      refine ⟨⟨trivial, hc.types, fun t ht => ?_, hc.frames, hc.ret⟩, ?_⟩
      · rcases List.mem_append.mp ht with ht | ht
        · exact hc.funcs t ht
        · cases List.mem_singleton.mp ht; exact hty
      · unfold entries
        simp only [List.length_append, List.length_singleton]
        omega) (Nat.le_refl _) (Nat.le_refl _)
  have htable : ∀ ty : TableTy, Keeps (Wide w r) (op 1 fun c => .ok ((), { c with tables := c.tables ++ [ty] })) 1 1 fun _ => True := fun ty =>
    bound_op fun c hc _ _ e => by
      cases e
      refine ⟨⟨trivial, hc.types, hc.funcs, hc.frames, hc.ret⟩, ?_⟩
      unfold entries
      simp only [List.length_append, List.length_singleton]
      omega
  have hmem : ∀ ty : MemTy, Keeps (Wide w r) (op 1 fun c => .ok ((), { c with mems := c.mems ++ [ty] })) 1 1 fun _ => True := fun ty =>
    bound_op fun c hc _ _ e => by
      cases e
      refine ⟨⟨trivial, hc.types, hc.funcs, hc.frames, hc.ret⟩, ?_⟩
      unfold entries
      simp only [List.length_append, List.length_singleton]
      omega
  have hglobal : ∀ ty : GlobalTy, Keeps (Wide w r) (op 1 fun c => .ok ((), { c with globals := c.globals ++ [ty] })) 1 1 fun _ => True := fun ty =>
    bound_op fun c hc _ _ e => by
      cases e
      refine ⟨⟨trivial, hc.types, hc.funcs, hc.frames, hc.ret⟩, ?_⟩
      unfold entries
      simp only [List.length_append, List.length_singleton]
      omega
  have htick : Keeps (Wide w r) (tick 1) 1 1 fun _ => True := bound_le keeps_tick (Nat.le_refl _) (Nat.zero_le _)
  refine bound_le (keeps_bind htypes fun _ _ => keeps_bind (keeps_forEach (n := fun _ => 2) (g := fun _ => 1) m.imports fun i _ => ?_) fun _ _ =>
    keeps_bind (keeps_forEach (n := fun _ => 1) (g := fun _ => 1) m.imports fun i _ => ?_) fun _ _ =>
    keeps_bind (keeps_forEach (n := fun _ => 1) (g := fun _ => 1) m.imports fun i _ => ?_) fun _ _ =>
    keeps_bind (keeps_forEach (n := fun _ => 1) (g := fun _ => 1) m.imports fun i _ => ?_) fun _ _ =>
    keeps_bind (keeps_forEach (n := fun _ => 2) (g := fun _ => 1) m.funcs fun i _ => hfunc i.ty) fun _ _ =>
    keeps_bind (keeps_forEach (n := fun _ => 1) (g := fun _ => 1) m.tables fun i _ => htable i.ty) fun _ _ =>
    keeps_bind (keeps_forEach (n := fun _ => 1) (g := fun _ => 1) m.mems fun i _ => hmem i.ty) fun _ _ =>
    keeps_forEach (n := fun _ => 1) (g := fun _ => 1) m.globals fun i _ => hglobal i.ty) ?_ ?_
  · cases i.desc with
    | func x => exact hfunc x
    | _ => exact bound_le htick (by omega) (Nat.le_refl _)
  · cases i.desc with
    | table t => exact htable t
    | _ => exact htick
  · cases i.desc with
    | mem t => exact hmem t
    | _ => exact htick
  · cases i.desc with
    | global t => exact hglobal t
    | _ => exact htick
  all_goals
    simp only [fun (α : Type) (xs : List α) => total_const (f := fun _ : α => 1) (k := 1) (fun _ => rfl) xs,
      fun (α : Type) (xs : List α) => total_const (f := fun _ : α => 2) (k := 2) (fun _ => rfl) xs]
    omega

theorem keeps_withCtx {c0 : Ctx} {p : T Unit} {n g : Nat} {I : Ctx → Prop} (h0 : Wide w r c0) (h : Keeps (Wide w r) p n g fun _ => True) :
    Keeps I (withCtx c0 p) n (entries c0 + g) fun _ => True := by
  intro c hc
  obtain ⟨h1, h2, h3⟩ := h c0 h0
  unfold withCtx
  rcases hp : p c0 with ⟨o, k, q⟩
  rw [hp] at h1 h2
  dsimp only at h1 h2
  rcases o with e | ⟨x, c'⟩
  · exact ⟨h1, by show _ + _ ≤ _; omega, fun _ _ h => by cases h⟩
  · exact ⟨h1, by show _ + _ ≤ _; omega, fun _ _ h => by cases h; exact ⟨⟨trivial, hc⟩, by omega⟩⟩

/-- The types after which validation goes on have one result at most. -/
theorem types_out : ∀ (ts : List FuncTy) (c : Ctx), (∃ t ∈ ts, 1 < t.results.length) → ∃ e, (forEach validateFuncTy ts c).out = .error e
  | [], _, h => by obtain ⟨_, h, _⟩ := h; cases h
  | t :: ts, c, h => by
    show ∃ e, ((validateFuncTy t >>= fun _ => forEach validateFuncTy ts) c).out = .error e
    by_cases ht : t.results.length ≤ 1
    · have hp : (validateFuncTy t c).out = .ok ((), c) := by
        show Whasm.validateFuncTy t c = _
        unfold Whasm.validateFuncTy
        exact congrFun (if_neg (fun h => h ht)) c
      rw [bind_ok' hp]
      refine types_out ts c ?_
      obtain ⟨u, hu, h⟩ := h
      rcases List.mem_cons.mp hu with e | hu
      · rw [e] at h; omega
      · exact ⟨u, hu, h⟩
    · have hp : (validateFuncTy t c).out = .error .invalid := by
        show Whasm.validateFuncTy t c = _
        unfold Whasm.validateFuncTy
        exact congrFun (if_pos ht) c
      rw [bind_err' hp]
      exact ⟨_, rfl⟩

theorem keeps_types {I : Ctx → Prop} (ts : List FuncTy) : Keeps I (forEach validateFuncTy ts) ts.length 0 fun _ => True := by
  refine bound_le (keeps_forEach (n := fun _ => 1) (g := fun _ => 0) ts fun t _ => keeps_check fun c x c' e => ?_) ?_ ?_
  · unfold Whasm.validateFuncTy at e
    by_cases ht : t.results.length ≤ 1
    · have e : (pure () : V Unit) c = _ := (congrFun (if_neg (fun h => h ht)) c).symm.trans e
      cases e; exact ⟨rfl, trivial⟩
    · have e : (V.fail .invalid : V Unit) c = _ := (congrFun (if_pos ht) c).symm.trans e
      cases e
  · rw [total_const (fun _ => rfl)]; omega
  · rw [total_const (fun _ => rfl)]; omega

theorem keeps_limits (l : Limits) (c : Ctx) (x : U32) (c' : Ctx) (h : validateLimits l c = .ok (x, c')) : c' = c := by
  unfold validateLimits at h
  by_cases hl : l.min ≤ l.max.getD l.min
  · have h := (congrFun (if_neg (fun h => h hl)) c).symm.trans h
    cases h; rfl
  · have h := (congrFun (if_pos hl) c).symm.trans h
    cases h

theorem keeps_ty {c c' : Ctx} {v : V U32} {p : U32 → Prop} [∀ x, Decidable (p x)] {x : Unit} (hv : ∀ y d, v c = .ok (y, d) → d = c)
    (h : (v >>= fun y => if ¬ p y then V.fail .invalid else pure ()) c = .ok (x, c')) : c' = c := by
  cases hl : v c with
  | error e => rw [bind_err hl] at h; cases h
  | ok r =>
    rw [bind_ok hl] at h
    have hc := hv r.1 r.2 hl
    by_cases hr : p r.1
    · have h := (congrFun (if_neg (fun h => h hr)) r.2).symm.trans h
      cases h; exact hc
    · have h := (congrFun (if_pos hr) r.2).symm.trans h
      cases h

theorem keeps_tableTy {I : Ctx → Prop} (t : TableTy) : Keeps I (validateTableTy t) 1 0 fun _ => True :=
  keeps_check fun _ _ _ e => ⟨keeps_ty (fun _ _ => keeps_limits _ _ _ _) e, trivial⟩
theorem keeps_memTy {I : Ctx → Prop} (t : MemTy) : Keeps I (validateMemTy t) 1 0 fun _ => True :=
  keeps_check fun _ _ _ e => ⟨keeps_ty (fun _ _ => keeps_limits _ _ _ _) e, trivial⟩
theorem keeps_globalTy {I : Ctx → Prop} (t : GlobalTy) : Keeps I (validateGlobalTy t) 1 0 fun _ => True :=
  keeps_check fun _ _ _ e => by cases e; exact ⟨rfl, trivial⟩

theorem keeps_import (i : Import) : Keeps (Wide w r) (validateImport i) 1 0 fun _ => True := by
  unfold validateImport
  cases i.desc with
  | func x => exact keeps_bind (keeps_typeIdx x) fun _ _ => keeps_pure trivial
  | table t => exact keeps_bind (keeps_tableTy t) fun _ _ => keeps_pure trivial
  | mem t => exact keeps_bind (keeps_memTy t) fun _ _ => keeps_pure trivial
  | global t => exact keeps_bind (keeps_globalTy t) fun _ _ => keeps_pure trivial

theorem keeps_export (e : Export) : Keeps (Wide w r) (validateExport e) 1 0 fun _ => True := by
  unfold validateExport
  cases e.desc with
  | func x => exact keeps_bind (keeps_funcIdx x) fun _ _ => keeps_pure trivial
  | table x => exact keeps_bind (keeps_tableIdx x) fun _ _ => keeps_pure trivial
  | mem x => exact keeps_bind (keeps_memIdx x) fun _ _ => keeps_pure trivial
  | global x => exact keeps_bind (keeps_globalIdx x) fun _ _ => keeps_pure trivial

/-- The functions of a module. -/
theorem bound_funcs {fs : List Func} (h : ∀ f ∈ fs, Flat r f.body) :
    Bound (fun c => Wide w r c ∧ Clean c) (forEach (fun f => do let _ ← validateFunc f; pure ()) fs)
      (total (fun f => 1 + f.locals.length + bulkL f.body) fs * rate w r) (w + total (fun f => 1 + f.locals.length + bulkL f.body) fs * (r + 2)) fun _ c => Wide w r c := by
  have key := bound_forEach_same (I := fun c => Wide w r c ∧ Clean c) (f := fun f => do let _ ← validateFunc f; pure ())
    (n := fun f => (1 + f.locals.length + bulkL f.body) * rate w r) (g := w + total (fun f => 1 + f.locals.length + bulkL f.body) fs * (r + 2)) fs ?_
  · intro c hc
    obtain ⟨h1, h2, h3⟩ := key c hc
    refine ⟨by rw [← total_mul]; exact h1, h2, fun x c' e => ?_⟩
    cases h3 x c' e
    exact ⟨hc.1, by omega⟩
  · intro f hf c hc
    have hb := bound_bind (keeps_func (w := w) (h f hf)) fun t => keeps_pure (I := fun c => True ∧ Wide w r c) (x := ()) (P := fun _ => True) trivial
    obtain ⟨h1, h2, _⟩ := hb c hc.1
    have hm : (1 + f.locals.length + bulkL f.body) * (r + 2) ≤ total (fun f => 1 + f.locals.length + bulkL f.body) fs * (r + 2) :=
      Nat.mul_le_mul_right _ (total_mem (f := fun f => 1 + f.locals.length + bulkL f.body) hf)
    rw [Nat.add_mul, Nat.add_mul] at hm
    have hl : f.locals.length * 1 ≤ f.locals.length * (r + 2) := Nat.mul_le_mul_left _ (by omega)
    refine ⟨h1, by omega, fun y c' e => ?_⟩
    cases hv : (validateFunc f c).out with
    | error e' => rw [bind_err' hv] at e; cases e
    | ok q =>
      have hq := func_same hc.2 hv
      rw [bind_ok' hv, hq] at e
      cases e; rfl

theorem bound_body {m : Module} (hr : 1 ≤ r) (h : BlockResults r m) :
    Bound (fun c => Wide w r c ∧ Clean c) (validateModuleBody m)
      (m.globals.length + m.types.length + total (fun f => 1 + f.locals.length + bulkL f.body) m.funcs * rate w r + m.tables.length + m.mems.length +
        (total (fun g => 1 + bulkL g.init) m.globals + total (fun e => 1 + bulkL e.offset + e.init.length) m.elem + total (fun d => 1 + bulkL d.offset) m.data) *
          (rate w r + 1) + m.start.toList.length + m.imports.length + 2 * m.exports.length)
      (w + total (fun f => 1 + f.locals.length + bulkL f.body) m.funcs * (r + 2) + m.globals.length +
        (total (fun g => 1 + bulkL g.init) m.globals + total (fun e => 1 + bulkL e.offset + e.init.length) m.elem + total (fun d => 1 + bulkL d.offset) m.data) *
          (r + 2)) fun _ c => Wide w r c := by
  have hfuncs := bound_funcs (w := w) (r := r) (fs := m.funcs) fun f hf => h f.body (by
    unfold exprsOf; simp only [List.mem_append, List.mem_map]; exact .inl (.inl (.inl ⟨f, hf, rfl⟩)))
  have hglobals := keeps_forEach (I := Wide w r) (f := fun g => do let _ ← validateGlobal g; pure ()) (n := fun g => (1 + bulkL g.init) * (rate w r + 1))
    (g := fun g => (1 + bulkL g.init) * (r + 2)) m.globals fun g hg => bound_le (keeps_bind (keeps_global hr (h g.init (by
      unfold exprsOf; simp only [List.mem_append, List.mem_map]; exact .inl (.inl (.inr ⟨g, hg, rfl⟩))))) fun _ _ => keeps_pure trivial) (Nat.le_refl _) (Nat.le_refl _)
  have helem := keeps_forEach (I := Wide w r) (f := validateElem) (n := fun e => (1 + bulkL e.offset + e.init.length) * (rate w r + 1))
    (g := fun e => (1 + bulkL e.offset + e.init.length) * (r + 2)) m.elem fun e he => keeps_elem hr (h e.offset (by
      unfold exprsOf; simp only [List.mem_append, List.mem_map]; exact .inl (.inr ⟨e, he, rfl⟩)))
  have hdata := keeps_forEach (I := Wide w r) (f := validateData) (n := fun d => (1 + bulkL d.offset) * (rate w r + 1))
    (g := fun d => (1 + bulkL d.offset) * (r + 2)) m.data fun d hd => keeps_data hr (h d.offset (by
      unfold exprsOf; simp only [List.mem_append, List.mem_map]; exact .inr ⟨d, hd, rfl⟩))
  rw [total_mul, total_mul] at hglobals helem hdata
  have htables := keeps_forEach (I := Wide w r) (f := fun t => do let _ ← validateTable t; pure ()) (n := fun _ => 1) (g := fun _ => 0) m.tables fun t _ =>
    bound_le (keeps_bind (keeps_bind (n2 := 0) (g2 := 0) (keeps_tableTy t.ty) fun _ _ => keeps_pure (P := fun _ => True) trivial) fun _ _ => keeps_pure trivial) (Nat.le_refl _) (Nat.le_refl _)
  have hmems := keeps_forEach (I := Wide w r) (f := fun t => do let _ ← validateMem t; pure ()) (n := fun _ => 1) (g := fun _ => 0) m.mems fun t _ =>
    bound_le (keeps_bind (keeps_bind (n2 := 0) (g2 := 0) (keeps_memTy t.ty) fun _ _ => keeps_pure (P := fun _ => True) trivial) fun _ _ => keeps_pure trivial) (Nat.le_refl _) (Nat.le_refl _)
  have himports := keeps_collect (I := Wide w r) (f := validateImport) (n := fun _ => 1) (g := fun _ => 0) m.imports fun i _ => keeps_import i
  have hexports := keeps_collect (I := Wide w r) (f := validateExport) (n := fun _ => 1) (g := fun _ => 0) m.exports fun i _ => keeps_export i
  rw [total_const (fun _ => rfl), total_const (fun _ => rfl), Nat.one_mul, Nat.zero_mul] at htables hmems himports hexports
  have hctx : Wide w r { globals := m.globals.map (·.ty) } := ⟨fun _ h => (by cases h), fun _ h => (by cases h), fun _ h => (by cases h), fun _ h => by cases h⟩
  have hentries : entries { globals := m.globals.map (·.ty) } = m.globals.length := by
    unfold entries
    simp
  have hnames : ∀ (xs ys : List External), Keeps (Wide w r) (tick m.exports.length >>= fun _ => if (dedup (sortNames (m.exports.map (·.name)))).length ≠ m.exports.length then T.fail .invalid
        else pure { imports := xs, exports := ys } : T ModuleResult) m.exports.length 0 fun _ => True := fun xs ys =>
    bound_le (keeps_bind keeps_tick fun _ _ => keeps_ite (keeps_pure trivial)) (Nat.le_refl _) (Nat.le_refl _)
  have hrest : Keeps (Wide w r) (do
      let imports ← collect validateImport m.imports
      let exports ← collect validateExport m.exports
      if ¬ (m.tables.length ≤ 1) then T.fail .invalid
      else if ¬ (m.mems.length ≤ 1) then T.fail .invalid
      else
        tick m.exports.length
        let exportNames := m.exports.map (·.name)
        let exportNames := dedup (sortNames exportNames)
        if exportNames.length ≠ m.exports.length then T.fail .invalid
        else pure { imports := imports, exports := exports } : T ModuleResult) (m.imports.length + (m.exports.length + m.exports.length)) 0 fun _ => True :=
    bound_le (keeps_bind himports fun _ _ => keeps_bind hexports fun _ _ => keeps_ite (keeps_ite (hnames _ _))) (Nat.le_refl _) (Nat.le_refl _)
  have hstart : Keeps (Wide w r) (do
      match m.start with
        | some s => validateStart s
        | none => pure ()
      let imports ← collect validateImport m.imports
      let exports ← collect validateExport m.exports
      if ¬ (m.tables.length ≤ 1) then T.fail .invalid
      else if ¬ (m.mems.length ≤ 1) then T.fail .invalid
      else
        tick m.exports.length
        let exportNames := m.exports.map (·.name)
        let exportNames := dedup (sortNames exportNames)
        if exportNames.length ≠ m.exports.length then T.fail .invalid
        else pure { imports := imports, exports := exports } : T ModuleResult) (m.start.toList.length + (m.imports.length + (m.exports.length + m.exports.length))) 0 fun _ => True := by
    cases m.start with
    | none => exact bound_le hrest (by omega) (Nat.le_refl _)
    | some s => exact bound_le (keeps_bind (keeps_start s) fun _ _ => hrest) (Nat.le_refl _) (Nat.le_refl _)
  refine bound_mono (I := fun c => Wide w r c ∧ Clean c) (keeps_bind keeps_tick fun _ _ => keeps_bind (keeps_types m.types) fun _ _ => bound_bind hfuncs fun _ =>
    keeps_bind htables fun _ _ => keeps_bind hmems fun _ _ => keeps_bind (keeps_withCtx hctx hglobals) fun _ _ => keeps_bind helem fun _ _ =>
    keeps_bind hdata fun _ _ => hstart) ?_ ?_ (fun _ h => h) fun _ _ h => h.2
  · rw [Nat.add_mul, Nat.add_mul]; omega
  · rw [Nat.add_mul, Nat.add_mul, hentries]; omega

/-- The parts of the size that hold at least one for each definition. -/
theorem length_le_total {α : Type} {f : α → Nat} (h : ∀ x, 1 ≤ f x) : ∀ xs : List α, xs.length ≤ total f xs
  | [] => Nat.le_refl _
  | x :: xs => by
    have := length_le_total h xs
    have := h x
    show xs.length + 1 ≤ f x + total f xs
    omega

theorem params_le_total : ∀ (ts : List FuncTy), ts.length + total (fun t => t.params.length) ts ≤ total (fun t => 1 + t.params.length + t.results.length) ts
  | [] => Nat.le_refl _
  | t :: ts => by
    have := params_le_total ts
    show ts.length + 1 + (t.params.length + total _ ts) ≤ 1 + t.params.length + t.results.length + total _ ts
    omega

theorem module_le {m : Module} (hw : ∀ t ∈ m.types, t.params.length ≤ w) (hr : 1 ≤ r) (h : BlockResults r m) :
    (validateModule m).steps ≤ bulk m * (w + 3 * r + 10) ∧
    (validateModule m).peak ≤ w + m.types.length + (bulk m - total (fun t => 1 + t.params.length + t.results.length) m.types) * (r + 4) := by
  have hf := length_le_total (f := fun f : Func => 1 + f.locals.length + bulkL f.body) (fun _ => by omega) m.funcs
  have hg := length_le_total (f := fun g : Global => 1 + bulkL g.init) (fun _ => by omega) m.globals
  have ht := length_le_total (f := fun t : FuncTy => 1 + t.params.length + t.results.length) (fun _ => by omega) m.types
  have hbulk : bulk m = total (fun t => 1 + t.params.length + t.results.length) m.types + total (fun f => 1 + f.locals.length + bulkL f.body) m.funcs +
    m.tables.length + m.mems.length + total (fun g => 1 + bulkL g.init) m.globals + total (fun e => 1 + bulkL e.offset + e.init.length) m.elem +
    total (fun d => 1 + bulkL d.offset) m.data + m.start.toList.length + m.imports.length + m.exports.length := rfl
  have hsub : bulk m - total (fun t => 1 + t.params.length + t.results.length) m.types = total (fun f => 1 + f.locals.length + bulkL f.body) m.funcs +
    m.tables.length + m.mems.length + total (fun g => 1 + bulkL g.init) m.globals + total (fun e => 1 + bulkL e.offset + e.init.length) m.elem +
    total (fun d => 1 + bulkL d.offset) m.data + m.start.toList.length + m.imports.length + m.exports.length := by omega
  have hb := fun w => bound_body (w := w) hr h
  rw [hsub, hbulk]
  generalize total (fun t : FuncTy => 1 + t.params.length + t.results.length) m.types = nt at *
  generalize total (fun f : Func => 1 + f.locals.length + bulkL f.body) m.funcs = nf at *
  generalize total (fun g : Global => 1 + bulkL g.init) m.globals = ng at *
  generalize total (fun e : Elem => 1 + bulkL e.offset + e.init.length) m.elem = ne at *
  generalize total (fun d : Data => 1 + bulkL d.offset) m.data = nd at *
  have h0 : ∀ r, Wide w r {} := fun r => ⟨fun _ h => (by cases h), fun _ h => (by cases h), fun _ h => (by cases h), fun _ h => by cases h⟩
  have key : (validateModule m).steps ≤ (m.types.length + 5 * m.imports.length + 2 * m.funcs.length + m.tables.length + m.mems.length + m.globals.length) +
        (m.globals.length + m.types.length + nf * rate w r + m.tables.length + m.mems.length + (ng + ne + nd) * (rate w r + 1) +
          m.start.toList.length + m.imports.length + 2 * m.exports.length) ∧
      (validateModule m).peak ≤ (m.types.length + 4 * m.imports.length + m.funcs.length + m.tables.length + m.mems.length + m.globals.length) +
        (w + nf * (r + 2) + m.globals.length + (ng + ne + nd) * (r + 2)) := by
    have hv : validateModule m = (contextFrom m >>= fun _ => validateModuleBody m) {} := rfl
    rw [hv]
    by_cases hres : ∀ t ∈ m.types, t.results.length ≤ 1
    · have hc := bound_context (w := w) (r := r) (m := m) fun t ht => ⟨hw t ht, Nat.le_trans (hres t ht) hr⟩
      obtain ⟨c1, c2, c3⟩ := hc {} (h0 r)
      have c2 : (contextFrom m {}).peak ≤ 0 + _ := c2
      cases hx : (contextFrom m {}).out with
      | error e =>
        rw [bind_err' hx]
        exact ⟨Nat.le_trans c1 (Nat.le_add_right _ _), by dsimp only; omega⟩
      | ok q =>
        obtain ⟨u, c'⟩ := q
        have hclean : Clean c' := by
          have hx := (erases_contextFrom m {}).symm.trans hx
          by_cases hin : TypesIn m
          · cases ((contextFrom_eq m).1 hin).symm.trans hx; exact clean_ctxOf m
          · cases ((contextFrom_eq m).2 hin).symm.trans hx
        obtain ⟨⟨_, hwide⟩, hent⟩ := c3 u c' hx
        have hent : entries c' ≤ 0 + _ := hent
        obtain ⟨b1, b2, _⟩ := hb w c' ⟨hwide, hclean⟩
        rw [bind_ok' hx]
        exact ⟨Nat.add_le_add c1 b1, by dsimp only; omega⟩
    · have hbad : ∃ t ∈ m.types, 1 < t.results.length := by
        simpa using hres
      have hc := bound_context (w := w) (r := total (fun t => t.results.length) m.types) (m := m) fun t ht =>
        ⟨hw t ht, total_mem (f := fun t => t.results.length) ht⟩
      obtain ⟨c1, c2, c3⟩ := hc {} (h0 _)
      have c2 : (contextFrom m {}).peak ≤ 0 + _ := c2
      cases hx : (contextFrom m {}).out with
      | error e =>
        rw [bind_err' hx]
        exact ⟨Nat.le_trans c1 (Nat.le_add_right _ _), by dsimp only; omega⟩
      | ok q =>
        obtain ⟨u, c'⟩ := q
        obtain ⟨_, hent⟩ := c3 u c' hx
        have hent : entries c' ≤ 0 + _ := hent
        obtain ⟨e, he⟩ := types_out m.types c' hbad
        obtain ⟨t1, t2, _⟩ := keeps_types (I := fun _ => True) m.types c' trivial
        have hbody : validateModuleBody m c' = ⟨.error e, m.globals.length + (forEach validateFuncTy m.types c').steps,
            max (entries c') (forEach validateFuncTy m.types c').peak⟩ := by
          refine (bind_ok' (p := tick m.globals.length) (x := ()) (c' := c') rfl).trans ?_
          rw [bind_err' he]
          rfl
        rw [bind_ok' hx, hbody]
        exact ⟨by dsimp only; omega, by dsimp only; omega⟩
  obtain ⟨k1, k2⟩ := key
  constructor
  · refine Nat.le_trans k1 ?_
    have e : w + 3 * r + 10 = rate w r + 3 := rfl
    have hk : 7 ≤ rate w r := by unfold rate; omega
    rw [e]
    generalize rate w r = k at *
    have := Nat.mul_le_mul_left m.imports.length hk
    simp only [Nat.add_mul, Nat.mul_add]
    omega
  · refine Nat.le_trans k2 ?_
    have := Nat.mul_le_mul_left m.imports.length (show 2 ≤ r + 2 by omega)
    rw [show r + 4 = (r + 2) + 2 from rfl]
    generalize r + 2 = k at *
    simp only [Nat.add_mul, Nat.mul_add]
    omega

/-- The peak of the context, whatever the types. -/
theorem peak_le {m : Module} (hr : 1 ≤ r) (h : BlockResults r m) : (validateModule m).peak ≤ bulk m * (r + 4) := by
  have key := (module_le (w := total (fun t => t.params.length) m.types) (fun t ht => total_mem (f := fun t => t.params.length) ht) hr h).2
  have ht := params_le_total m.types
  have hbulk : total (fun t => 1 + t.params.length + t.results.length) m.types ≤ bulk m := by unfold bulk; omega
  generalize total (fun t : FuncTy => 1 + t.params.length + t.results.length) m.types = nt at *
  have e : bulk m = nt + (bulk m - nt) := by omega
  have hn := Nat.mul_le_mul_left nt (show 1 ≤ r + 4 by omega)
  rw [e, Nat.add_mul]
  omega

end

end Whasm.Meter
