import Verif.Model.Room
import Verif.Lemmas.Metered
import Verif.Lemmas.Width
import Verif.Spec.Room

/-!
# Validation with limited memory
-/

namespace Whasm.Room
open Spec

/-! ## Nothing but a panic -/

/-- `q` panics or does what `p` does. -/
def OrPanic {α : Type} (q p : V α) : Prop := ∀ c, q c = .error .panic ∨ q c = p c

section
variable {α β : Type} {C : Computer}

theorem orPanic_refl (p : V α) : OrPanic p p := fun _ => .inr rfl

theorem orPanic_bind {q p : V α} {g f : α → V β} (h : OrPanic q p) (hf : ∀ x, OrPanic (g x) (f x)) : OrPanic (q >>= g) (p >>= f) := by
  intro c
  rcases h c with h | h
  · exact .inl (bind_err h)
  · cases hp : p c with
    | error e => exact .inr ((bind_err (h.trans hp)).trans (bind_err hp).symm)
    | ok r =>
      obtain ⟨x, c'⟩ := r
      rw [bind_ok (h.trans hp), bind_ok hp]
      exact hf x c'

theorem orPanic_first {q : V Unit} {g p : V α} (h : ∀ c, q c = .error .panic ∨ q c = .ok ((), c)) (hg : OrPanic g p) : OrPanic (q >>= fun _ => g) p := by
  intro c
  rcases h c with h | h
  · exact .inl (bind_err h)
  · rw [bind_ok h]; exact hg c

theorem orPanic_after {p : V α} {g f : α → V β} (hf : ∀ x, OrPanic (g x) (f x)) : OrPanic (p >>= g) (p >>= f) := orPanic_bind (orPanic_refl p) hf

theorem orPanic_ite {c : Prop} [Decidable c] {q p : V α} {r : V α} (h : OrPanic q p) : OrPanic (if c then r else q) (if c then r else p) := by
  by_cases hc : c
  · rw [if_pos hc, if_pos hc]; exact orPanic_refl _
  · rw [if_neg hc, if_neg hc]; exact h

theorem orPanic_guard {c : Ctx → Prop} [∀ x, Decidable (c x)] {p : V α} : OrPanic (fun x => if c x then p x else .error .panic) p := by
  intro x
  by_cases h : c x
  · exact .inr (if_pos h)
  · exact .inl (if_neg h)

theorem orPanic_pushOperand (o : Operand) : OrPanic (pushOperand C o) (Whasm.pushOperand o) := orPanic_guard
theorem orPanic_pushFrame (l o : List Val) : OrPanic (pushFrame C l o) (Whasm.pushFrame l o) := orPanic_guard
theorem orPanic_push (k : Entry) (len : Ctx → Nat) (p : V Unit) : OrPanic (push C k len p) p := orPanic_guard

theorem reserve_same (k : Entry) (n : Nat) (c : Ctx) : reserve C k n c = .error .panic ∨ reserve C k n c = .ok ((), c) := by
  unfold reserve
  by_cases h : n ≤ C.entries k
  · exact .inr (if_pos h)
  · exact .inl (if_neg h)

theorem orPanic_pushOperands : ∀ vs, OrPanic (pushOperands C vs) (Whasm.pushOperands vs)
  | [] => orPanic_refl _
  | _ :: vs => orPanic_bind (orPanic_pushOperand _) fun _ => orPanic_pushOperands vs

theorem orPanic_else : OrPanic (validateElse C) Whasm.validateElse := orPanic_after fun _ => orPanic_pushFrame _ _
theorem orPanic_end : OrPanic (validateEnd C) Whasm.validateEnd := orPanic_after fun _ => orPanic_pushOperands _

mutual

theorem orPanic_instr : ∀ i, OrPanic (validateInstr C i) (Width.validateInstr C.bits C.build i)
  | .block _ b => orPanic_after fun _ => orPanic_bind (orPanic_pushFrame _ _) fun _ => orPanic_bind (orPanic_expr b) fun _ => orPanic_end
  | .loop _ b => orPanic_after fun _ => orPanic_bind (orPanic_pushFrame _ _) fun _ => orPanic_bind (orPanic_expr b) fun _ => orPanic_end
  | .ifElse _ a b => orPanic_after fun _ => orPanic_after fun _ => orPanic_bind (orPanic_pushFrame _ _) fun _ => orPanic_bind (orPanic_expr a) fun _ =>
      orPanic_bind orPanic_else fun _ => orPanic_bind (orPanic_expr b) fun _ => orPanic_end
  | .elseMark => orPanic_else
  | .endMark => orPanic_end
  | .unreachable => orPanic_refl _
  | .nop => orPanic_refl _
  | .br _ => orPanic_refl _
  | .brIf _ => orPanic_after fun _ => orPanic_after fun _ => orPanic_after fun _ => orPanic_pushOperands _
  | .brTable _ _ => orPanic_refl _
  | .ret => by
    refine orPanic_after fun c => ?_
    cases c.ret with
    | none => exact orPanic_refl _
    | some t => exact orPanic_refl _
  | .call _ => orPanic_after fun _ => orPanic_after fun _ => orPanic_pushOperands _
  | .callIndirect _ _ => orPanic_after fun _ => orPanic_after fun _ => orPanic_ite (orPanic_after fun _ => orPanic_after fun _ => orPanic_pushOperands _)
  | .drop => orPanic_refl _
  | .select => orPanic_after fun _ => orPanic_after fun _ => orPanic_after fun _ => orPanic_pushOperand _
  | .localGet _ => orPanic_after fun _ => orPanic_pushOperands _
  | .localSet _ => orPanic_refl _
  | .localTee _ => orPanic_after fun _ => orPanic_after fun _ => orPanic_pushOperands _
  | .globalGet _ => orPanic_after fun _ => orPanic_pushOperands _
  | .globalSet _ => orPanic_refl _
  | .load _ _ _ => orPanic_after fun _ => orPanic_after fun _ => orPanic_pushOperands _
  | .store _ _ _ => orPanic_refl _
  | .memSize _ => orPanic_after fun _ => orPanic_pushOperands _
  | .memGrow _ => orPanic_after fun _ => orPanic_after fun _ => orPanic_pushOperands _
  | .constI32 _ => orPanic_pushOperands _
  | .constI64 _ => orPanic_pushOperands _
  | .constF32 _ => orPanic_pushOperands _
  | .constF64 _ => orPanic_pushOperands _
  | .num _ => orPanic_after fun _ => orPanic_pushOperands _

theorem orPanic_expr : ∀ e, OrPanic (validateExpr C e) (Width.validateExpr C.bits C.build e)
  | [] => orPanic_refl _
  | i :: is => orPanic_bind (orPanic_instr i) fun _ => orPanic_expr is

end

/-- Before an instruction of a constant expression is validated, it is checked: there are no labels. -/
theorem const_instr {i : Instr} {c c' : Ctx} {u : Unit} (h : validateConstCheck i c = .ok (u, c')) : Width.validateInstr C.bits C.build i = Whasm.validateInstr i := by
  cases i <;> first | rfl | (exact absurd h (by simp [validateConstCheck, V.fail]))

theorem orPanic_constExpr : ∀ e, OrPanic (validateConstExpr C e) (Whasm.validateConstExpr e)
  | [] => orPanic_refl _
  | i :: is => by
    intro c
    show (validateConstCheck i >>= fun _ => validateInstr C i >>= fun _ => validateConstExpr C is) c = _ ∨
      (validateConstCheck i >>= fun _ => validateInstr C i >>= fun _ => validateConstExpr C is) c = (validateConstCheck i >>= fun _ => Whasm.validateInstr i >>= fun _ => Whasm.validateConstExpr is) c
    cases h : validateConstCheck i c with
    | error e => exact .inr ((bind_err h).trans (bind_err h).symm)
    | ok r =>
      obtain ⟨u, c'⟩ := r
      rw [bind_ok h, bind_ok h]
      exact orPanic_bind (const_instr (C := C) h ▸ orPanic_instr i) (fun _ => orPanic_constExpr is) c'

theorem orPanic_forEach {g f : α → V Unit} (h : ∀ x, OrPanic (g x) (f x)) : ∀ xs, OrPanic (forEach g xs) (forEach f xs)
  | [] => orPanic_refl _
  | x :: xs => orPanic_bind (h x) fun _ => orPanic_forEach h xs

theorem useTypes_each : ∀ (ts : List FuncTy) (c : Ctx), forEach (fun t => (fun c => .ok ((), { c with types := c.types ++ [t] }) : V Unit)) ts c = Whasm.useTypes ts c
  | [], c => by show Except.ok ((), c) = .ok ((), { c with types := c.types ++ [] }); rw [List.append_nil]
  | t :: ts, c => by
    refine Eq.trans (useTypes_each ts { c with types := c.types ++ [t] }) ?_
    show Except.ok ((), { c with types := (c.types ++ [t]) ++ ts }) = Except.ok ((), { c with types := c.types ++ (t :: ts) })
    rw [List.append_assoc]; rfl

theorem orPanic_useTypes (ts : List FuncTy) : OrPanic (useTypes C ts) (Whasm.useTypes ts) := by
  intro c
  rw [← useTypes_each ts c]
  exact orPanic_forEach (fun _ => orPanic_push _ _ _) ts c

theorem orPanic_useGlobals (gs : List Global) : OrPanic (useGlobals C gs) (Whasm.useGlobals gs) := orPanic_forEach (fun _ => orPanic_push _ _ _) gs

theorem orPanic_context (m : Module) : OrPanic (contextFrom C m) (Whasm.contextFrom m) := by
  refine orPanic_bind (orPanic_useTypes _) fun _ => orPanic_bind (orPanic_forEach (fun i => ?_) _) fun _ => orPanic_bind (orPanic_forEach (fun i => ?_) _) fun _ =>
    orPanic_bind (orPanic_forEach (fun i => ?_) _) fun _ => orPanic_bind (orPanic_forEach (fun i => ?_) _) fun _ =>
    orPanic_bind (orPanic_forEach (fun i => ?_) _) fun _ => orPanic_bind (orPanic_forEach (fun i => orPanic_push _ _ _) _) fun _ =>
    orPanic_bind (orPanic_forEach (fun i => orPanic_push _ _ _) _) fun _ => orPanic_useGlobals _
  · cases i.desc with
    | func x => exact orPanic_after fun _ => orPanic_push _ _ _
    | _ => exact orPanic_refl _
  · cases i.desc <;> first | exact orPanic_push _ _ _ | exact orPanic_refl _
  · cases i.desc <;> first | exact orPanic_push _ _ _ | exact orPanic_refl _
  · cases i.desc <;> first | exact orPanic_push _ _ _ | exact orPanic_refl _
  · exact orPanic_after fun _ => orPanic_push _ _ _

theorem orPanic_func (f : Func) : OrPanic (validateFunc C f) (Width.validateFunc C.bits C.build f) :=
  orPanic_after fun _ => orPanic_first (reserve_same _ _) (orPanic_after fun _ => orPanic_bind (orPanic_pushFrame _ _) fun _ =>
    orPanic_bind (orPanic_expr _) fun _ => orPanic_refl _)

theorem orPanic_init (t : List Val) (e : ConstExpr) : OrPanic (validateInit C t e) (Whasm.validateInit t e) :=
  orPanic_bind (orPanic_pushFrame _ _) fun _ => orPanic_bind (orPanic_constExpr _) fun _ => orPanic_refl _

theorem orPanic_global (g : Global) : OrPanic (validateGlobal C g) (Whasm.validateGlobal g) := orPanic_after fun _ => orPanic_bind (orPanic_init _ _) fun _ => orPanic_refl _
theorem orPanic_elem (e : Elem) : OrPanic (validateElem C e) (Whasm.validateElem e) :=
  orPanic_after fun _ => orPanic_ite (orPanic_bind (orPanic_init _ _) fun _ => orPanic_refl _)
theorem orPanic_data (d : Data) : OrPanic (validateData C d) (Whasm.validateData d) := orPanic_after fun _ => orPanic_init _ _

theorem orPanic_withCtx {q p : V α} (c0 : Ctx) (h : OrPanic q p) : OrPanic (withCtx c0 q) (withCtx c0 p) := by
  intro c
  unfold withCtx
  rcases h c0 with h | h
  · rw [h]; exact .inl rfl
  · rw [h]; exact .inr rfl

theorem globals_first (gs : List Global) (c : Ctx) : withCtx {} (useGlobals C gs) c = .error .panic ∨ withCtx {} (useGlobals C gs) c = .ok ((), c) := by
  rcases orPanic_withCtx {} (orPanic_useGlobals (C := C) gs) c with h | h
  · exact .inl h
  · refine .inr (h.trans ?_)
    unfold withCtx
    rw [useGlobals_eq]

theorem orPanic_body (m : Module) : OrPanic (validateModuleBody C m) (Width.validateModuleBody C.bits C.build m) := by
  refine orPanic_first (globals_first _) (orPanic_after fun _ => orPanic_bind (orPanic_forEach (fun f => orPanic_bind (orPanic_func f) fun _ => orPanic_refl _) _) fun _ =>
    orPanic_after fun _ => orPanic_after fun _ => orPanic_bind (orPanic_withCtx _ (orPanic_bind (orPanic_useGlobals _) fun _ =>
      orPanic_forEach (fun g => orPanic_bind (orPanic_global g) fun _ => orPanic_refl _) _)) fun _ =>
    orPanic_bind (orPanic_forEach orPanic_elem _) fun _ => orPanic_bind (orPanic_forEach orPanic_data _) fun _ => ?_)
  have hrest : OrPanic (do
      reserve C .externals m.imports.length
      let imports ← collect validateImport m.imports
      reserve C .externals m.exports.length
      let exports ← collect validateExport m.exports
      if ¬ (m.tables.length ≤ 1) then V.fail .invalid
      else if ¬ (m.mems.length ≤ 1) then V.fail .invalid
      else do
        reserve C .names m.exports.length
        let exportNames := m.exports.map (·.name)
        let exportNames := dedup (sortNames exportNames)
        if exportNames.length ≠ m.exports.length then V.fail .invalid
        else pure { imports := imports, exports := exports } : V ModuleResult) (do
      let imports ← collect validateImport m.imports
      let exports ← collect validateExport m.exports
      if ¬ (m.tables.length ≤ 1) then V.fail .invalid
      else if ¬ (m.mems.length ≤ 1) then V.fail .invalid
      else
        let exportNames := m.exports.map (·.name)
        let exportNames := dedup (sortNames exportNames)
        if exportNames.length ≠ m.exports.length then V.fail .invalid
        else pure { imports := imports, exports := exports }) :=
    orPanic_first (reserve_same _ _) (orPanic_after fun _ => orPanic_first (reserve_same _ _) (orPanic_after fun _ =>
      orPanic_ite (orPanic_ite (orPanic_first (reserve_same _ _) (orPanic_refl _)))))
  cases m.start with
  | none => exact hrest
  | some s => exact orPanic_after fun _ => hrest

theorem orPanic_module (C : Computer) (m : Module) : validateModule C m = .error .panic ∨ validateModule C m = Width.validateModule C.bits C.build m := by
  unfold validateModule Width.validateModule
  rcases orPanic_bind (orPanic_context (C := C) m) (fun _ => orPanic_body m) {} with h | h
  · rw [h]; exact .inl rfl
  · rw [h]; exact .inr rfl

end

/-! ## Enough memory for expressions -/

/-- At most one result everywhere in the context. -/
structure Slim (c : Ctx) : Prop where
  types : ∀ t ∈ c.types, t.results.length ≤ 1
  funcs : ∀ t ∈ c.funcs, t.results.length ≤ 1
  frames : ∀ f ∈ c.frames, f.label.length ≤ 1 ∧ f.out.length ≤ 1
  ret : ∀ t, c.ret = some t → t.length ≤ 1

/-- Where there is memory for `n` more operands and `d` more frames, `q` does what `p` does; on success there are at most `n` operands and `k` frames more. -/
def Fit {α : Type} (C : Computer) (q p : V α) (n : Nat) (d k : Int) (P : α → Prop) : Prop :=
  ∀ c, Slim c → c.operands.length + n ≤ C.entries .operands → (c.frames.length : Int) + d ≤ C.entries .frames →
    q c = p c ∧ ∀ x c', p c = .ok (x, c') → P x ∧ Slim c' ∧ c'.types = c.types ∧ c'.operands.length ≤ c.operands.length + n ∧ (c'.frames.length : Int) ≤ c.frames.length + k

section
variable {α β : Type} {C : Computer}

theorem fit_bind {q p : V α} {g f : α → V β} {n1 n2 : Nat} {d1 d2 k1 k2 : Int} {P : α → Prop} {Q : β → Prop} (h : Fit C q p n1 d1 k1 P)
    (hf : ∀ x, P x → Fit C (g x) (f x) n2 d2 k2 Q) : Fit C (q >>= g) (p >>= f) (n1 + n2) (max d1 (k1 + d2)) (k1 + k2) Q := by
  intro c hc ho hd
  obtain ⟨h1, h2⟩ := h c hc (by omega) (by omega)
  cases hp : p c with
  | error e =>
    rw [bind_err (h1.trans hp), bind_err hp]
    exact ⟨rfl, fun x c' e => by cases e⟩
  | ok r =>
    obtain ⟨x, c1⟩ := r
    obtain ⟨hx, hs, ht, h3, h4⟩ := h2 x c1 hp
    rw [bind_ok (h1.trans hp), bind_ok hp]
    obtain ⟨h5, h6⟩ := hf x hx c1 hs (by omega) (by omega)
    refine ⟨h5, fun y c2 e => ?_⟩
    obtain ⟨a, b, c', d, e⟩ := h6 y c2 e
    exact ⟨a, b, c'.trans ht, by omega, by omega⟩

theorem fit_mono {q p : V α} {n n' : Nat} {d d' k k' : Int} {P : α → Prop} (h : Fit C q p n d k P) (hn : n ≤ n' := by omega) (hd : d ≤ d' := by omega) (hk : k ≤ k' := by omega) :
    Fit C q p n' d' k' P := by
  intro c hc h1 h2
  obtain ⟨h3, h4⟩ := h c hc (by omega) (by omega)
  refine ⟨h3, fun x c' e => ?_⟩
  obtain ⟨a, b, c', d, e⟩ := h4 x c' e
  exact ⟨a, b, c', by omega, by omega⟩

theorem fit_self {p : V α} {P : α → Prop} {k : Int} (h : ∀ c, Slim c → ∀ x c', p c = .ok (x, c') → P x ∧ Slim c' ∧ c'.types = c.types ∧ c'.operands.length ≤ c.operands.length ∧ (c'.frames.length : Int) ≤ c.frames.length + k) :
    Fit C p p 0 0 k P := fun c hc _ _ => ⟨rfl, h c hc⟩

theorem fit_same {p : V α} {P : α → Prop} (h : ∀ c, Slim c → ∀ x c', p c = .ok (x, c') → P x ∧ c' = c) : Fit C p p 0 0 0 P :=
  fit_self fun c hc x c' e => by
    obtain ⟨a, b⟩ := h c hc x c' e
    subst b
    exact ⟨a, hc, rfl, Nat.le_refl _, by omega⟩

theorem fit_pure {x : α} {P : α → Prop} (h : P x) : Fit C (pure x) (pure x) 0 0 0 P := fit_same fun _ _ _ _ e => by cases e; exact ⟨h, rfl⟩
theorem fit_fail {e : VErr} {n : Nat} {d k : Int} {P : α → Prop} : Fit C (V.fail e) (V.fail e) n d k P := fun _ _ _ _ => ⟨rfl, fun _ _ h => by cases h⟩

theorem fit_ite {b : Prop} [Decidable b] {q p : V α} {e : VErr} {n : Nat} {d k : Int} {P : α → Prop} (h : Fit C q p n d k P) :
    Fit C (if b then V.fail e else q) (if b then V.fail e else p) n d k P := by
  by_cases hb : b
  · rw [if_pos hb, if_pos hb]; exact fit_fail
  · rw [if_neg hb, if_neg hb]; exact h

theorem fit_lookup {sel : Ctx → List α} {P : α → Prop} {i : Idx} (h : ∀ c, Slim c → ∀ t ∈ sel c, P t) : Fit C (fun c => lookup (sel c) i c) (fun c => lookup (sel c) i c) 0 0 0 P :=
  fit_same fun c hc x c' e => by
    have e : lookup (sel c) i c = _ := e
    unfold lookup at e
    split at e
    · cases e
    · split at e
      · rename_i hx
        cases e
        exact ⟨h c hc x (List.mem_of_getElem? hx), rfl⟩
      · cases e

theorem label_ok {w : Nat} {build : Build} {i : Idx} {c c' : Ctx} {f : Frame} (e : validateLabelOn w build i c = .ok (f, c')) : f ∈ c.frames ∧ c' = c := by
  unfold validateLabelOn at e
  dsimp only at e
  split at e
  · cases e
  · split at e
    · cases e
    · split at e
      · cases e
      · split at e
        · rename_i hf
          cases e
          exact ⟨List.mem_reverse.mp (List.mem_of_getElem? hf), rfl⟩
        · cases e

theorem fit_label {w : Nat} {build : Build} {i : Idx} : Fit C (validateLabelOn w build i) (validateLabelOn w build i) 0 0 0 fun f => f.label.length ≤ 1 :=
  fit_same fun _ hc f _ e => ⟨(hc.frames f (label_ok e).1).1, (label_ok e).2⟩

theorem labels_ok {w : Nat} {build : Build} {t : List Val} : ∀ {ls : List Idx} {c : Ctx} {c' : Ctx} {u : Unit}, Width.validateLabels w build t ls c = .ok (u, c') → c' = c
  | [], _, _, _, e => by cases e; rfl
  | l :: ls, c, _, _, e => by
    unfold Width.validateLabels at e
    cases hl : validateLabelOn w build l c with
    | error x => rw [bind_err hl] at e; cases e
    | ok r =>
      obtain ⟨f, c1⟩ := r
      rw [bind_ok hl] at e
      obtain ⟨_, rfl⟩ := label_ok hl
      by_cases h : t ≠ f.label
      · rw [if_pos h] at e; cases e
      · rw [if_neg h] at e; exact labels_ok e

theorem fit_labels {w : Nat} {build : Build} {t : List Val} {ls : List Idx} : Fit C (Width.validateLabels w build t ls) (Width.validateLabels w build t ls) 0 0 0 fun _ => True :=
  fit_same fun _ _ _ _ e => ⟨trivial, labels_ok e⟩

theorem fit_popOperand {o : Operand} : Fit C (popOperand o) (popOperand o) 0 0 0 fun _ => True := by
  refine fit_self fun c hc x c' e => ?_
  unfold popOperand at e
  split at e
  · cases e
  · split at e
    · cases e; exact ⟨trivial, hc, rfl, Nat.le_refl _, by omega⟩
    · split at e
      · cases e
      · split at e
        · cases e
        · rename_i v rest hops
          have hgo : ∀ {r : Operand}, Except.ok (r, { c with operands := rest }) = (Except.ok (x, c') : Except VErr _) →
              True ∧ Slim c' ∧ c'.types = c.types ∧ c'.operands.length ≤ c.operands.length ∧ (c'.frames.length : Int) ≤ c.frames.length + 0 := by
            intro r e
            cases e
            exact ⟨trivial, ⟨hc.types, hc.funcs, hc.frames, hc.ret⟩, rfl, by rw [hops]; exact Nat.le_succ _, by show (c.frames.length : Int) ≤ _; omega⟩
          split at e
          · exact hgo e
          · exact hgo e
          · split at e
            · exact hgo e
            · cases e

theorem fit_popReversed : ∀ vs, Fit C (popReversed vs) (popReversed vs) 0 0 0 fun _ => True
  | [] => fit_pure trivial
  | _ :: vs => fit_mono (fit_bind fit_popOperand fun _ _ => fit_popReversed vs)

theorem fit_popOperands {vs : List Val} : Fit C (popOperands vs) (popOperands vs) 0 0 0 fun _ => True := fit_popReversed _

theorem fit_get {q p : Ctx → V α} {n : Nat} {d k : Int} {P : α → Prop}
    (h : ∀ c, Slim c → c.operands.length + n ≤ C.entries .operands → (c.frames.length : Int) + d ≤ C.entries .frames → q c c = p c c ∧ ∀ x c', p c c = .ok (x, c') →
      P x ∧ Slim c' ∧ c'.types = c.types ∧ c'.operands.length ≤ c.operands.length + n ∧ (c'.frames.length : Int) ≤ c.frames.length + k) : Fit C (V.get >>= q) (V.get >>= p) n d k P :=
  fun c hc h1 h2 => h c hc h1 h2

theorem fit_popFrame : Fit C popFrame popFrame 0 0 (-1) fun t => t.length ≤ 1 := by
  refine fit_self fun c hc x c' e => ?_
  unfold popFrame at e
  rw [bind_ok (x := c) (c' := c) rfl] at e
  cases hf : c.frames with
  | nil => rw [hf] at e; cases e
  | cons f rest =>
    rw [hf] at e
    dsimp only at e
    cases hp : popOperands f.out c with
    | error y => rw [bind_err hp] at e; cases e
    | ok r =>
      obtain ⟨u, c1⟩ := r
      obtain ⟨_, h1⟩ := fit_popOperands (C := ⟨C.bits, C.build, C.parts, fun _ => c.operands.length + c.frames.length⟩) (vs := f.out) c hc
        (by show _ + 0 ≤ _ + _; omega) (by show (_ : Int) + 0 ≤ ((_ + _ : Nat) : Int); omega)
      obtain ⟨_, hs, ht, ho, hk⟩ := h1 u c1 hp
      rw [bind_ok hp, bind_ok (x := c1) (c' := c1) rfl] at e
      by_cases hh : c1.operands.length ≠ f.height
      · rw [if_pos hh] at e; cases e
      · rw [if_neg hh] at e
        cases hf1 : c1.frames with
        | nil => rw [hf1] at e; cases e
        | cons f1 rest1 =>
          rw [hf1] at e
          dsimp only at e
          rw [bind_ok (x := ()) (c' := { c1 with frames := rest1 }) rfl] at e
          cases e
          rw [hf1, hf] at hk
          refine ⟨(hc.frames f (hf ▸ List.mem_cons_self)).2, ⟨hs.types, hs.funcs, fun g hg => hs.frames g (hf1 ▸ List.mem_cons_of_mem _ hg), hs.ret⟩, ht, ho, ?_⟩
          show (rest1.length : Int) ≤ ((f :: rest).length : Int) + -1
          simp only [List.length_cons] at hk ⊢
          omega

theorem fit_setUnreachable : Fit C setUnreachable setUnreachable 0 0 0 fun _ => True := by
  refine fit_self fun c hc x c' e => ?_
  unfold setUnreachable at e
  cases hf : c.frames with
  | nil => rw [hf] at e; cases e
  | cons f rest =>
    rw [hf] at e
    cases e
    refine ⟨trivial, ⟨hc.types, hc.funcs, fun g hg => ?_, hc.ret⟩, rfl, by show (List.drop _ _).length ≤ _; rw [List.length_drop]; omega, ?_⟩
    · rcases List.mem_cons.mp hg with hg | hg
      · subst hg; exact hc.frames f (hf ▸ List.mem_cons_self)
      · exact hc.frames g (hf ▸ List.mem_cons_of_mem _ hg)
    · show ((_ :: rest).length : Int) ≤ ((f :: rest).length : Int) + 0
      simp only [List.length_cons]
      omega

theorem fit_pushOperand {o : Operand} : Fit C (pushOperand C o) (Whasm.pushOperand o) 1 0 0 fun _ => True := by
  intro c hc h1 _
  refine ⟨if_pos h1, fun x c' e => ?_⟩
  cases e
  exact ⟨trivial, ⟨hc.types, hc.funcs, hc.frames, hc.ret⟩, rfl, Nat.le_refl _, by show (c.frames.length : Int) ≤ _; omega⟩

theorem fit_pushOperands : ∀ vs : List Val, Fit C (pushOperands C vs) (Whasm.pushOperands vs) vs.length 0 0 fun _ => True
  | [] => fit_pure trivial
  | v :: vs => fit_mono (fit_bind fit_pushOperand fun _ _ => fit_pushOperands vs) (by rw [List.length_cons]; omega)

theorem fit_pushFrame {l o : List Val} (hl : l.length ≤ 1) (ho : o.length ≤ 1) : Fit C (pushFrame C l o) (Whasm.pushFrame l o) 0 1 1 fun _ => True := by
  intro c hc _ h2
  refine ⟨if_pos (by omega), fun x c' e => ?_⟩
  cases e
  refine ⟨trivial, ⟨hc.types, hc.funcs, fun f hf => ?_, hc.ret⟩, rfl, Nat.le_refl _, by show ((_ :: c.frames).length : Int) ≤ _; simp only [List.length_cons]; omega⟩
  rcases List.mem_cons.mp hf with hf | hf
  · subst hf; exact ⟨hl, ho⟩
  · exact hc.frames f hf

theorem fit_end : Fit C (validateEnd C) Whasm.validateEnd 1 0 (-1) fun _ => True :=
  fit_mono (fit_bind fit_popFrame fun t ht => fit_mono (n' := 1) (d' := 0) (k' := 0) (fit_pushOperands t) ht)
theorem fit_else : Fit C (validateElse C) Whasm.validateElse 0 0 0 fun _ => True :=
  fit_mono (fit_bind fit_popFrame fun _ ht => fit_pushFrame ht ht)

/-- An instruction that pushes at most one operand, and makes no frame. -/
abbrev Simple (C : Computer) (q p : V Unit) : Prop := Fit C q p 1 0 0 fun _ => True

theorem fit_framed {l t : List Val} {b : List Instr} {n : Nat} {d : Int} (hl : l.length ≤ 1) (ht : t.length ≤ 1)
    (hb : Fit C (validateExpr C b) (Width.validateExpr C.bits C.build b) n d 0 fun _ => True) :
    Fit C (pushFrame C l t >>= fun _ => validateExpr C b >>= fun _ => validateEnd C) (Whasm.pushFrame l t >>= fun _ => Width.validateExpr C.bits C.build b >>= fun _ => Whasm.validateEnd)
      (n + 1) (max 1 (1 + d)) 0 fun _ => True :=
  fit_mono (fit_bind (fit_pushFrame hl ht) fun _ _ => fit_bind hb fun _ _ => fit_end)

theorem fit_one {vs : List Val} (h : vs.length ≤ 1) : Simple C (pushOperands C vs) (Whasm.pushOperands vs) := fit_mono (fit_pushOperands vs) h

theorem fit_read {p : V α} {g f : α → V Unit} {P : α → Prop} (h : Fit C p p 0 0 0 P) (hf : ∀ x, P x → Simple C (g x) (f x)) : Simple C (p >>= g) (p >>= f) :=
  fit_mono (fit_bind h hf)

theorem fit_pops {vs : List Val} {g f : Unit → V Unit} (hf : Simple C (g ()) (f ())) : Simple C (popOperands vs >>= g) (popOperands vs >>= f) :=
  fit_read fit_popOperands fun _ _ => hf

theorem fit_any {sel : Ctx → List α} {i : Idx} {g f : α → V Unit} (hf : ∀ x, Simple C (g x) (f x)) :
    Simple C ((fun c => lookup (sel c) i c : V α) >>= g) ((fun c => lookup (sel c) i c : V α) >>= f) :=
  fit_read (fit_lookup (P := fun _ => True) fun _ _ _ _ => trivial) fun x _ => hf x

mutual

theorem fit_instr : ∀ (i : Instr) {e : List Instr}, i ∈ e → Meter.Flat 1 e →
    Fit C (validateInstr C i) (Width.validateInstr C.bits C.build i) (bulkI i) (depthI i) 0 fun _ => True
  | .block t b, e, he, h => by
    obtain ⟨ht, hb⟩ := Meter.flat_block h he
    refine fit_mono (fit_bind (fit_pure (P := fun t => t.length ≤ 1) ht) fun t ht => fit_framed ht ht (fit_expr b hb)) ?_ ?_
    · simp only [bulkI]; omega
    · simp only [depthI]; omega
  | .loop t b, e, he, h => by
    obtain ⟨ht, hb⟩ := Meter.flat_loop h he
    refine fit_mono (fit_bind (fit_pure (P := fun t => t.length ≤ 1) ht) fun t ht => fit_framed (Nat.zero_le _) ht (fit_expr b hb)) ?_ ?_
    · simp only [bulkI]; omega
    · simp only [depthI]; omega
  | .ifElse t a b, e, he, h => by
    obtain ⟨ht, ha, hb⟩ := Meter.flat_if h he
    refine fit_mono (fit_bind (fit_pure (P := fun t => t.length ≤ 1) ht) fun t ht => fit_bind fit_popOperands fun _ _ => fit_bind (fit_pushFrame ht ht) fun _ _ =>
      fit_bind (fit_expr a ha) fun _ _ => fit_bind fit_else fun _ _ => fit_bind (fit_expr b hb) fun _ _ => fit_end) ?_ ?_ ?_
    · simp only [bulkI]; omega
    · simp only [depthI]; omega
    · omega
  | .elseMark, _, _, _ => fit_mono fit_else (Nat.zero_le _)
  | .endMark, _, _, _ => fit_mono fit_end (Nat.le_refl _) (by simp only [depthI]; omega)
  | .unreachable, _, _, _ => fit_mono fit_setUnreachable (Nat.zero_le _)
  | .nop, _, _, _ => fit_mono (fit_pure trivial) (Nat.zero_le _)
  | .br _, _, _, _ => fit_read fit_label fun _ _ => fit_pops (fit_mono fit_setUnreachable)
  | .brIf _, _, _, _ => fit_read fit_label fun _ h => fit_pops (fit_pops (fit_one h))
  | .brTable ls _, _, _, _ => fit_mono (fit_read fit_label fun _ _ => fit_read fit_labels fun _ _ => fit_pops (fit_pops (fit_mono fit_setUnreachable))) (by simp only [bulkI]; omega)
      (by simp only [depthI]; omega)
  | .ret, _, _, _ => by
    refine fit_get fun c hc h1 h2 => ?_
    show (match c.ret with | none => _ | some t => _ : V Unit) c = (match c.ret with | none => _ | some t => _ : V Unit) c ∧ ∀ x c', (match c.ret with | none => _ | some t => _ : V Unit) c = _ → _
    cases c.ret with
    | none => exact ⟨rfl, fun _ _ h => by cases h⟩
    | some t => exact (fit_pops (fit_mono fit_setUnreachable) : Simple C _ _) c hc h1 h2
  | .call _, _, _, _ => fit_read (fit_lookup fun _ hc => hc.funcs) fun _ h => fit_pops (fit_one h)
  | .callIndirect _ _, _, _, _ => fit_any fun _ => fit_read (fit_lookup fun _ hc => hc.types) fun _ h => fit_ite (fit_pops (fit_pops (fit_one h)))
  | .drop, _, _, _ => fit_read fit_popOperand fun _ _ => fit_mono (fit_pure trivial)
  | .select, _, _, _ => fit_pops (fit_read fit_popOperand fun _ _ => fit_read fit_popOperand fun _ _ => fit_pushOperand)
  | .localGet _, _, _, _ => fit_any fun _ => fit_one (Nat.le_refl _)
  | .localSet _, _, _, _ => fit_any fun _ => fit_mono fit_popOperands
  | .localTee _, _, _, _ => fit_any fun _ => fit_pops (fit_one (Nat.le_refl _))
  | .globalGet _, _, _, _ => fit_any fun _ => fit_one (Nat.le_refl _)
  | .globalSet _, _, _, _ => fit_any fun _ => fit_ite (fit_mono fit_popOperands)
  | .load _ _ _, _, _, _ => fit_any fun _ => fit_pops (fit_one (Nat.le_refl _))
  | .store _ _ _, _, _, _ => fit_any fun _ => fit_mono fit_popOperands
  | .memSize _, _, _, _ => fit_any fun _ => fit_one (Nat.le_refl _)
  | .memGrow _, _, _, _ => fit_any fun _ => fit_pops (fit_one (Nat.le_refl _))
  | .constI32 _, _, _, _ => fit_one (Nat.le_refl _)
  | .constI64 _, _, _, _ => fit_one (Nat.le_refl _)
  | .constF32 _, _, _, _ => fit_one (Nat.le_refl _)
  | .constF64 _, _, _, _ => fit_one (Nat.le_refl _)
  | .num o, _, _, _ => fit_pops (fit_one (Meter.numSig_length o).2)

theorem fit_expr : ∀ (e : List Instr), Meter.Flat 1 e → Fit C (validateExpr C e) (Width.validateExpr C.bits C.build e) (bulkL e) (depthL e) 0 fun _ => True
  | [], _ => fit_pure trivial
  | i :: is, h => by
    refine fit_mono (fit_bind (fit_instr i List.mem_cons_self h) fun _ _ => fit_expr is ?_) (Nat.le_refl _) ?_
    · exact fun j hj => h j (occurs_cons hj)
    · simp only [depthL]; omega

end

theorem fit_constInstr (i : Instr) : Fit C (validateConstCheck i >>= fun _ => validateInstr C i) (validateConstCheck i >>= fun _ => Whasm.validateInstr i) 1 0 0 fun _ => True := by
  cases i
  case constI32 | constI64 | constF32 | constF64 => exact fit_read (fit_pure (P := fun _ => True) trivial) fun _ _ => fit_one (Nat.le_refl _)
  case globalGet i =>
    refine fit_read (P := fun _ => True) (fit_mono (fit_bind (fit_lookup (P := fun _ => True) fun _ _ _ _ => trivial) fun _ _ => fit_ite (fit_pure trivial)))
      fun _ _ => fit_any fun _ => fit_one (Nat.le_refl _)
  all_goals exact fun c _ _ _ => ⟨rfl, fun _ _ h => by cases h⟩

theorem bulkI_pos (i : Instr) : 1 ≤ bulkI i := by cases i <;> simp only [bulkI] <;> omega

theorem fit_constExpr : ∀ e : List Instr, Fit C (validateConstExpr C e) (Whasm.validateConstExpr e) (bulkL e) 0 0 fun _ => True
  | [] => fit_pure trivial
  | i :: is => by
    have h := fit_bind (fit_constInstr (C := C) i) fun _ _ => fit_constExpr is
    rw [V_assoc, V_assoc] at h
    exact fit_mono h (by have := bulkI_pos i; simp only [bulkL]; omega)

/-! ## The context -/

/-- A step that makes the vector with length `len` longer by `n` entries: it does what `p` does if there are `r` entries at most, and succeeds only then. -/
def Grows (q p : V Unit) (n : Nat) (len : Ctx → Nat) (r : Nat) (ts : List FuncTy) : Prop :=
  ∀ c, c.types = ts → (len c + n ≤ r → q c = p c) ∧ (len c ≤ r → ∀ u c', q c = .ok (u, c') → len c + n ≤ r) ∧ ∀ u c', p c = .ok (u, c') → c'.types = ts ∧ len c' = len c + n

theorem grows_none {ts : List FuncTy} {len : Ctx → Nat} {r : Nat} : Grows (pure ()) (pure ()) 0 len r ts :=
  fun c hc => ⟨fun _ => rfl, fun h _ _ _ => h, fun _ _ e => by cases e; exact ⟨hc, rfl⟩⟩

theorem grows_push {ts : List FuncTy} {k : Entry} {len : Ctx → Nat} {p : V Unit} (h : ∀ c u c', p c = .ok (u, c') → c'.types = c.types ∧ len c' = len c + 1) :
    Grows (push C k len p) p 1 len (C.entries k) ts := by
  intro c hc
  refine ⟨fun hr => if_pos hr, fun _ u c' e => ?_, fun u c' e => ?_⟩
  · by_cases hr : len c + 1 ≤ C.entries k
    · exact hr
    · have : push C k len p c = .error .panic := if_neg hr
      rw [this] at e
      cases e
  · obtain ⟨a, b⟩ := h c u c' e
    exact ⟨a.trans hc, b⟩

theorem grows_func {ts : List FuncTy} {len : Ctx → Nat} {r : Nat} {x : Idx} {q p : FuncTy → V Unit} (h : ∀ t, Grows (q t) (p t) 1 len r ts) :
    Grows (validateTypeIdx x >>= q) (validateTypeIdx x >>= p) (ts[x.toNat]?.toList.length) len r ts := by
  intro c hc
  have hl : validateTypeIdx x c = match ts[x.toNat]? with | some t => .ok (t, c) | none => .error .invalid := by
    have := gives_lookup c.types x c
    unfold Gives at this
    rw [hc] at this
    show lookup c.types x c = _
    rw [hc]
    split at this <;> simp_all
  cases ht : ts[x.toNat]? with
  | none =>
    rw [ht] at hl
    rw [bind_err hl, bind_err hl]
    exact ⟨fun _ => rfl, fun _ u c' e => (by cases e), fun u c' e => (by cases e)⟩
  | some t =>
    rw [ht] at hl
    rw [bind_ok hl, bind_ok hl]
    exact h t c hc

theorem grows_forEach {q p : α → V Unit} {n : α → Nat} {len : Ctx → Nat} {r : Nat} {ts : List FuncTy} : ∀ xs : List α, (∀ x ∈ xs, Grows (q x) (p x) (n x) len r ts) →
    Grows (forEach q xs) (forEach p xs) (total n xs) len r ts
  | [], _ => grows_none
  | x :: xs, h => by
    intro c hc
    obtain ⟨h1, h2, h3⟩ := h x List.mem_cons_self c hc
    have ih := grows_forEach xs fun y hy => h y (List.mem_cons_of_mem _ hy)
    have e1 : forEach q (x :: xs) c = (q x >>= fun _ => forEach q xs) c := rfl
    have e2 : forEach p (x :: xs) c = (p x >>= fun _ => forEach p xs) c := rfl
    rw [e1, e2]
    show (_ + (n x + total n xs) ≤ _ → _) ∧ (_ → ∀ u c', _ → _ + (n x + total n xs) ≤ _) ∧ ∀ u c', _ → _ ∧ _ = _ + (n x + total n xs)
    refine ⟨fun hr => ?_, fun hl u c' e => ?_, fun u c' e => ?_⟩
    · refine bindV_congr (h1 (by omega)) fun u c' e => ?_
      obtain ⟨h4, h5⟩ := h3 u c' e
      exact (ih c' h4).1 (by omega)
    · cases hq : q x c with
      | error y => rw [bind_err hq] at e; cases e
      | ok z =>
        obtain ⟨v, c1⟩ := z
        have hn := h2 hl v c1 hq
        rw [bind_ok hq] at e
        obtain ⟨h4, h5⟩ := h3 v c1 ((h1 hn).symm.trans hq)
        have := (ih c1 h4).2.1 (by omega) u c' e
        omega
    · cases hq : p x c with
      | error y => rw [bind_err hq] at e; cases e
      | ok z =>
        obtain ⟨v, c1⟩ := z
        rw [bind_ok hq] at e
        obtain ⟨h4, h5⟩ := h3 v c1 hq
        obtain ⟨h6, h7⟩ := (ih c1 h4).2.2 u c' e
        exact ⟨h6, by omega⟩

theorem total_filterMap {g : α → Option β} : ∀ xs : List α, total (fun x => (g x).toList.length) xs = (xs.filterMap g).length
  | [] => rfl
  | x :: xs => by
    show _ + total _ xs = _
    rw [total_filterMap xs, List.filterMap_cons]
    cases h : g x <;> simp [h, Nat.add_comm]

end

end Whasm.Room
