import Verif.Lemmas.Exec
import Verif.Lemmas.Sound
import Verif.Lemmas.Names
import Verif.Lemmas.Total
import Verif.Spec.Validity

/-!
# The validator of modules decides `Valid .code`
-/

namespace Whasm
open Spec

/-! ## Expressions -/

theorem eval_iff {C : Env} (hC : C.aligned = false) {e : List Instr} {r : List Val} :
    ((evalExpr C e ([], false)).bind fun s => endL r s) = some () ↔ ExprType C e r := by
  rw [Option.bind_eq_some_iff]
  constructor
  · rintro ⟨s, h1, h2⟩
    obtain ⟨ts, k1, k2⟩ := sound_expr hC h1 (endL_iff.mp h2)
    obtain rfl := matches_nil k1
    rw [List.reverse_reverse] at k2
    exact k2
  · intro h
    obtain ⟨s, k1, k2⟩ := complete_expr h (s := ([], false)) (r := []) (.inr rfl)
    rw [List.append_nil] at k2
    exact ⟨s, k1, endL_iff.mpr k2⟩

/-! ## Checks that leave the context alone -/

/-- `p` succeeds on `c` exactly if `Q`, without changing the context; otherwise it fails with `invalid`. -/
def Checks (p : V Unit) (c : Ctx) (Q : Prop) : Prop := (Q → p c = .ok ((), c)) ∧ (¬ Q → p c = .error .invalid)

/-- The same with a result. -/
def Gives {α : Type} (p : V α) (c : Ctx) (o : Option α) : Prop :=
  p c = match o with
    | some x => .ok (x, c)
    | none => .error .invalid

theorem Checks.congr {p : V Unit} {c : Ctx} {Q R : Prop} (h : Checks p c Q) (e : Q ↔ R) : Checks p c R :=
  ⟨fun r => h.1 (e.mpr r), fun r => h.2 fun q => r (e.mp q)⟩

theorem Checks.bind {p : V Unit} {f : Unit → V Unit} {c : Ctx} {Q R : Prop} (h : Checks p c Q) (h' : Q → Checks (f ()) c R) :
    Checks (p >>= f) c (Q ∧ R) := by
  refine ⟨fun ⟨q, r⟩ => ?_, fun hn => ?_⟩
  · rw [bind_ok (h.1 q), (h' q).1 r]
  · by_cases q : Q
    · rw [bind_ok (h.1 q), (h' q).2 fun r => hn ⟨q, r⟩]
    · exact bind_err (h.2 q)

theorem checks_true {c : Ctx} : Checks (pure ()) c True := ⟨fun _ => rfl, fun h => (h trivial).elim⟩

theorem checks_if {c : Ctx} {Q : Prop} [Decidable Q] : Checks (if Q then V.fail .invalid else pure ()) c (¬ Q) := by
  constructor
  · intro h; rw [if_neg h]; rfl
  · intro h; rw [if_pos (Decidable.not_not.mp h)]; rfl

theorem checks_ifElse {c : Ctx} {Q R : Prop} [Decidable Q] {p : V Unit} (h : ¬ Q → Checks p c R) :
    Checks (if Q then V.fail .invalid else p) c (¬ Q ∧ R) := by
  by_cases q : Q
  · rw [if_pos q]; exact ⟨fun h => (h.1 q).elim, fun _ => rfl⟩
  · rw [if_neg q]; exact (h q).congr ⟨fun r => ⟨q, r⟩, fun r => r.2⟩

theorem Gives.bind {α : Type} {p : V α} {f : α → V Unit} {c : Ctx} {o : Option α} {R : α → Prop} (h : Gives p c o)
    (h' : ∀ x, o = some x → Checks (f x) c (R x)) : Checks (p >>= f) c (∃ x, o = some x ∧ R x) := by
  cases o with
  | none => exact ⟨fun ⟨_, hx, _⟩ => (by cases hx), fun _ => bind_err h⟩
  | some x =>
    refine ⟨?_, fun hn => ?_⟩
    · rintro ⟨y, hy, r⟩; cases hy; rw [bind_ok h, (h' x rfl).1 r]
    · rw [bind_ok h, (h' x rfl).2 fun r => hn ⟨x, rfl, r⟩]

theorem Gives.bindG {α β : Type} {p : V α} {f : α → V β} {c : Ctx} {o : Option α} {k : α → Option β} (h : Gives p c o)
    (h' : ∀ x, o = some x → Gives (f x) c (k x)) : Gives (p >>= f) c (o.bind k) := by
  cases o with
  | none => exact bind_err h
  | some x => unfold Gives; rw [bind_ok h]; exact h' x rfl

theorem Checks.bindG {β : Type} {p : V Unit} {f : Unit → V β} {c : Ctx} {Q : Prop} {k : Option β} (h : Checks p c Q)
    (h' : Q → Gives (f ()) c k) : (Q → Gives (p >>= f) c k) ∧ (¬ Q → Gives (p >>= f) c none) := by
  refine ⟨fun q => ?_, fun q => ?_⟩
  · unfold Gives; rw [bind_ok (h.1 q)]; exact h' q
  · exact bind_err (h.2 q)

theorem checks_forEach {α : Type} {f : α → V Unit} {c : Ctx} {Q : α → Prop} : ∀ {xs : List α}, (∀ x ∈ xs, Checks (f x) c (Q x)) →
    Checks (forEach f xs) c (∀ x ∈ xs, Q x)
  | [], _ => checks_true.congr (by simp)
  | x :: xs, h => by
    refine ((h x List.mem_cons_self).bind fun _ => checks_forEach fun y hy => h y (List.mem_cons_of_mem _ hy)).congr ?_
    simp

theorem gives_collect {α β : Type} {f : α → V β} {c : Ctx} {g : α → Option β} : ∀ {xs : List α}, (∀ x ∈ xs, Gives (f x) c (g x)) →
    Gives (collect f xs) c (if ∀ x ∈ xs, (g x).isSome = true then some (xs.filterMap g) else none)
  | [], _ => rfl
  | x :: xs, h => by
    have h1 := h x List.mem_cons_self
    have ih := gives_collect fun y hy => h y (List.mem_cons_of_mem _ hy)
    show (f x >>= _) c = _
    cases hg : g x with
    | none =>
      rw [hg] at h1
      rw [bind_err h1, if_neg]
      intro hall
      have := hall x List.mem_cons_self
      rw [hg] at this; cases this
    | some y =>
      rw [hg] at h1
      rw [bind_ok h1]
      by_cases hall : ∀ z ∈ xs, (g z).isSome = true
      · rw [if_pos hall] at ih
        rw [bind_ok ih, if_pos]
        · simp [hg]; rfl
        · intro z hz
          rcases List.mem_cons.mp hz with rfl | hz
          · rw [hg]; rfl
          · exact hall z hz
      · rw [if_neg hall] at ih
        rw [bind_err ih, if_neg]
        exact fun h' => hall fun z hz => h' z (List.mem_cons_of_mem _ hz)

theorem gives_lookup {α : Type} (xs : List α) (i : Idx) (c : Ctx) : Gives (lookup xs i) c xs[i.toNat]? := by
  unfold Gives lookup
  rcases Nat.lt_or_ge i.toNat xs.length with h | h
  · rw [if_neg (by omega), List.getElem?_eq_getElem h]
  · rw [if_pos h, List.getElem?_eq_none h]

/-! ## The context of a module -/

/-- The context that validation works with. -/
def ctxOf (m : Module) : Ctx :=
  { types := m.types, funcs := funcSpace m, tables := tableSpace m, mems := memSpace m, globals := globalSpace m }

open Classical in
theorem useImportedFuncs_eq : ∀ (is : List Import) (c : Ctx),
    useImportedFuncs is c = if ∀ i ∈ is, ∀ x, i.desc = .func x → x.toNat < c.types.length
      then .ok ((), { c with funcs := c.funcs ++ is.filterMap fun i => match i.desc with | .func x => c.types[x.toNat]? | _ => none })
      else .error .invalid
  | [], c => by simp [useImportedFuncs, forEach]; rfl
  | i :: is, c => by
    show ((match i.desc with | .func idx => _ | _ => _ : V Unit) >>= fun _ => useImportedFuncs is) c = _
    cases hd : i.desc with
    | func x =>
      have hl := gives_lookup c.types x c
      rcases Nat.lt_or_ge x.toNat c.types.length with hx | hx
      · have e : c.types[x.toNat]? = some c.types[x.toNat] := List.getElem?_eq_getElem hx
        rw [e] at hl
        rw [bind_ok (x := ()) (c' := { c with funcs := c.funcs ++ [c.types[x.toNat]] })]
        · rw [useImportedFuncs_eq is]
          simp only [List.forall_mem_cons, hd, List.filterMap_cons, e]
          by_cases hall : ∀ i ∈ is, ∀ x, i.desc = .func x → x.toNat < c.types.length
          · rw [if_pos hall, if_pos ⟨fun y hy => by cases hy; exact hx, hall⟩]
            simp
          · rw [if_neg hall, if_neg fun h => hall h.2]
        · show (validateTypeIdx x >>= _) c = _
          exact (bind_ok (p := validateTypeIdx x) (x := c.types[x.toNat]) (c' := c) hl).trans rfl
      · rw [List.getElem?_eq_none hx] at hl
        rw [bind_err (e := .invalid), if_neg]
        · intro hall
          have := hall i List.mem_cons_self x hd
          omega
        · show (validateTypeIdx x >>= _) c = _
          exact bind_err hl
    | table _ | mem _ | global _ =>
      rw [bind_ok (x := ()) (c' := c) rfl, useImportedFuncs_eq is]
      simp only [List.forall_mem_cons, hd, List.filterMap_cons]
      simp

theorem useImportedTables_eq : ∀ (is : List Import) (c : Ctx),
    useImportedTables is c = .ok ((), { c with tables := c.tables ++ is.filterMap fun i => match i.desc with | .table t => some t | _ => none })
  | [], c => by simp [useImportedTables, forEach]; rfl
  | i :: is, c => by
    show ((match i.desc with | .table t => _ | _ => _ : V Unit) >>= fun _ => useImportedTables is) c = _
    cases hd : i.desc with
    | table t => rw [bind_ok (x := ()) (c' := { c with tables := c.tables ++ [t] }) rfl, useImportedTables_eq is]; simp [hd]
    | func _ | mem _ | global _ => rw [bind_ok (x := ()) (c' := c) rfl, useImportedTables_eq is]; simp [hd]

theorem useImportedMems_eq : ∀ (is : List Import) (c : Ctx),
    useImportedMems is c = .ok ((), { c with mems := c.mems ++ is.filterMap fun i => match i.desc with | .mem t => some t | _ => none })
  | [], c => by simp [useImportedMems, forEach]; rfl
  | i :: is, c => by
    show ((match i.desc with | .mem t => _ | _ => _ : V Unit) >>= fun _ => useImportedMems is) c = _
    cases hd : i.desc with
    | mem t => rw [bind_ok (x := ()) (c' := { c with mems := c.mems ++ [t] }) rfl, useImportedMems_eq is]; simp [hd]
    | func _ | table _ | global _ => rw [bind_ok (x := ()) (c' := c) rfl, useImportedMems_eq is]; simp [hd]

theorem useImportedGlobals_eq : ∀ (is : List Import) (c : Ctx),
    useImportedGlobals is c = .ok ((), { c with globals := c.globals ++ is.filterMap fun i => match i.desc with | .global t => some t | _ => none })
  | [], c => by simp [useImportedGlobals, forEach]; rfl
  | i :: is, c => by
    show ((match i.desc with | .global t => _ | _ => _ : V Unit) >>= fun _ => useImportedGlobals is) c = _
    cases hd : i.desc with
    | global t => rw [bind_ok (x := ()) (c' := { c with globals := c.globals ++ [t] }) rfl, useImportedGlobals_eq is]; simp [hd]
    | func _ | table _ | mem _ => rw [bind_ok (x := ()) (c' := c) rfl, useImportedGlobals_eq is]; simp [hd]

theorem useFuncs_eq : ∀ (fs : List Func) (c : Ctx),
    useFuncs fs c = if ∀ f ∈ fs, f.ty.toNat < c.types.length
      then .ok ((), { c with funcs := c.funcs ++ fs.filterMap fun f => c.types[f.ty.toNat]? }) else .error .invalid
  | [], c => by simp [useFuncs, forEach]; rfl
  | f :: fs, c => by
    show ((validateTypeIdx f.ty >>= _) >>= fun _ => useFuncs fs) c = _
    have hl := gives_lookup c.types f.ty c
    rcases Nat.lt_or_ge f.ty.toNat c.types.length with hx | hx
    · have e : c.types[f.ty.toNat]? = some c.types[f.ty.toNat] := List.getElem?_eq_getElem hx
      rw [e] at hl
      rw [bind_ok (x := ()) (c' := { c with funcs := c.funcs ++ [c.types[f.ty.toNat]] })]
      · rw [useFuncs_eq fs]
        simp only [List.forall_mem_cons, List.filterMap_cons, e]
        by_cases hall : ∀ f ∈ fs, f.ty.toNat < c.types.length
        · rw [if_pos hall, if_pos ⟨hx, hall⟩]
          simp
        · rw [if_neg hall, if_neg fun h => hall h.2]
      · exact (bind_ok (p := validateTypeIdx f.ty) (x := c.types[f.ty.toNat]) (c' := c) hl).trans rfl
    · rw [List.getElem?_eq_none hx] at hl
      rw [bind_err (e := .invalid), if_neg]
      · intro hall
        have := hall f List.mem_cons_self
        omega
      · exact bind_err hl

theorem useTables_eq : ∀ (ts : List Table) (c : Ctx), useTables ts c = .ok ((), { c with tables := c.tables ++ ts.map (·.ty) })
  | [], c => by simp [useTables, forEach]; rfl
  | t :: ts, c => by
    show useTables ts { c with tables := c.tables ++ [t.ty] } = _
    rw [useTables_eq ts]; simp

theorem useMems_eq : ∀ (ts : List Mem) (c : Ctx), useMems ts c = .ok ((), { c with mems := c.mems ++ ts.map (·.ty) })
  | [], c => by simp [useMems, forEach]; rfl
  | t :: ts, c => by
    show useMems ts { c with mems := c.mems ++ [t.ty] } = _
    rw [useMems_eq ts]; simp

theorem useGlobals_eq : ∀ (ts : List Global) (c : Ctx), useGlobals ts c = .ok ((), { c with globals := c.globals ++ ts.map (·.ty) })
  | [], c => by simp [useGlobals, forEach]; rfl
  | t :: ts, c => by
    show useGlobals ts { c with globals := c.globals ++ [t.ty] } = _
    rw [useGlobals_eq ts]; simp

/-- All type indices of imports and functions are in range. -/
def TypesIn (m : Module) : Prop :=
  (∀ i ∈ m.imports, ∀ x, i.desc = .func x → x.toNat < m.types.length) ∧ ∀ f ∈ m.funcs, f.ty.toNat < m.types.length

theorem contextFrom_eq (m : Module) : (TypesIn m → contextFrom m {} = .ok ((), ctxOf m)) ∧
    (¬ TypesIn m → contextFrom m {} = .error .invalid) := by
  unfold contextFrom
  rw [bind_ok (x := ()) (c' := { types := m.types }) rfl]
  have h1 := useImportedFuncs_eq m.imports { types := m.types }
  by_cases hi : ∀ i ∈ m.imports, ∀ x, i.desc = .func x → x.toNat < m.types.length
  · rw [if_pos hi] at h1
    rw [bind_ok h1, bind_ok (useImportedTables_eq m.imports _), bind_ok (useImportedMems_eq m.imports _),
      bind_ok (useImportedGlobals_eq m.imports _)]
    have h2 := useFuncs_eq m.funcs (Ctx.mk m.types (importedFuncs m) (importedTables m) (importedMems m) (importedGlobals m) [] none [] [])
    by_cases hf : ∀ f ∈ m.funcs, f.ty.toNat < m.types.length
    · rw [if_pos hf] at h2
      refine ⟨fun _ => ?_, fun h => (h ⟨hi, hf⟩).elim⟩
      refine (bind_ok h2).trans ?_
      rw [bind_ok (useTables_eq m.tables _), bind_ok (useMems_eq m.mems _), useGlobals_eq m.globals]
      rfl
    · rw [if_neg hf] at h2
      exact ⟨fun h => (hf h.2).elim, fun _ => bind_err h2⟩
  · rw [if_neg hi] at h1
    exact ⟨fun h => (hi h.1).elim, fun _ => bind_err h1⟩

/-! ## Items -/

theorem empty_eta {c : Ctx} (h3 : c.operands = []) (h4 : c.frames = []) : { c with operands := [], frames := [] } = c := by
  cases c
  cases h3; cases h4
  rfl

theorem clean_ctxOf (m : Module) : Clean (ctxOf m) := ⟨rfl, rfl, rfl, rfl⟩

/-- `validateFunc` after the type and the locals are known. -/
def funcTail (f : Func) (ty : FuncTy) : V FuncTy := do
  pushFrame ty.results ty.results
  validateExpr f.body
  let _ ← popFrame
  checkEmpty
  (fun c => .ok ((), { c with locals := [], ret := none }) : V Unit)
  pure ty

theorem checks_func {c : Ctx} (hc : Clean c) {f : Func} (hp : plainL f.body) :
    Checks (do let _ ← validateFunc f; pure ()) c (∃ t, c.types[f.ty.toNat]? = some t ∧
      ExprType (envOf { c with locals := t.params ++ f.locals, ret := some t.results } []) f.body t.results) := by
  have e : (do let _ ← validateFunc f; pure () : V Unit) = validateTypeIdx f.ty >>= fun ty =>
      (do (fun c => .ok ((), { c with ret := some ty.results, locals := ty.params ++ f.locals }) : V Unit); funcTail f ty) >>= fun _ => pure () := by
    unfold validateFunc
    simp only [V_assoc]
    rfl
  rw [e]
  refine Gives.bind (gives_lookup c.types f.ty c) fun t _ => ?_
  let c1 : Ctx := { c with locals := t.params ++ f.locals, ret := some t.results }
  have hs : pushFrame t.results t.results c1 = .ok ((), mk c1 [] t.results t.results [] ([], false)) := by
    obtain ⟨_, _, h3, h4⟩ := hc
    unfold pushFrame mk
    simp [c1, h3, h4]
  have hx := exec_expr c1 f.body hp [] t.results t.results [] ([], false)
  have hl : labelsOf t.results [] = [] := rfl
  rw [hl] at hx
  have hi := eval_iff (C := envOf c1 []) rfl (e := f.body) (r := t.results)
  have ht : funcTail f t c1 = match (evalExpr (envOf c1 []) f.body ([], false)).bind fun s => endL t.results s with
      | some _ => .ok (t, c)
      | none => .error .invalid := by
    unfold funcTail
    rw [bind_ok hs]
    cases he : evalExpr (envOf c1 []) f.body ([], false) with
    | none =>
      rw [he] at hx
      exact bind_err hx
    | some s =>
      rw [he] at hx
      have hf := popFrame_mk c1 [] t.results t.results [] s
      simp only [Option.bind_some]
      rw [bind_ok hx]
      cases hn : endL t.results s with
      | none =>
        rw [hn] at hf
        exact bind_err hf
      | some u =>
        rw [hn] at hf
        rw [bind_ok hf]
        show Except.ok (t, { c1 with operands := [], frames := [], locals := [], ret := none }) = Except.ok (t, c)
        congr 2
        obtain ⟨h1, h2, h3, h4⟩ := hc
        cases c
        cases h1; cases h2; cases h3; cases h4
        rfl
  have he := hi.symm
  show Checks _ c (ExprType (envOf c1 []) f.body t.results)
  refine Checks.congr ?_ hi
  have hfin : ∀ r, funcTail f t c1 = r → ((do
      (fun c => .ok ((), { c with ret := some t.results, locals := t.params ++ f.locals }) : V Unit); funcTail f t : V FuncTy)) c = r :=
    fun r h => h
  generalize ((evalExpr (envOf c1 []) f.body ([], false)).bind fun s => endL t.results s) = o at ht
  cases o with
  | none => exact ⟨fun h => (by cases h), fun _ => bind_err (hfin _ ht)⟩
  | some u => exact ⟨fun _ => (bind_ok (hfin _ ht)).trans rfl, fun h => (h rfl).elim⟩

/-- Constant instructions. -/
def ConstI (C : Env) (i : Instr) : Prop :=
  (∃ v, i = .constI32 v) ∨ (∃ v, i = .constI64 v) ∨ (∃ v, i = .constF32 v) ∨ (∃ v, i = .constF64 v) ∨
    ∃ x g, i = .globalGet x ∧ C.globals[x.toNat]? = some g ∧ g.mt = .const

theorem checks_const (c : Ctx) (i : Instr) : Checks (validateConstCheck i) c (ConstI (envOf c []) i) := by
  cases i with
  | constI32 v => exact ⟨fun _ => rfl, fun h => (h (.inl ⟨v, rfl⟩)).elim⟩
  | constI64 v => exact ⟨fun _ => rfl, fun h => (h (.inr (.inl ⟨v, rfl⟩))).elim⟩
  | constF32 v => exact ⟨fun _ => rfl, fun h => (h (.inr (.inr (.inl ⟨v, rfl⟩)))).elim⟩
  | constF64 v => exact ⟨fun _ => rfl, fun h => (h (.inr (.inr (.inr (.inl ⟨v, rfl⟩))))).elim⟩
  | globalGet x =>
    refine (Gives.bind (gives_lookup c.globals x c) (R := fun g => g.mt = .const) fun g _ => ?_).congr ?_
    · exact checks_if.congr (by simp)
    · constructor
      · rintro ⟨g, h1, h2⟩; exact .inr (.inr (.inr (.inr ⟨x, g, rfl, h1, h2⟩)))
      · rintro (⟨v, h⟩ | ⟨v, h⟩ | ⟨v, h⟩ | ⟨v, h⟩ | ⟨y, g, h, h1, h2⟩)
        all_goals cases h
        exact ⟨g, h1, h2⟩
  | _ =>
    refine ⟨fun h => ?_, fun _ => rfl⟩
    rcases h with ⟨v, h⟩ | ⟨v, h⟩ | ⟨v, h⟩ | ⟨v, h⟩ | ⟨y, g, h, h1, h2⟩
    all_goals cases h

theorem plain_const {C : Env} {i : Instr} (h : ConstI C i) : plainI i := by
  rcases h with ⟨v, rfl⟩ | ⟨v, rfl⟩ | ⟨v, rfl⟩ | ⟨v, rfl⟩ | ⟨y, g, rfl, h1, h2⟩
  all_goals simp only [plainI]

theorem exec_const (c : Ctx) (l o : List Val) : ∀ (e : List Instr) (s : Loc),
    ((∀ i ∈ e, ConstI (envOf c []) i) → validateConstExpr e (mk c [] l o [] s) = outU c [] l o [] (evalExpr (envOf c []) e s)) ∧
    ((¬ ∀ i ∈ e, ConstI (envOf c []) i) → validateConstExpr e (mk c [] l o [] s) = .error .invalid)
  | [], s => ⟨fun _ => rfl, fun h => (h (by simp)).elim⟩
  | i :: is, s => by
    have h1 := checks_const (mk c [] l o [] s) i
    have e1 : ConstI (envOf (mk c [] l o [] s) []) i ↔ ConstI (envOf c []) i := Iff.rfl
    have h1 := h1.congr e1
    by_cases hi : ConstI (envOf c []) i
    · have h2 := exec_instr c i (plain_const hi) [] l o [] s
      have hl : labelsOf l [] = [] := rfl
      rw [hl] at h2
      have e2 : validateConstExpr (i :: is) (mk c [] l o [] s) = (validateInstr i >>= fun _ => validateConstExpr is) (mk c [] l o [] s) := by
        show (validateConstCheck i >>= _) _ = _
        rw [bind_ok (h1.1 hi)]
      rw [e2]
      simp only [List.forall_mem_cons, hi, true_and, evalExpr]
      cases he : evalInstr (envOf c []) i s with
      | none => rw [he] at h2; exact ⟨fun _ => bind_err h2, fun _ => bind_err h2⟩
      | some s' =>
        rw [he] at h2
        rw [bind_ok h2]
        exact exec_const c l o is s'
    · refine ⟨fun h => (hi (h i List.mem_cons_self)).elim, fun _ => ?_⟩
      exact bind_err (h1.2 hi)

theorem checks_init {c : Ctx} (h3 : c.operands = []) (h4 : c.frames = []) (t : Val) (e : Expr) : Checks (validateInit [t] e) c (ConstOk (envOf c []) e t) := by
  have hs : pushFrame [t] [t] c = .ok ((), mk c [] [t] [t] [] ([], false)) := by
    unfold pushFrame mk
    simp [h3, h4]
  unfold validateInit Checks
  rw [bind_ok hs]
  obtain ⟨x1, x2⟩ := exec_const c [t] [t] e ([], false)
  by_cases ha : ∀ i ∈ e, ConstI (envOf c []) i
  · have hx := x1 ha
    have hi := eval_iff (C := envOf c []) rfl (e := e) (r := [t])
    have hQ : ConstOk (envOf c []) e t ↔ ((evalExpr (envOf c []) e ([], false)).bind fun s => endL [t] s) = some () := by
      rw [hi]
      exact ⟨fun h => h.1, fun h => ⟨h, ha⟩⟩
    rw [hQ]
    cases he : evalExpr (envOf c []) e ([], false) with
    | none =>
      rw [he] at hx
      exact ⟨fun h => (by cases h), fun _ => bind_err hx⟩
    | some s =>
      rw [he] at hx
      have hf := popFrame_mk c [] [t] [t] [] s
      simp only [Option.bind_some]
      cases hn : endL [t] s with
      | none =>
        rw [hn] at hf
        refine ⟨fun h => (by cases h), fun _ => ?_⟩
        rw [bind_ok hx]
        exact bind_err hf
      | some u =>
        rw [hn] at hf
        refine ⟨fun _ => ?_, fun h => (h rfl).elim⟩
        rw [bind_ok hx, bind_ok hf]
        show Except.ok ((), { c with operands := [], frames := [] }) = Except.ok ((), c)
        rw [empty_eta h3 h4]
  · exact ⟨fun h => (ha h.2).elim, fun _ => bind_err (x2 ha)⟩

theorem checks_limits {c : Ctx} (k : Nat) (hk : k < 2 ^ 32) (l : Limits) :
    Checks (do let r ← validateLimits l; if ¬ (r ≤ BitVec.ofNat 32 k) then V.fail .invalid else pure ()) c (LimitsOk k l) := by
  obtain ⟨n, mx⟩ := l
  have hle : ∀ a b : U32, a ≤ b ↔ a.toNat ≤ b.toNat := fun a b => Iff.rfl
  have hk' : (BitVec.ofNat 32 k).toNat = k := by simp; omega
  cases mx with
  | none =>
    have e : validateLimits ⟨n, none⟩ = pure n := by
      unfold validateLimits
      simp
    rw [e]
    show Checks (if _ then _ else _) c _
    refine checks_if.congr ?_
    rw [Decidable.not_not, hle, hk']
    simp [LimitsOk]
  | some x =>
    by_cases h : n ≤ x
    · have e : validateLimits ⟨n, some x⟩ = pure x := by
        unfold validateLimits
        simp only [Option.getD_some]
        rw [if_neg (by simpa using h)]
      rw [e]
      show Checks (if _ then _ else _) c _
      refine checks_if.congr ?_
      rw [Decidable.not_not, hle, hk']
      rw [hle] at h
      simp only [LimitsOk, Option.some.injEq, forall_eq']
      omega
    · have e : validateLimits ⟨n, some x⟩ = V.fail .invalid := by
        unfold validateLimits
        simp only [Option.getD_some]
        rw [if_pos (by simpa using h)]
      rw [e]
      rw [hle] at h
      refine ⟨fun hQ => ?_, fun _ => rfl⟩
      exact (h (hQ.2 x rfl).2).elim

theorem checks_tableTy {c : Ctx} (t : TableTy) : Checks (validateTableTy t) c (LimitsOk (2 ^ 32) t.lim) := by
  refine (checks_limits (2 ^ 32 - 1) (by decide) t.lim).congr ?_
  obtain ⟨⟨n, mx⟩, _⟩ := t
  simp only [LimitsOk]
  have := n.isLt
  constructor
  · rintro ⟨h1, h2⟩
    exact ⟨by omega, fun k hk => ⟨by have := k.isLt; omega, (h2 k hk).2⟩⟩
  · rintro ⟨h1, h2⟩
    exact ⟨by omega, fun k hk => ⟨by have := k.isLt; omega, (h2 k hk).2⟩⟩

theorem checks_memTy {c : Ctx} (t : MemTy) : Checks (validateMemTy t) c (LimitsOk 65535 t.lim) :=
  checks_limits 65535 (by decide) t.lim

theorem isSome_lt {α : Type} {xs : List α} {n : Nat} : xs[n]?.isSome = true ↔ n < xs.length := by
  simp

theorem checks_elem {c : Ctx} (hc : Clean c) (e : Elem) : Checks (validateElem e) c
    ((∃ t, c.tables[e.table.toNat]? = some t ∧ t.elem = .funcRef) ∧ ConstOk (envOf c []) e.offset .i32 ∧
      ∀ x ∈ e.init, x.toNat < c.funcs.length) := by
  refine (Gives.bind (gives_lookup c.tables e.table c) (R := fun t => t.elem = .funcRef ∧ ConstOk (envOf c []) e.offset .i32 ∧
    ∀ x ∈ e.init, x.toNat < c.funcs.length) fun t _ => ?_).congr ?_
  · refine (checks_ifElse fun _ => (checks_init hc.operands hc.frames .i32 e.offset).bind fun _ => checks_forEach (Q := fun x : Idx => x.toNat < c.funcs.length)
      fun x _ => ?_).congr (by simp)
    refine (Gives.bind (gives_lookup c.funcs x c) (R := fun _ => True) fun t _ => checks_true).congr ?_
    rw [← isSome_lt]
    cases c.funcs[x.toNat]? <;> simp
  · constructor
    · rintro ⟨t, h1, h2, h3⟩; exact ⟨⟨t, h1, h2⟩, h3⟩
    · rintro ⟨⟨t, h1, h2⟩, h3⟩; exact ⟨t, h1, h2, h3⟩

theorem checks_data {c : Ctx} (hc : Clean c) (d : Data) : Checks (validateData d) c
    (d.mem.toNat < c.mems.length ∧ ConstOk (envOf c []) d.offset .i32) := by
  refine (Gives.bind (gives_lookup c.mems d.mem c) (R := fun _ => ConstOk (envOf c []) d.offset .i32)
    fun t _ => checks_init hc.operands hc.frames .i32 d.offset).congr ?_
  rw [← isSome_lt]
  cases c.mems[d.mem.toNat]? <;> simp

theorem checks_start {c : Ctx} (s : Start) : Checks (validateStart s) c (c.funcs[s.func.toNat]? = some ⟨[], []⟩) := by
  refine (Gives.bind (gives_lookup c.funcs s.func c) (R := fun t => t = ⟨[], []⟩) fun t _ => ?_).congr (by simp)
  refine checks_if.congr ?_
  obtain ⟨p, r⟩ := t
  simp

/-- An import is fine. -/
def ImportOk (k : Nat) (i : Import) : Prop :=
  match i.desc with
  | .table t => LimitsOk (2 ^ 32) t.lim
  | .mem t => LimitsOk k t.lim
  | _ => True

theorem gives_pure {α : Type} (x : α) (c : Ctx) : Gives (pure x) c (some x) := rfl

theorem gives_import (m : Module) (i : Import) : (ImportOk 65535 i → Gives (validateImport i) (ctxOf m) (importType m i)) ∧
    (¬ ImportOk 65535 i → Gives (validateImport i) (ctxOf m) none) := by
  obtain ⟨_, _, d⟩ := i
  cases d with
  | func x =>
    refine ⟨fun _ => ?_, fun h => (h trivial).elim⟩
    have := Gives.bindG (gives_lookup m.types x (ctxOf m)) (k := fun t => some (External.func t)) (f := fun ty => pure (External.func ty))
      fun t _ => gives_pure _ _
    exact this.trans (by simp only [importType]; cases m.types[x.toNat]? <;> rfl)
  | table t => exact (checks_tableTy t).bindG (f := fun _ => pure (External.table t)) (k := some (.table t)) fun _ => gives_pure _ _
  | mem t => exact (checks_memTy t).bindG (f := fun _ => pure (External.mem t)) (k := some (.mem t)) fun _ => gives_pure _ _
  | global t => exact ⟨fun _ => rfl, fun h => (h trivial).elim⟩

theorem gives_export (m : Module) (e : Export) : Gives (validateExport e) (ctxOf m) (exportType m e) := by
  obtain ⟨_, d⟩ := e
  cases d with
  | func x =>
    have := Gives.bindG (gives_lookup (funcSpace m) x (ctxOf m)) (k := fun t => some (External.func t)) (f := fun ty => pure (External.func ty))
      fun t _ => gives_pure _ _
    exact this.trans (by simp only [exportType]; cases (funcSpace m)[x.toNat]? <;> rfl)
  | table x =>
    have := Gives.bindG (gives_lookup (tableSpace m) x (ctxOf m)) (k := fun t => some (External.table t)) (f := fun ty => pure (External.table ty))
      fun t _ => gives_pure _ _
    exact this.trans (by simp only [exportType]; cases (tableSpace m)[x.toNat]? <;> rfl)
  | mem x =>
    have := Gives.bindG (gives_lookup (memSpace m) x (ctxOf m)) (k := fun t => some (External.mem t)) (f := fun ty => pure (External.mem ty))
      fun t _ => gives_pure _ _
    exact this.trans (by simp only [exportType]; cases (memSpace m)[x.toNat]? <;> rfl)
  | global x =>
    have := Gives.bindG (gives_lookup (globalSpace m) x (ctxOf m)) (k := fun t => some (External.global t)) (f := fun ty => pure (External.global ty))
      fun t _ => gives_pure _ _
    exact this.trans (by simp only [exportType]; cases (globalSpace m)[x.toNat]? <;> rfl)

/-! ## Modules -/

/-- `p` gives `x` exactly if `Q`. -/
def GivesIf {α : Type} (p : V α) (c : Ctx) (Q : Prop) (x : α) : Prop := (Q → p c = .ok (x, c)) ∧ (¬ Q → p c = .error .invalid)

theorem GivesIf.congr {α : Type} {p : V α} {c : Ctx} {Q R : Prop} {x : α} (h : GivesIf p c Q x) (e : Q ↔ R) : GivesIf p c R x :=
  ⟨fun r => h.1 (e.mpr r), fun r => h.2 fun q => r (e.mp q)⟩

theorem GivesIf.bind {α β : Type} {p : V α} {f : α → V β} {c : Ctx} {Q R : Prop} {x : α} {y : β} (h : GivesIf p c Q x)
    (h' : Q → GivesIf (f x) c R y) : GivesIf (p >>= f) c (Q ∧ R) y := by
  refine ⟨fun ⟨q, r⟩ => ?_, fun hn => ?_⟩
  · rw [bind_ok (h.1 q), (h' q).1 r]
  · by_cases q : Q
    · rw [bind_ok (h.1 q), (h' q).2 fun r => hn ⟨q, r⟩]
    · exact bind_err (h.2 q)

theorem Checks.givesIf {p : V Unit} {c : Ctx} {Q : Prop} (h : Checks p c Q) : GivesIf p c Q () := h

theorem givesIf_ifElse {α : Type} {c : Ctx} {Q R : Prop} [Decidable Q] {p : V α} {x : α} (h : ¬ Q → GivesIf p c R x) :
    GivesIf (if Q then V.fail .invalid else p) c (¬ Q ∧ R) x := by
  by_cases q : Q
  · rw [if_pos q]; exact ⟨fun h => (h.1 q).elim, fun _ => rfl⟩
  · rw [if_neg q]; exact (h q).congr ⟨fun r => ⟨q, r⟩, fun r => r.2⟩

theorem givesIf_collect {α β : Type} {f : α → V β} {c : Ctx} {g : α → Option β} {xs : List α} (h : ∀ x ∈ xs, Gives (f x) c (g x)) :
    GivesIf (collect f xs) c (∀ x ∈ xs, (g x).isSome = true) (xs.filterMap g) := by
  have := gives_collect h
  constructor
  · intro hq; rw [if_pos hq] at this; exact this
  · intro hq; rw [if_neg hq] at this; exact this

theorem filterMap_congr' {α β : Type} {f g : α → Option β} : ∀ {xs : List α}, (∀ x ∈ xs, f x = g x) → xs.filterMap f = xs.filterMap g
  | [], _ => rfl
  | x :: xs, h => by
    rw [List.filterMap_cons, List.filterMap_cons, h x List.mem_cons_self, filterMap_congr' fun y hy => h y (List.mem_cons_of_mem _ hy)]

theorem givesIf_imports (m : Module) : GivesIf (collect validateImport m.imports) (ctxOf m)
    (∀ i ∈ m.imports, ImportOk 65535 i ∧ (importType m i).isSome = true) (m.imports.filterMap (importType m)) := by
  classical
  have h : ∀ i ∈ m.imports, Gives (validateImport i) (ctxOf m) (if ImportOk 65535 i then importType m i else none) := by
    intro i _
    split
    · next h => exact (gives_import m i).1 h
    · next h => exact (gives_import m i).2 h
  have e : (∀ i ∈ m.imports, (if ImportOk 65535 i then importType m i else none).isSome = true) ↔
      ∀ i ∈ m.imports, ImportOk 65535 i ∧ (importType m i).isSome = true := by
    refine forall_congr' fun i => forall_congr' fun _ => ?_
    split
    · next h => simp [h]
    · next h => simp [h]
  obtain ⟨h1, h2⟩ := givesIf_collect h
  refine ⟨fun q => ?_, fun q => h2 fun q' => q (e.mp q')⟩
  rw [h1 (e.mpr q)]
  congr 2
  exact filterMap_congr' fun i hi => if_pos (q i hi).1

theorem checks_discard {α : Type} {p : V Unit} {c : Ctx} {Q : Prop} {x : α} (h : Checks p c Q) :
    Checks (do let _ ← (do p; pure x : V α); pure ()) c Q := by
  rw [V_assoc]
  exact (h.bind fun _ => checks_true).congr (by simp)

/-- All bodies are free of stray `end` and `else` marks. -/
def Plain (m : Module) : Prop := ∀ f ∈ m.funcs, plainL f.body

theorem checks_globals (m : Module) (c : Ctx) : Checks (withCtx {} (do
      useGlobals m.globals
      forEach (fun g => do let _ ← validateGlobal g; pure ()) m.globals)) c
    (∀ g ∈ m.globals, ConstOk { globals := ownGlobals m, aligned := false } g.init g.ty.val) := by
  have hu : useGlobals m.globals {} = .ok ((), { globals := ownGlobals m }) := by
    rw [useGlobals_eq m.globals {}]; rfl
  have hc : Clean { globals := ownGlobals m } := ⟨rfl, rfl, rfl, rfl⟩
  have hf : Checks (forEach (fun g => do let _ ← validateGlobal g; pure ()) m.globals) { globals := ownGlobals m }
      (∀ g ∈ m.globals, ConstOk { globals := ownGlobals m, aligned := false } g.init g.ty.val) := by
    refine checks_forEach fun g _ => ?_
    have e : validateGlobal g = (do validateInit [g.ty.val] g.init; pure g.ty) := rfl
    rw [e]
    exact checks_discard (checks_init hc.operands hc.frames g.ty.val g.init)
  unfold Checks withCtx
  rw [bind_ok hu]
  exact ⟨fun q => by rw [hf.1 q], fun q => by rw [hf.2 q]⟩

theorem importOk_iff {k : Nat} {m : Module} : (∀ i ∈ m.imports, ImportOk k i) ↔
    (∀ t ∈ importedTables m, LimitsOk (2 ^ 32) t.lim) ∧ ∀ t ∈ importedMems m, LimitsOk k t.lim := by
  simp only [importedTables, importedMems, List.mem_filterMap]
  constructor
  · intro h
    constructor
    · rintro t ⟨i, hi, ht⟩
      have := h i hi
      unfold ImportOk at this
      cases hd : i.desc <;> rw [hd] at this ht <;> cases ht
      exact this
    · rintro t ⟨i, hi, ht⟩
      have := h i hi
      unfold ImportOk at this
      cases hd : i.desc <;> rw [hd] at this ht <;> cases ht
      exact this
  · rintro ⟨h1, h2⟩ i hi
    unfold ImportOk
    cases hd : i.desc with
    | table t => exact h1 t ⟨i, hi, by rw [hd]⟩
    | mem t => exact h2 t ⟨i, hi, by rw [hd]⟩
    | func _ => trivial
    | global _ => trivial

theorem givesIf_start (m : Module) {p : V ModuleResult} {R : Prop} {r : ModuleResult} (h : GivesIf p (ctxOf m) R r) :
    GivesIf (match m.start with | some s => validateStart s >>= fun _ => p | none => p) (ctxOf m)
      ((∀ s, m.start = some s → (funcSpace m)[s.func.toNat]? = some ⟨[], []⟩) ∧ R) r := by
  cases m.start with
  | none => exact h.congr (by simp)
  | some s => exact ((checks_start (c := ctxOf m) s).givesIf.bind fun _ => h).congr (by simp [ctxOf])

/-- `f` is accepted in the context of `m`. -/
def Accepted (m : Module) (f : Func) : Prop := ∃ t, validateFunc f (ctxOf m) = .ok (t, ctxOf m)

theorem checks_accepted (m : Module) (f : Func) : Checks (do let _ ← validateFunc f; pure ()) (ctxOf m) (Accepted m f) := by
  rcases func_total (clean_ctxOf m) f with ⟨t, _, _, h⟩ | h
  · exact ⟨fun _ => (bind_ok h).trans rfl, fun hn => (hn ⟨t, h⟩).elim⟩
  · refine ⟨fun ⟨t, h'⟩ => ?_, fun _ => bind_err h⟩
    rw [h] at h'
    cases h'

theorem accepted_iff (m : Module) {f : Func} (hp : plainL f.body) : Accepted m f ↔ FuncOk .code m f := by
  have h1 := checks_accepted m f
  have h2 : Checks (do let _ ← validateFunc f; pure ()) (ctxOf m) (FuncOk .code m f) := checks_func (clean_ctxOf m) hp
  constructor
  · intro h
    refine Classical.byContradiction fun hn => ?_
    have := h1.1 h
    rw [h2.2 hn] at this
    cases this
  · intro h
    refine Classical.byContradiction fun hn => ?_
    have := h2.1 h
    rw [h1.2 hn] at this
    cases this

theorem validateBody_iff (m : Module) :
    GivesIf (validateModuleBody m) (ctxOf m) (DeclsOk .code m ∧ ∀ f ∈ m.funcs, Accepted m f) (externals m) := by
  have hc := clean_ctxOf m
  have h1 : Checks (forEach validateFuncTy m.types) (ctxOf m) (∀ t ∈ m.types, t.results.length ≤ 1) :=
    checks_forEach fun t _ => checks_if.congr (by simp)
  have h2 : Checks (forEach (fun f => do let _ ← validateFunc f; pure ()) m.funcs) (ctxOf m) (∀ f ∈ m.funcs, Accepted m f) :=
    checks_forEach fun f _ => checks_accepted m f
  have h3 : Checks (forEach (fun t => do let _ ← validateTable t; pure ()) m.tables) (ctxOf m)
      (∀ t ∈ m.tables, LimitsOk (2 ^ 32) t.ty.lim) :=
    checks_forEach fun t _ => checks_discard (checks_tableTy t.ty)
  have h4 : Checks (forEach (fun t => do let _ ← validateMem t; pure ()) m.mems) (ctxOf m)
      (∀ t ∈ m.mems, LimitsOk 65535 t.ty.lim) :=
    checks_forEach fun t _ => checks_discard (checks_memTy t.ty)
  have h5 := checks_globals m (ctxOf m)
  have h6 : Checks (forEach validateElem m.elem) (ctxOf m) (∀ e ∈ m.elem, ElemOk .code m e) :=
    checks_forEach fun e _ => checks_elem hc e
  have h7 : Checks (forEach validateData m.data) (ctxOf m) (∀ e ∈ m.data, DataOk .code m e) :=
    checks_forEach fun e _ => checks_data hc e
  have h9 := givesIf_imports m
  have h10 := givesIf_collect (xs := m.exports) fun e _ => gives_export m e
  refine (h1.givesIf.bind fun _ => h2.givesIf.bind fun _ => h3.givesIf.bind fun _ => h4.givesIf.bind fun _ => h5.givesIf.bind fun _ =>
    h6.givesIf.bind fun _ => h7.givesIf.bind fun _ => givesIf_start m <| h9.bind fun _ => h10.bind fun _ =>
    givesIf_ifElse fun _ => givesIf_ifElse fun _ => givesIf_ifElse (R := True) fun _ => ⟨fun _ => rfl, fun h => (h trivial).elim⟩).congr ?_
  have hn : ¬ (dedup (sortNames (m.exports.map (·.name)))).length ≠ m.exports.length ↔ (m.exports.map (·.name)).Nodup := by
    rw [Decidable.not_not, ← names_check]
    simp
  rw [hn]
  simp only [Decidable.not_not, and_true]
  constructor
  · rintro ⟨a1, a2, a3, a4, a5, a6, a7, a8, a9, a10, a11, a12, a13⟩
    obtain ⟨b1, b2⟩ := importOk_iff.mp fun i hi => (a9 i hi).1
    exact ⟨⟨a1, a3, a4, a5, a6, a7, a8, fun i hi => (a9 i hi).2, b1, b2, a10, a11, a12, a13⟩, a2⟩
  · rintro ⟨⟨a1, a3, a4, a5, a6, a7, a8, a9, b1, b2, a10, a11, a12, a13⟩, a2⟩
    exact ⟨a1, a2, a3, a4, a5, a6, a7, a8, fun i hi => ⟨importOk_iff.mpr ⟨b1, b2⟩ i hi, a9 i hi⟩, a10, a11, a12, a13⟩

theorem accepted_type {m : Module} {f : Func} (h : Accepted m f) :
    ∃ t, m.types[f.ty.toNat]? = some t ∧ endsL f.body = 0 ∧ validateFunc f (ctxOf m) = .ok (t, ctxOf m) := by
  rcases func_total (clean_ctxOf m) f with h' | h'
  · exact h'
  · obtain ⟨t, ht⟩ := h
    rw [h'] at ht
    cases ht

theorem typesIn_of {R : Rules} {m : Module} (h : DeclsOk R m) (h' : ∀ f ∈ m.funcs, ∃ t, m.types[f.ty.toNat]? = some t) : TypesIn m := by
  refine ⟨fun i hi x hx => ?_, fun f hf => ?_⟩
  · have := h.imports i hi
    unfold importType at this
    rw [hx] at this
    rw [← isSome_lt]
    simpa using this
  · obtain ⟨t, h1⟩ := h' f hf
    rw [← isSome_lt, h1]
    rfl

/-- What the validator does, for all modules. -/
theorem validate_any (m : Module) :
    (DeclsOk .code m ∧ (∀ f ∈ m.funcs, Accepted m f) → validateModule m = .ok (externals m)) ∧
    (¬ (DeclsOk .code m ∧ ∀ f ∈ m.funcs, Accepted m f) → validateModule m = .error .invalid) := by
  obtain ⟨b1, b2⟩ := validateBody_iff m
  obtain ⟨c1, c2⟩ := contextFrom_eq m
  unfold validateModule
  constructor
  · intro h
    have ht := typesIn_of h.1 fun f hf => let ⟨t, ht, _⟩ := accepted_type (h.2 f hf); ⟨t, ht⟩
    rw [bind_ok (c1 ht), b1 h]
  · intro h
    by_cases ht : TypesIn m
    · rw [bind_ok (c1 ht), b2 h]
    · rw [bind_err (c2 ht)]

theorem validate_any_iff {m : Module} {r : ModuleResult} :
    validateModule m = .ok r ↔ (DeclsOk .code m ∧ ∀ f ∈ m.funcs, Accepted m f) ∧ r = externals m := by
  obtain ⟨h1, h2⟩ := validate_any m
  constructor
  · intro h
    by_cases hv : DeclsOk .code m ∧ ∀ f ∈ m.funcs, Accepted m f
    · rw [h1 hv] at h; cases h; exact ⟨hv, rfl⟩
    · rw [h2 hv] at h; cases h
  · rintro ⟨hv, rfl⟩; exact h1 hv

theorem accepted_valid {m : Module} (hp : Plain m) : (DeclsOk .code m ∧ ∀ f ∈ m.funcs, Accepted m f) ↔ Valid .code m :=
  ⟨fun h => ⟨h.1, fun f hf => (accepted_iff m (hp f hf)).mp (h.2 f hf)⟩,
    fun h => ⟨h.1, fun f hf => (accepted_iff m (hp f hf)).mpr (h.2 f hf)⟩⟩

/-- The validator accepts exactly the modules that satisfy `Valid .code`, returns their import and export types, and otherwise
reports an error instead of panicking. -/
theorem validate_iff (m : Module) (hp : Plain m) :
    (Valid .code m → validateModule m = .ok (externals m)) ∧ (¬ Valid .code m → validateModule m = .error .invalid) := by
  rw [← accepted_valid hp]
  exact validate_any m

theorem validate_ok_iff {m : Module} (hp : Plain m) {r : ModuleResult} : validateModule m = .ok r ↔ Valid .code m ∧ r = externals m := by
  rw [validate_any_iff, accepted_valid hp]

end Whasm
