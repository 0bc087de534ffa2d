import Verif.Spec.Rewrite
import Verif.Lemmas.Plain
import Verif.Lemmas.Siblings

/-!
# Lemmas on replacing code
-/

namespace Whasm
open Spec

/-- A sequence is typed by typing its parts. -/
theorem hasTypes_split {C : Env} : ∀ {e1 e2 : List Instr} {a r : List Val}, HasTypes C (e1 ++ e2) a r →
    ∃ b, HasTypes C e1 a b ∧ HasTypes C e2 b r
  | [], _, _, _, h => ⟨_, .nil _, h⟩
  | _ :: _, _, _, _, h => by
    obtain ⟨t0, x, y, rfl, h1, h2⟩ := hasTypes_cons.mp h
    obtain ⟨b, h3, h4⟩ := hasTypes_split h2
    exact ⟨b, hasTypes_cons.mpr ⟨t0, x, y, rfl, h1, h3⟩, h4⟩

theorem hasTypes_one {C : Env} {i : Instr} {a b : List Val} (h : HasTypes C [i] a b) : ∃ t0 x y, a = t0 ++ x ∧ b = t0 ++ y ∧ HasType C i x y := by
  obtain ⟨t0, x, y, rfl, h1, h2⟩ := hasTypes_cons.mp h
  exact ⟨t0, x, y, rfl, (hasTypes_nil h2).symm, h1⟩

/-- Two instructions. -/
theorem hasTypes_two {C : Env} {i j : Instr} {a b : List Val} (h : HasTypes C [i, j] a b) :
    ∃ t0 x y t1 u v, a = t0 ++ x ∧ HasType C i x y ∧ t0 ++ y = t1 ++ u ∧ HasType C j u v ∧ b = t1 ++ v := by
  obtain ⟨t0, x, y, e1, h1, h⟩ := hasTypes_cons.mp h
  obtain ⟨t1, u, v, e2, e3, h2⟩ := hasTypes_one h
  exact ⟨t0, x, y, t1, u, v, e1, h1, e2, h2, e3⟩

theorem Spec.TypesIncl.refl (C : Env) (x : List Instr) : TypesIncl C x x := fun _ _ h => h

theorem Spec.TypesIncl.trans {C : Env} {x y z : List Instr} (h1 : TypesIncl C x y) (h2 : TypesIncl C y z) : TypesIncl C x z :=
  fun a b h => h2 a b (h1 a b h)

theorem Spec.TypesIncl.around {C : Env} {x y : List Instr} (h : TypesIncl C x y) (pre post : List Instr) :
    TypesIncl C (pre ++ x ++ post) (pre ++ y ++ post) := by
  intro a b ht
  obtain ⟨c, h1, h2⟩ := hasTypes_split ht
  obtain ⟨d, h3, h4⟩ := hasTypes_split h1
  exact hasTypes_append (hasTypes_append h3 (h _ _ h4)) h2

theorem Spec.TypesIncl.single {C : Env} {i j : Instr} (h : ∀ a b, HasType C i a b → HasType C j a b) : TypesIncl C [i] [j] := by
  intro a b ht
  obtain ⟨t0, x, y, rfl, rfl, h1⟩ := hasTypes_one ht
  exact hasTypes_single t0 (h _ _ h1)

/-- Rules that keep types keep them in all surroundings. -/
theorem rewrite_typed {R : List Instr → List Instr → Prop} {e e' : List Instr} (h : Rewrite R e e') : ∀ {C : Env},
    (∀ ls x y, R x y → TypesIncl { C with labels := ls } x y) → TypesIncl C e e' := by
  induction h with
  | here pre post h => exact fun {C} hR => (hR C.labels _ _ h).around pre post
  | block pre post r _ ih =>
    intro C hR
    refine .around (.single fun a b ht => ?_) pre post
    cases ht with
    | block h => exact .block (ih (C := { C with labels := r :: C.labels }) (fun ls => hR ls) _ _ h)
  | loop pre post r _ ih =>
    intro C hR
    refine .around (.single fun a b ht => ?_) pre post
    cases ht with
    | loop h => exact .loop (ih (C := { C with labels := [] :: C.labels }) (fun ls => hR ls) _ _ h)
  | thn pre post els r _ ih =>
    intro C hR
    refine .around (.single fun a b ht => ?_) pre post
    cases ht with
    | ifElse h h' => exact .ifElse (ih (C := { C with labels := r :: C.labels }) (fun ls => hR ls) _ _ h) h'
  | els pre post thn r _ ih =>
    intro C hR
    refine .around (.single fun a b ht => ?_) pre post
    cases ht with
    | ifElse h h' => exact .ifElse h (ih (C := { C with labels := r :: C.labels }) (fun ls => hR ls) _ _ h')

theorem rewrites_typed {R : List Instr → List Instr → Prop} {e e' : List Instr} (h : Rewrites R e e') {C : Env}
    (hR : ∀ ls x y, R x y → TypesIncl { C with labels := ls } x y) : TypesIncl C e e' := by
  induction h with
  | refl => exact .refl _ _
  | step h _ ih => exact (rewrite_typed h hR).trans ih

theorem rewrite_flip {R : List Instr → List Instr → Prop} {e e' : List Instr} (h : Rewrite R e e') : Rewrite (fun x y => R y x) e' e := by
  induction h with
  | here pre post h => exact .here pre post h
  | block pre post r _ ih => exact .block pre post r ih
  | loop pre post r _ ih => exact .loop pre post r ih
  | thn pre post els r _ ih => exact .thn pre post els r ih
  | els pre post thn r _ ih => exact .els pre post thn r ih

theorem rewrites_flip {R : List Instr → List Instr → Prop} {e e' : List Instr} (h : Rewrites R e e') : Rewrites (fun x y => R y x) e' e := by
  have snoc : ∀ {S : List Instr → List Instr → Prop} {x y z : List Instr}, Rewrites S x y → Rewrite S y z → Rewrites S x z := by
    intro S x y z h
    induction h with
    | refl => exact fun h => .step h (.refl _)
    | step h _ ih => exact fun h' => .step h (ih h')
  induction h with
  | refl => exact .refl _
  | step h _ ih => exact snoc ih (rewrite_flip h)

/-- The types of the functions stay. -/
theorem Spec.RewritesModule.types {R : List Instr → List Instr → Prop} {m m' : Module} (h : RewritesModule R m m') :
    m'.funcs.map (·.ty) = m.funcs.map (·.ty) := by
  apply List.ext_getElem?
  intro k
  rw [List.getElem?_map, List.getElem?_map]
  rcases Nat.lt_or_ge k m.funcs.length with hk | hk
  · have hk' : k < m'.funcs.length := by rw [h.count]; exact hk
    rw [List.getElem?_eq_getElem hk, List.getElem?_eq_getElem hk']
    have := (h.funcs k _ _ (List.getElem?_eq_getElem hk) (List.getElem?_eq_getElem hk')).1
    simp [this]
  · rw [List.getElem?_eq_none hk, List.getElem?_eq_none (by rw [h.count]; exact hk)]

theorem Spec.RewritesModule.eq {R : List Instr → List Instr → Prop} {m m' : Module} (h : RewritesModule R m m') :
    m' = { m with funcs := m'.funcs } := by
  obtain ⟨h, _, _⟩ := h
  rw [← h]

theorem Spec.RewritesModule.flip {R : List Instr → List Instr → Prop} {m m' : Module} (h : RewritesModule R m m') :
    RewritesModule (fun x y => R y x) m' m where
  rest := by rw [h.eq]
  count := h.count.symm
  funcs k f f' hf hf' := by
    obtain ⟨h1, h2, h3⟩ := h.funcs k f' f hf' hf
    exact ⟨h1.symm, h2.symm, rewrites_flip h3⟩

/-- Rules that keep types keep validity. -/
theorem rewritesModule_valid {R : List Instr → List Instr → Prop} {m m' : Module} (hv : Valid .code m) (h : RewritesModule R m m')
    (hR : ∀ ls lb rt x y, R x y → TypesIncl (codeEnv m ls lb rt) x y) : Valid .code m' ∧ externals m' = externals m := by
  have ht := h.types
  have he := h.eq
  refine ⟨⟨?_, ?_⟩, ?_⟩
  · rw [he]; exact (declsOk_congr ht (.inl rfl)).mpr hv.toDeclsOk
  · intro f' hf'
    obtain ⟨k, hk⟩ := List.mem_iff_getElem?.mp hf'
    have hlt : k < m.funcs.length := by rw [← h.count]; exact (List.getElem?_eq_some_iff.mp hk).1
    obtain ⟨h1, h2, h3⟩ := h.funcs k _ _ (List.getElem?_eq_getElem hlt) hk
    obtain ⟨t, ht1, ht2⟩ := hv.funcs _ (List.getElem_mem hlt)
    have hfs : funcSpace m' = funcSpace m := by rw [he]; exact funcSpace_congr ht
    have hm : moduleEnv .code m' = moduleEnv .code m := by
      unfold moduleEnv
      rw [hfs, he]
      rfl
    have hty : m'.types = m.types := by rw [he]
    refine ⟨t, ?_, ?_⟩
    · rw [h1, hty]; exact ht1
    · have hb : bodyEnv .code m' t f'.locals = bodyEnv .code m t m.funcs[k].locals := by
        unfold bodyEnv
        rw [hm, h2]
      rw [ExprType, hb]
      exact rewrites_typed h3 (C := bodyEnv .code m t m.funcs[k].locals) (fun ls x y hxy => hR _ ls _ x y hxy) _ _ ht2
  · rw [he]; exact externals_congr ht

/-! ## The surroundings of a sequence -/

theorem wrap_mono {C : Env} : ∀ (ls : List RetVal) {e e' : List Instr} {M : List (List Val)},
    (∀ b, HasTypes { C with labels := ls ++ M } e [] b → HasTypes { C with labels := ls ++ M } e' [] b) →
    ∀ b, HasTypes { C with labels := M } (wrap ls e) [] b → HasTypes { C with labels := M } (wrap ls e') [] b
  | [], _, _, _, h => h
  | r :: ls, e, e', M, h => by
    refine wrap_mono ls fun b ht => ?_
    obtain ⟨t0, x, y, ha, h1, h2⟩ := hasTypes_cons.mp ht
    cases h1 with
    | block hb => exact hasTypes_cons.mpr ⟨t0, [], _, ha, .block (h _ hb), h2⟩

/-- What stands inside the blocks is typed. -/
theorem wrap_inner {C : Env} {M : List (List Val)} : ∀ (ls : List RetVal) {e : List Instr} {b : List Val},
    HasTypes { C with labels := M } (wrap ls e) [] b → HasTypes { C with labels := ls ++ M } e [] (ls.head?.getD b)
  | [], _, _, h => h
  | r :: ls, e, b, h => by
    obtain ⟨t0, x, y, ha, h1, h2⟩ := hasTypes_cons.mp (wrap_inner ls h)
    cases h1 with
    | block hb => exact hb

theorem wrap_outer {C : Env} {M : List (List Val)} : ∀ (ls : List RetVal) {e : List Instr} {b : List Val},
    HasTypes { C with labels := ls ++ M } e [] (ls.head?.getD b) → HasTypes { C with labels := M } (wrap ls e) [] b
  | [], _, _, h => h
  | r :: ls, e, b, h => by
    refine wrap_outer ls (hasTypes_cons.mpr ⟨[], [], r, rfl, .block h, ?_⟩)
    exact hasTypes_single [] (.unreachable r _)

theorem wrap_iff {C : Env} {M : List (List Val)} (ls : List RetVal) {e : List Instr} {b : List Val} :
    HasTypes { C with labels := M } (wrap ls e) [] b ↔ HasTypes { C with labels := ls ++ M } e [] (ls.head?.getD b) :=
  ⟨wrap_inner ls, wrap_outer ls⟩

theorem occurs_block {j : Instr} (hj : j = .elseMark ∨ j = .endMark) {r : RetVal} {e : List Instr} (h : Occurs j [.block r e, .unreachable]) : Occurs j e := by
  cases h with
  | here h => rcases hj with rfl | rfl <;> simp at h
  | block h h' => simp at h; rw [← h.2]; exact h'
  | loop h _ | thn h _ | els h _ => simp at h

theorem occurs_wrap {j : Instr} (hj : j = .elseMark ∨ j = .endMark) : ∀ (ls : List RetVal) {e : List Instr}, Occurs j (wrap ls e) → Occurs j e
  | [], _, h => h
  | _ :: ls, _, h => occurs_block hj (occurs_wrap hj ls h)

theorem occurs_append {j : Instr} : ∀ {e e' : List Instr}, Occurs j (e ++ e') ↔ Occurs j e ∨ Occurs j e'
  | [], e' => ⟨.inr, fun h => by
      rcases h with h | h
      · cases h with
        | here h | block h _ | loop h _ | thn h _ | els h _ => cases h
      · exact h⟩
  | i :: is, e' => by
    rw [List.cons_append, occurs_split, occurs_append, occurs_split (is := is), or_assoc]

/-- Constants and consumers of given types. -/
def pushOf : Val → Instr
  | .i32 => .constI32 0
  | .i64 => .constI64 0
  | .f32 => .constF32 0
  | .f64 => .constF64 0

def popOf : Val → List Instr
  | .i32 => [.num .i32Eqz, .drop]
  | .i64 => [.num .i64Eqz, .drop]
  | .f32 => [.num .f32Abs, .drop]
  | .f64 => [.num .f64Abs, .drop]

def popsOf (ts : List Val) : List Instr := ts.reverse.flatMap popOf

theorem push_type (C : Env) (t : Val) : HasType C (pushOf t) [] [t] := by
  cases t
  · exact .constI32
  · exact .constI64
  · exact .constF32
  · exact .constF64

theorem push_types {C : Env} : ∀ (ts : List Val) {a b : List Val}, HasTypes C (ts.map pushOf) a b ↔ b = a ++ ts
  | [], a, b => by
    rw [List.append_nil]
    exact ⟨fun h => (hasTypes_nil h).symm, fun h => h ▸ .nil _⟩
  | t :: ts, a, b => by
    rw [List.map_cons, hasTypes_cons]
    constructor
    · rintro ⟨t0, x, y, rfl, h1, h2⟩
      rw [push_types ts] at h2
      cases t <;> cases h1 <;> simp [h2]
    · rintro rfl
      exact ⟨a, [], [t], by simp, push_type C t, (push_types ts).mpr (by simp)⟩

theorem pop_types {C : Env} (t : Val) {a b : List Val} : HasTypes C (popOf t) a b ↔ a = b ++ [t] := by
  constructor
  · intro h
    have key : ∀ {op : NumOp} {s : Val}, HasTypes C [.num op, .drop] a b → numType op = ([t], [s]) → a = b ++ [t] := by
      intro op s h hop
      obtain ⟨t0, x, y, t1, u, v, rfl, h1, e, h2, rfl⟩ := hasTypes_two h
      cases h1
      cases h2
      rw [hop] at e ⊢
      rw [List.append_nil, (List.append_inj' e rfl).1]
    cases t
    · exact key h (s := .i32) (by decide)
    · exact key h (s := .i32) (by decide)
    · exact key h (s := .f32) (by decide)
    · exact key h (s := .f64) (by decide)
  · rintro rfl
    have key : ∀ {op : NumOp} {s : Val}, numType op = ([t], [s]) → HasTypes C [.num op, .drop] (b ++ [t]) b := by
      intro op s hop
      have h1 := hasTypes_single b (HasType.num (C := C) (op := op))
      rw [hop] at h1
      have h2 := hasTypes_single b (HasType.drop (C := C) s)
      rw [List.append_nil] at h2
      exact hasTypes_append (is := [.num op]) (js := [.drop]) h1 h2
    cases t
    · exact key (op := .i32Eqz) (s := .i32) (by decide)
    · exact key (op := .i64Eqz) (s := .i32) (by decide)
    · exact key (op := .f32Abs) (s := .f32) (by decide)
    · exact key (op := .f64Abs) (s := .f64) (by decide)

theorem pops_types {C : Env} (ts : List Val) : ∀ {a b : List Val}, HasTypes C (popsOf ts) a b ↔ a = b ++ ts := by
  suffices ∀ (us : List Val) {a b : List Val}, HasTypes C (us.flatMap popOf) a b ↔ a = b ++ us.reverse by
    intro a b
    have := this ts.reverse (a := a) (b := b)
    rwa [List.reverse_reverse] at this
  intro us
  induction us with
  | nil =>
    intro a b
    simp only [List.flatMap_nil, List.reverse_nil, List.append_nil]
    exact ⟨hasTypes_nil, fun h => h ▸ .nil _⟩
  | cons u us ih =>
    intro a b
    rw [List.flatMap_cons, List.reverse_cons]
    constructor
    · intro h
      obtain ⟨c, h1, h2⟩ := hasTypes_split h
      rw [pop_types] at h1
      rw [ih] at h2
      rw [h1, h2, List.append_assoc]
    · rintro rfl
      refine hasTypes_append (ts2 := b ++ us.reverse) ?_ (ih.mpr rfl)
      rw [pop_types, List.append_assoc]

/-- A type of `y` can be found out by its surroundings. -/
theorem probe {C : Env} {y : List Instr} {a b r : List Val} :
    HasTypes C (a.map pushOf ++ y ++ (popsOf b ++ r.map pushOf)) [] r ↔ HasTypes C y a b := by
  constructor
  · intro h
    obtain ⟨d, h1, h2⟩ := hasTypes_split h
    obtain ⟨c, h3, h4⟩ := hasTypes_split h1
    obtain ⟨f, h5, h6⟩ := hasTypes_split h2
    rw [push_types] at h3 h6
    rw [pops_types] at h5
    rw [List.nil_append] at h3
    have : f = [] := by
      have := congrArg List.length h6
      rw [List.length_append] at this
      exact List.eq_nil_of_length_eq_zero (by omega)
    subst this
    rw [List.nil_append] at h5
    rw [← h3, ← h5]
    exact h4
  · intro h
    refine hasTypes_append (hasTypes_append (ts2 := a) ((push_types a).mpr rfl) h) (hasTypes_append (ts2 := []) ((pops_types b).mpr rfl) ?_)
    exact (push_types r).mpr rfl

theorem noMarks_push (j : Instr) (hj : j = .elseMark ∨ j = .endMark) (ts : List Val) : ¬ Occurs j (ts.map pushOf) := by
  have : HasTypes {} (ts.map pushOf) [] ts := (push_types ts).mpr rfl
  have := plain_iff.mp (hasTypes_plain this)
  rcases hj with rfl | rfl
  · exact this.2
  · exact this.1

theorem noMarks_pops (j : Instr) (hj : j = .elseMark ∨ j = .endMark) (ts : List Val) : ¬ Occurs j (popsOf ts) := by
  have : HasTypes {} (popsOf ts) ts [] := (pops_types ts).mpr rfl
  have := plain_iff.mp (hasTypes_plain this)
  rcases hj with rfl | rfl
  · exact this.2
  · exact this.1

/-! ## Another body in a module -/

theorem withBody_types (m : Module) (k : Nat) (e : List Instr) :
    (m.funcs.modify k fun f => { f with body := e }).map (·.ty) = m.funcs.map (·.ty) := by
  apply List.ext_getElem?
  intro n
  simp only [List.getElem?_map, List.getElem?_modify]
  by_cases h : k = n
  · cases m.funcs[n]? <;> simp [h]
  · simp [h]

/-- A body is accepted in a module whose other parts are. -/
theorem withBody_ok {m : Module} {r : ModuleResult} (h : validateModule m = .ok r) {k : Nat} {f : Func} (hf : m.funcs[k]? = some f) {e : List Instr} :
    validateModule (withBody m k e) = .ok r ↔ Accepted m { f with body := e } := by
  obtain ⟨⟨hd, ha⟩, rfl⟩ := validate_any_iff.mp h
  rw [withBody, validate_funcs (withBody_types m k e)]
  constructor
  · rintro ⟨⟨_, h⟩, _⟩
    refine h _ ?_
    refine List.mem_iff_getElem?.mpr ⟨k, ?_⟩
    rw [List.getElem?_modify, hf]
    simp
  · intro h'
    refine ⟨⟨hd, fun g hg => ?_⟩, rfl⟩
    obtain ⟨n, hn⟩ := List.mem_iff_getElem?.mp hg
    rw [List.getElem?_modify] at hn
    by_cases hk : k = n
    · subst hk
      rw [hf] at hn
      simp at hn
      rw [← hn]; exact h'
    · cases hn' : m.funcs[n]? with
      | none => simp [hn'] at hn
      | some g' =>
        simp [hn', hk] at hn
        exact hn ▸ ha g' (List.mem_of_getElem? hn')

theorem withBody_same {m : Module} {r : ModuleResult} (h : validateModule m = .ok r) {k : Nat} {e : List Instr} {r' : ModuleResult}
    (h' : validateModule (withBody m k e) = .ok r') : r' = r := by
  obtain ⟨_, rfl⟩ := validate_any_iff.mp h
  rw [withBody, validate_funcs (withBody_types m k e)] at h'
  exact h'.2

theorem accepted_typed {m : Module} {f : Func} {t : FuncTy} (ht : m.types[f.ty.toNat]? = some t) {e : List Instr} (he : ¬ Occurs .elseMark e) :
    Accepted m { f with body := e } ↔ HasTypes (bodyEnv .code m t f.locals) e [] t.results := by
  constructor
  · intro h
    have hp : plainL e := plain_iff.mpr ⟨accepted_noEnd h, he⟩
    obtain ⟨t', ht', h⟩ := (accepted_iff m (f := { f with body := e }) hp).mp h
    obtain rfl : t = t' := Option.some.inj (ht.symm.trans ht')
    exact h
  · intro h
    exact (accepted_iff m (f := { f with body := e }) (hasTypes_plain h)).mpr ⟨t, ht, h⟩

/-- The body with blocks around it. -/
theorem accepted_wrap {m : Module} {f : Func} {t : FuncTy} (ht : m.types[f.ty.toNat]? = some t) {ls : List RetVal} {e : List Instr}
    (he : ¬ Occurs .elseMark e) : Accepted m { f with body := wrap ls e } ↔
      HasTypes (codeEnv m (t.params ++ f.locals) ls (some t.results)) e [] (ls.head?.getD t.results) := by
  rw [accepted_typed ht fun h => he (occurs_wrap (.inl rfl) ls h)]
  have := wrap_iff (C := bodyEnv .code m t f.locals) (M := []) ls (e := e) (b := t.results)
  rw [List.append_nil] at this
  exact this

/-! ## The rules of the optimiser -/

theorem leaves_poly {C : Env} {i : Instr} (hi : Leaves i) {a b : List Val} (h : HasType C i a b) (t0 b' : List Val) : HasType C i (t0 ++ a) b' := by
  cases hi with
  | unreachable => exact .unreachable _ _
  | br l =>
    cases h with
    | br ts _ h => rw [← List.append_assoc]; exact .br _ _ h
  | brTable ls l =>
    cases h with
    | brTable ts _ h h' => rw [← List.append_assoc, ← List.append_assoc]; exact .brTable _ _ h h'
  | ret =>
    cases h with
    | ret ts _ h => rw [← List.append_assoc]; exact .ret _ _ h

theorem const_type {C : Env} {c : Instr} {t : Val} (h : constType c = some t) {a b : List Val} : HasType C c a b ↔ a = [] ∧ b = [t] := by
  cases c <;> simp only [constType, Option.some.injEq, reduceCtorEq] at h
  all_goals
    subst h
    constructor
    · intro h; cases h; exact ⟨rfl, rfl⟩
    · rintro ⟨rfl, rfl⟩; constructor

theorem consts_type {C : Env} : ∀ {cs : List Instr} {ts : List Val}, cs.map constType = ts.map some → ∀ {a b : List Val},
    HasTypes C cs a b → b = a ++ ts
  | [], [], _, _, _, h => by rw [List.append_nil]; exact (hasTypes_nil h).symm
  | c :: cs, t :: ts, hc, a, b, h => by
    simp only [List.map_cons, List.cons.injEq] at hc
    obtain ⟨t0, x, y, rfl, h1, h2⟩ := hasTypes_cons.mp h
    obtain ⟨rfl, rfl⟩ := (const_type hc.1).mp h1
    rw [consts_type hc.2 h2]
    simp
  | [], _ :: _, hc, _, _, _ => by simp at hc
  | _ :: _, [], hc, _, _, _ => by simp at hc

theorem peephole_types {C : Env} {x y : List Instr} (h : Peephole x y) : TypesIncl C x y := by
  intro a b ht
  cases h with
  | nop =>
    obtain ⟨t0, x, y, rfl, rfl, h⟩ := hasTypes_one ht
    cases h; exact .nil _
  | emptyBlock =>
    obtain ⟨t0, x, y, rfl, rfl, h⟩ := hasTypes_one ht
    cases h; exact .nil _
  | emptyLoop =>
    obtain ⟨t0, x, y, rfl, rfl, h⟩ := hasTypes_one ht
    cases h; exact .nil _
  | constDrop hc =>
    obtain ⟨t0, x, y, t1, u, v, rfl, h1, e, h2, rfl⟩ := hasTypes_two ht
    obtain ⟨rfl, rfl⟩ := (const_type hc).mp h1
    cases h2
    rw [(List.append_inj' e rfl).1]; exact .nil _
  | localDrop =>
    obtain ⟨t0, x, y, t1, u, v, rfl, h1, e, h2, rfl⟩ := hasTypes_two ht
    cases h1; cases h2
    rw [(List.append_inj' e rfl).1]; exact .nil _
  | globalDrop =>
    obtain ⟨t0, x, y, t1, u, v, rfl, h1, e, h2, rfl⟩ := hasTypes_two ht
    cases h1; cases h2
    rw [(List.append_inj' e rfl).1]; exact .nil _
  | tee =>
    obtain ⟨t0, x, y, t1, u, v, rfl, h1, e, h2, rfl⟩ := hasTypes_two ht
    cases h1 with
    | localSet h1 =>
      cases h2 with
      | localGet h2 =>
        obtain rfl := Option.some.inj (h1.symm.trans h2)
        simp only [List.append_nil] at e
        rw [e]; exact hasTypes_single _ (.localTee h1)
  | teeDrop =>
    obtain ⟨t0, x, y, t1, u, v, rfl, h1, e, h2, rfl⟩ := hasTypes_two ht
    cases h1 with
    | localTee h1 =>
      cases h2
      rw [(List.append_inj' e rfl).1]; exact hasTypes_single _ (.localSet h1)
  | getSet =>
    obtain ⟨t0, x, y, t1, u, v, rfl, h1, e, h2, rfl⟩ := hasTypes_two ht
    cases h1; cases h2
    rw [(List.append_inj' e rfl).1]; exact .nil _
  | @fold cs op c h1 h2 =>
    obtain ⟨d, h3, h4⟩ := hasTypes_split ht
    rw [consts_type h1 h3] at h4
    obtain ⟨t0, x, y, e, rfl, h5⟩ := hasTypes_one h4
    cases h5
    obtain rfl := (List.append_inj' e rfl).1
    generalize (numType op).2 = ts at h2 ⊢
    match ts, h2 with
    | [t], h2 =>
      simp only [List.map_cons, List.map_nil, List.cons.injEq, and_true] at h2
      have := hasTypes_single a ((const_type (C := C) h2.symm).mpr ⟨rfl, rfl⟩)
      rwa [List.append_nil] at this
    | _ :: _ :: _, h2 => simp at h2
  | ifTrue =>
    obtain ⟨t0, x, y, t1, u, v, rfl, h1, e, h2, rfl⟩ := hasTypes_two ht
    cases h1
    cases h2 with
    | ifElse h h' => rw [(List.append_inj' e rfl).1]; exact hasTypes_single _ (.block h)
  | ifFalse =>
    obtain ⟨t0, x, y, t1, u, v, rfl, h1, e, h2, rfl⟩ := hasTypes_two ht
    cases h1
    cases h2 with
    | ifElse h h' => rw [(List.append_inj' e rfl).1]; exact hasTypes_single _ (.block h')
  | brAlways =>
    obtain ⟨t0, x, y, t1, u, v, rfl, h1, e, h2, rfl⟩ := hasTypes_two ht
    cases h1
    cases h2 with
    | brIf h =>
      rw [← List.append_assoc] at e
      rw [(List.append_inj' e rfl).1, List.append_nil]
      exact hasTypes_single [] (.br _ _ h)
  | brNever =>
    obtain ⟨t0, x, y, t1, u, v, rfl, h1, e, h2, rfl⟩ := hasTypes_two ht
    cases h1
    cases h2 with
    | brIf h =>
      rw [← List.append_assoc] at e
      rw [(List.append_inj' e rfl).1, List.append_nil]
      exact .nil _
  | brTable hx =>
    obtain ⟨t0, x, y, t1, u, v, rfl, h1, e, h2, rfl⟩ := hasTypes_two ht
    cases h1
    cases h2 with
    | brTable ts _ h h' =>
      rw [← List.append_assoc] at e
      rw [(List.append_inj' e rfl).1, List.append_nil, ← List.append_assoc]
      refine hasTypes_single [] (.br _ _ ?_)
      rcases List.mem_append.mp hx with hx | hx
      · exact h _ hx
      · obtain rfl := List.mem_singleton.mp hx; exact h'
  | selectFirst =>
    obtain ⟨t0, x, y, t1, u, v, rfl, h1, e, h2, rfl⟩ := hasTypes_two ht
    cases h1
    cases h2 with
    | select t =>
      have e' : t0 ++ [Val.i32] = (t1 ++ [t, t]) ++ [.i32] := by rw [e]; simp
      rw [(List.append_inj' e' rfl).1, List.append_nil]
      have := hasTypes_single (t1 ++ [t]) (.drop (C := C) t)
      simpa using this
  | selectSame v hc hc' =>
    obtain ⟨d, h3, h4⟩ := hasTypes_split (e1 := [_, _, _]) (e2 := [_]) ht
    rename_i c c' t
    have h5 := consts_type (ts := [t, t, .i32]) (by simp only [List.map_cons, List.map_nil, hc, hc']; rfl) h3
    obtain ⟨t1, u, v, e, rfl, h6⟩ := hasTypes_one h4
    cases h6 with
    | select t' =>
      rw [h5] at e
      obtain ⟨h7, h8⟩ := List.append_inj' e rfl
      cases h8
      subst h7
      have := hasTypes_single a ((const_type (C := C) hc').mpr ⟨rfl, rfl⟩)
      rwa [List.append_nil] at this
  | dead e hi =>
    obtain ⟨t0, x, y, rfl, h1, _⟩ := hasTypes_cons.mp ht
    exact hasTypes_single [] (leaves_poly hi h1 t0 b)

end Whasm
