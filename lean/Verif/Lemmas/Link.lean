import Verif.Spec.Link
import Verif.Lemmas.Instantiate

/-!
# Linked modules do not get stuck
-/

namespace Whasm.Link
open Spec
open Run (Value MemInst popArgs zero readMem writeMem loaded pageLimit Each overwrite all newMem Typed typed_snoc typed_cons typed_append typed_i32
  popArgs_ok set_type get_type each_get each_append each_map loaded_type zero_type all_ok mem_overwrite length_overwrite)

/-! ## Extension of stores -/

theorem extends_refl (st : Store) : Extends st st :=
  ⟨⟨[], by simp⟩, fun _ tb h => ⟨tb, h, rfl, rfl⟩, fun _ x h => ⟨x, h, rfl, Nat.le_refl _⟩, fun _ g h => ⟨g, h, rfl, rfl, fun _ => rfl⟩⟩

theorem extends_trans {a b c : Store} (h : Extends a b) (h' : Extends b c) : Extends a c := by
  refine ⟨?_, fun i x hx => ?_, fun i x hx => ?_, fun i x hx => ?_⟩
  · obtain ⟨l, hl⟩ := h.funcs
    obtain ⟨l', hl'⟩ := h'.funcs
    exact ⟨l ++ l', by rw [hl', hl, List.append_assoc]⟩
  · obtain ⟨y, hy, h1, h2⟩ := h.tables i x hx
    obtain ⟨z, hz, h3, h4⟩ := h'.tables i y hy
    exact ⟨z, hz, h3.trans h1, h4.trans h2⟩
  · obtain ⟨y, hy, h1, h2⟩ := h.mems i x hx
    obtain ⟨z, hz, h3, h4⟩ := h'.mems i y hy
    exact ⟨z, hz, h3.trans h1, Nat.le_trans h2 h4⟩
  · obtain ⟨y, hy, h1, h2, h3⟩ := h.globals i x hx
    obtain ⟨z, hz, h4, h5, h6⟩ := h'.globals i y hy
    exact ⟨z, hz, h4.trans h1, h5.trans h2, fun hc => (h6 (h1.trans hc)).trans (h3 hc)⟩

theorem Extends.func {st st' : Store} (h : Extends st st') {a : Nat} {fi : FuncInst} (hf : st.funcs[a]? = some fi) :
    st'.funcs[a]? = some fi := by
  obtain ⟨l, hl⟩ := h.funcs
  rw [hl, List.getElem?_append_left (List.getElem?_eq_some_iff.mp hf).1, hf]

theorem ExternOk.mono {st st' : Store} (h : Extends st st') : ∀ {e : Extern} {t : External}, ExternOk st e t → ExternOk st' e t
  | .func a, .func t, ⟨fi, h1, h2⟩ => ⟨fi, h.func h1, h2⟩
  | .table a, .table t, ⟨tb, h1, h2, h3⟩ => by
    obtain ⟨tb', g1, g2, g3⟩ := h.tables a tb h1
    exact ⟨tb', g1, by rw [g3]; exact h2, by rw [g2]; exact h3⟩
  | .mem a, .mem t, ⟨x, h1, h2, h3⟩ => by
    obtain ⟨y, g1, g2, g3⟩ := h.mems a x h1
    exact ⟨y, g1, Nat.le_trans h2 g3, by rw [g2]; exact h3⟩
  | .global a, .global t, ⟨g, h1, h2, h3⟩ => by
    obtain ⟨g', g1, g2, g3, _⟩ := h.globals a g h1
    exact ⟨g', g1, g2.trans h2, g3.trans h3⟩

theorem each_mono {α β : Type} {R R' : α → β → Prop} {ts : List α} {xs : List β} (h : Each R ts xs) (hR : ∀ t x, R t x → R' t x) : Each R' ts xs :=
  ⟨h.1, fun i t x ht hx => hR t x (h.2 i t x ht hx)⟩

theorem InstOk.mono {st st' : Store} (h : Extends st st') {m : Module} {inst : Inst} (hi : InstOk st m inst) : InstOk st' m inst :=
  ⟨hi.types, each_mono hi.funcs fun _ _ => .mono h, each_mono hi.tables fun _ _ => .mono h, each_mono hi.mems fun _ _ => .mono h,
    each_mono hi.globals fun _ _ => .mono h⟩

theorem FuncOk.mono {st st' : Store} (h : Extends st st') : ∀ {fi : FuncInst}, FuncOk st fi → FuncOk st' fi
  | .own _ _ _, ⟨m, h1, h2⟩ => ⟨m, h1.mono h, h2⟩
  | .host _ _, _ => trivial

theorem extern_match {st : Store} {e : Extern} {t t' : External} (h : ExternOk st e t) (hm : Matches t t') : ExternOk st e t' := by
  cases hm with
  | func t => exact h
  | @table a b el hl =>
    cases e with
    | table x =>
      obtain ⟨tb, h1, h2, h3⟩ := h
      refine ⟨tb, h1, Nat.le_trans hl.1 h2, fun n hn => ?_⟩
      obtain ⟨k, hk, hkn⟩ := hl.2 n hn
      obtain ⟨j, hj, hjk⟩ := h3 k hk
      exact ⟨j, hj, Nat.le_trans hjk hkn⟩
    | _ => exact h.elim
  | @mem a b hl =>
    cases e with
    | mem x =>
      obtain ⟨tb, h1, h2, h3⟩ := h
      refine ⟨tb, h1, Nat.le_trans hl.1 h2, fun n hn => ?_⟩
      obtain ⟨k, hk, hkn⟩ := hl.2 n hn
      obtain ⟨j, hj, hjk⟩ := h3 k hk
      exact ⟨j, hj, Nat.le_trans hjk hkn⟩
    | _ => exact h.elim
  | global t => exact h

/-! ## Contexts -/

/-- A context for code that runs in the instance. -/
structure EnvOk (st : Store) (inst : Inst) (C : Env) : Prop where
  types : C.types = inst.types
  funcs : Each (fun t a => ExternOk st (.func a) (.func t)) C.funcs inst.funcs
  tables : Each (fun t a => ExternOk st (.table a) (.table t)) C.tables inst.tables
  mems : Each (fun t a => ExternOk st (.mem a) (.mem t)) C.mems inst.mems
  globals : Each (fun t a => ExternOk st (.global a) (.global t)) C.globals inst.globals

variable {M : Machine} {st st' : Store} {C : Env} {inst : Inst}

theorem look_func (h : EnvOk st inst C) (he : Extends st st') {x : Nat} {t : FuncTy} (hx : C.funcs[x]? = some t) :
    ∃ a fi, look inst.funcs st'.funcs x = some (a, fi) ∧ st'.funcs[a]? = some fi ∧ fi.type = t := by
  obtain ⟨a, h1, h2⟩ := each_get h.funcs hx
  obtain ⟨fi, h3, h4⟩ := h2.mono he
  exact ⟨a, fi, by simp only [look, h1, h3, Option.bind_some, Option.map_some], h3, h4⟩

theorem look_table (h : EnvOk st inst C) (he : Extends st st') {x : Nat} {t : TableTy} (hx : C.tables[x]? = some t) :
    ∃ a tb, look inst.tables st'.tables x = some (a, tb) ∧ st'.tables[a]? = some tb := by
  obtain ⟨a, h1, h2⟩ := each_get h.tables hx
  obtain ⟨tb, h3, h4⟩ := h2.mono he
  exact ⟨a, tb, by simp only [look, h1, h3, Option.bind_some, Option.map_some], h3⟩

theorem look_mem (h : EnvOk st inst C) (he : Extends st st') {x : Nat} {t : MemTy} (hx : C.mems[x]? = some t) :
    ∃ a y, look inst.mems st'.mems x = some (a, y) ∧ st'.mems[a]? = some y := by
  obtain ⟨a, h1, h2⟩ := each_get h.mems hx
  obtain ⟨y, h3, h4⟩ := h2.mono he
  exact ⟨a, y, by simp only [look, h1, h3, Option.bind_some, Option.map_some], h3⟩

theorem look_global (h : EnvOk st inst C) (he : Extends st st') {x : Nat} {t : GlobalTy} (hx : C.globals[x]? = some t) :
    ∃ a g, look inst.globals st'.globals x = some (a, g) ∧ st'.globals[a]? = some g ∧ g.mt = t.mt ∧ g.value.type = t.val := by
  obtain ⟨a, h1, h2⟩ := each_get h.globals hx
  obtain ⟨g, h3, h4⟩ := h2.mono he
  exact ⟨a, g, by simp only [look, h1, h3, Option.bind_some, Option.map_some], h3, h4⟩

/-! ## The invariant -/

/-- Invariant, with `st` the store at the beginning. -/
structure ConfOk (st : Store) (C : Env) (ts : List Val) (c : Conf) : Prop where
  store : StoreOk c.store
  evolves : Extends st c.store
  locals : c.locals.map Value.type = C.locals
  stack : Typed c.stack ts

def Good (st : Store) (C : Env) (ts : List Val) : Outcome → Prop
  | .normal c => ConfOk st C ts c
  | .br l c => ∃ r t0, C.labels[l]? = some r ∧ ConfOk st C (t0 ++ r) c
  | .ret c => ∃ r t0, C.ret = some r ∧ ConfOk st C (t0 ++ r) c
  | .trap s => StoreOk s ∧ Extends st s
  | .timeout => True
  | .stuck => False

theorem ConfOk.weaken (he : Extends st st') {ts : List Val} {c : Conf} (h : ConfOk st' C ts c) : ConfOk st C ts c :=
  ⟨h.store, extends_trans he h.evolves, h.locals, h.stack⟩

theorem Good.weaken (he : Extends st st') {ts : List Val} : ∀ {o : Outcome}, Good st' C ts o → Good st C ts o
  | .normal _, h => ConfOk.weaken he h
  | .br _ _, ⟨r, t0, h1, h2⟩ => ⟨r, t0, h1, h2.weaken he⟩
  | .ret _, ⟨r, t0, h1, h2⟩ => ⟨r, t0, h1, h2.weaken he⟩
  | .trap _, h => ⟨h.1, extends_trans he h.2⟩
  | .timeout, _ => trivial
  | .stuck, h => h

theorem execs_ok {step : Instr → Conf → Outcome}
    (hs : ∀ i a b t0 c, HasType C i a b → ConfOk st C (t0 ++ a) c → Good st C (t0 ++ b) (step i c)) :
    ∀ {is a b c}, HasTypes C is a b → ConfOk st C a c → Good st C b (execs step is c) := by
  intro is
  induction is with
  | nil =>
    intro a b c h hc
    obtain rfl := hasTypes_nil h
    exact hc
  | cons i is ih =>
    intro a b c h hc
    obtain ⟨t0, x, y, rfl, hi, hr⟩ := hasTypes_cons.mp h
    have := hs i x y t0 c hi hc
    rw [execs]
    cases hstep : step i c with
    | normal c' => rw [hstep] at this; exact ih hr this
    | _ => rw [hstep] at this; exact this

/-- The invariant does not depend on labels. -/
theorem confOk_labels {ls : List (List Val)} {ts : List Val} {c : Conf} :
    ConfOk st { C with labels := ls } ts c ↔ ConfOk st C ts c :=
  ⟨fun ⟨a, b, c, d⟩ => ⟨a, b, c, d⟩, fun ⟨a, b, c, d⟩ => ⟨a, b, c, d⟩⟩

theorem confOk_stack {ts ts' : List Val} {c : Conf} {s : List Value} (h : ConfOk st C ts c) (hs : Typed s ts') :
    ConfOk st C ts' { c with stack := s } := ⟨h.store, h.evolves, h.locals, hs⟩

theorem leave_ok {r t0 : List Val} {outer : List Value} {o : Outcome} (h : Good st { C with labels := r :: C.labels } r o)
    (ht : Typed outer t0) : Good st C (t0 ++ r) (leave r outer o) := by
  cases o with
  | normal c =>
    have h := confOk_labels.mp h
    exact confOk_stack h (typed_append ht h.stack)
  | br l c =>
    obtain ⟨r', t1, hr, hc⟩ := h
    have hc := confOk_labels.mp hc
    cases l with
    | zero =>
      cases hr
      obtain ⟨vs, rest, hp, hv, _, _⟩ := popArgs_ok hc.stack
      simp only [leave, hp]
      exact confOk_stack hc (typed_append ht (by unfold Typed; rw [List.map_reverse, hv]))
    | succ l => exact ⟨r', t1, hr, hc⟩
  | ret c =>
    obtain ⟨r', t1, hr, hc⟩ := h
    exact ⟨r', t1, hr, confOk_labels.mp hc⟩
  | trap s => exact h
  | timeout => trivial
  | stuck => exact h

theorem leaveFunc_ok {t : FuncTy} {t0 : List Val} {c : Conf} {o : Outcome} {C' : Env} (hl : C'.labels = [t.results])
    (hr : C'.ret = some t.results) (h : Good st C' t.results o) (hc : ConfOk st C t0 c) :
    Good st C (t0 ++ t.results) (leaveFunc t c o) := by
  have fin : ∀ {c' : Conf} {t1 : List Val}, ConfOk st C' (t1 ++ t.results) c' → ∃ vs rest, popArgs t.results c'.stack = some (vs, rest) ∧
      Typed rest t1 ∧ ConfOk st C (t0 ++ t.results) ⟨c'.store, c.locals, vs.reverse ++ c.stack⟩ := by
    intro c' t1 h
    obtain ⟨vs, rest, hp, hv, hr, _⟩ := popArgs_ok h.stack
    exact ⟨vs, rest, hp, hr, h.store, h.evolves, hc.locals, typed_append hc.stack (by unfold Typed; rw [List.map_reverse, hv])⟩
  cases o with
  | normal c' =>
    obtain ⟨vs, rest, hp, hr, hok⟩ := fin (t1 := []) h
    have : rest = [] := by unfold Typed at hr; simpa using hr
    subst this
    simp only [leaveFunc, hp]
    exact hok
  | br l c' =>
    obtain ⟨r', t1, h1, h2⟩ := h
    rw [hl] at h1
    cases l with
    | zero =>
      cases h1
      obtain ⟨vs, rest, hp, hr, hok⟩ := fin h2
      simp only [leaveFunc, hp]
      exact hok
    | succ l => simp at h1
  | ret c' =>
    obtain ⟨r', t1, h1, h2⟩ := h
    rw [hr] at h1
    cases h1
    obtain ⟨vs, rest, hp, hr, hok⟩ := fin h2
    simp only [leaveFunc, hp]
    exact hok
  | trap s => exact h
  | timeout => trivial
  | stuck => exact h

/-- What is needed of the execution of instructions. -/
def StepOk (step : Inst → Instr → Conf → Outcome) : Prop :=
  ∀ st inst C, EnvOk st inst C → ∀ i a b t0 c, HasType C i a b → ConfOk st C (t0 ++ a) c → Good st C (t0 ++ b) (step inst i c)

theorem InstOk.env {m : Module} (h : InstOk st m inst) (R : Rules) (t : FuncTy) (ls : List Val) (al : Bool) :
    EnvOk st inst { bodyEnv R m t ls with aligned := al } :=
  ⟨h.types.symm, h.funcs, h.tables, h.mems, h.globals⟩

theorem call_ok (hh : HostOk M) {step : Inst → Instr → Conf → Outcome} (hs : StepOk step)
    {a : Nat} {fi : FuncInst} {t0 : List Val} {c : Conf} (hf : c.store.funcs[a]? = some fi) (hc : ConfOk st C (t0 ++ fi.type.params) c) :
    Good st C (t0 ++ fi.type.results) (call M step fi c) := by
  obtain ⟨vs, rest, hp, hv, hr, _⟩ := popArgs_ok hc.stack
  have hm := List.mem_of_getElem? hf
  cases fi with
  | own t inst f =>
    simp only [call, hp]
    obtain ⟨m, hi, hb⟩ := hc.store.funcs _ hm
    refine leaveFunc_ok (C' := { bodyEnv .w3c m t f.locals with aligned := false }) rfl rfl ?_ (confOk_stack hc hr)
    refine Good.weaken hc.evolves (execs_ok (hs c.store inst _ (hi.env ..)) hb ⟨hc.store, extends_refl _, ?_, rfl⟩)
    show (vs ++ f.locals.map zero).map Value.type = t.params ++ f.locals
    rw [List.map_append, List.map_map]
    refine congr (congrArg _ hv) ?_
    exact (List.map_congr_left fun x _ => zero_type x).trans (List.map_id _)
  | host t id =>
    simp only [call, hp]
    cases hx : M.host id c.store vs with
    | mk s res =>
      obtain ⟨h1, h2, h3⟩ := hh t id c.store vs s res hc.store hm hv hx
      have he := extends_trans hc.evolves h2
      cases res with
      | none => exact ⟨h1, he⟩
      | some ws => exact ⟨h1, he, hc.locals, typed_append hr (by unfold Typed; rw [List.map_reverse, h3 ws rfl]; rfl)⟩

/-! ## Changes of the store -/

theorem mem_set {α : Type} {l : List α} {i : Nat} {x y : α} (h : y ∈ l.set i x) : y ∈ l ∨ y = x := by
  rcases List.mem_or_eq_of_mem_set h with h | h
  · exact .inl h
  · exact .inr h

theorem getElem?_set_cases {α : Type} {l : List α} {i j : Nat} {x : α} {y z : α} (hi : l[i]? = some z) (hj : l[j]? = some y) :
    (i = j ∧ (l.set i x)[j]? = some x ∧ y = z) ∨ (i ≠ j ∧ (l.set i x)[j]? = some y) := by
  by_cases h : i = j
  · subst h
    rw [hi] at hj
    cases hj
    exact .inl ⟨rfl, by simp [(List.getElem?_eq_some_iff.mp hi).1], rfl⟩
  · exact .inr ⟨h, by rw [List.getElem?_set_ne h]; exact hj⟩

theorem set_mem_ok (h : StoreOk st) {a : Nat} {x y : MemInst} (hx : st.mems[a]? = some x) (hp : x.pages ≤ y.pages) (hm : y.max = x.max)
    (hy : y.pages ≤ pageLimit y) :
    StoreOk { st with mems := st.mems.set a y } ∧ Extends st { st with mems := st.mems.set a y } := by
  have he : Extends st { st with mems := st.mems.set a y } := by
    refine ⟨⟨[], by simp⟩, fun _ tb h => ⟨tb, h, rfl, rfl⟩, fun b z hz => ?_, fun _ g h => ⟨g, h, rfl, rfl, fun _ => rfl⟩⟩
    rcases getElem?_set_cases (x := y) hx hz with ⟨_, h2, rfl⟩ | ⟨_, h2⟩
    · exact ⟨y, h2, hm, hp⟩
    · exact ⟨z, h2, rfl, Nat.le_refl _⟩
  refine ⟨⟨fun fi hf => (h.funcs fi hf).mono he, h.tables, fun z hz => ?_⟩, he⟩
  rcases mem_set hz with hz | rfl
  · exact h.mems z hz
  · exact hy

theorem set_global_ok (h : StoreOk st) {a : Nat} {g : GlobalInst} {v : Value} (hg : st.globals[a]? = some g) (hm : g.mt = .var)
    (hv : v.type = g.value.type) :
    StoreOk { st with globals := st.globals.set a { g with value := v } } ∧
    Extends st { st with globals := st.globals.set a { g with value := v } } := by
  have he : Extends st { st with globals := st.globals.set a { g with value := v } } := by
    refine ⟨⟨[], by simp⟩, fun _ tb h => ⟨tb, h, rfl, rfl⟩, fun b z hz => ⟨z, hz, rfl, Nat.le_refl _⟩, fun b g' h' => ?_⟩
    rcases getElem?_set_cases (x := { g with value := v }) hg h' with ⟨_, h2, rfl⟩ | ⟨_, h2⟩
    · exact ⟨_, h2, rfl, hv, fun hc => by rw [hm] at hc; cases hc⟩
    · exact ⟨g', h2, rfl, rfl, fun _ => rfl⟩
  exact ⟨⟨fun fi hf => (h.funcs fi hf).mono he, h.tables, h.mems⟩, he⟩

/-! ## Instructions -/

theorem exec_ok (hn : NumOk M) (hh : HostOk M) : ∀ n, StepOk (exec M n) := by
  intro n
  induction n with
  | zero => intros _ _ _ _ _ _ _ _ _ _ _; trivial
  | succ n ih =>
    intro st inst C hC i a b t0 c h hc
    have seq : ∀ {ls is r} {c : Conf} {t : List Val}, HasTypes { C with labels := ls } is [] r → ConfOk st C t c →
        Good st { C with labels := ls } r (execs (exec M n inst) is { c with stack := [] }) := by
      intro ls is r c t h hc
      exact execs_ok (ih st inst { C with labels := ls } ⟨hC.1, hC.2, hC.3, hC.4, hC.5⟩) h (confOk_labels.mpr (confOk_stack hc rfl))
    have hpush : ∀ {v : Value} {ts : List Val} {c : Conf}, ConfOk st C ts c → Good st C (ts ++ [v.type]) (push v c) := by
      intro v ts c hc
      exact confOk_stack hc (typed_cons hc.stack)
    cases h with
    | constI32 => rw [List.append_nil] at hc; exact hpush (v := .i32 _) hc
    | constI64 => rw [List.append_nil] at hc; exact hpush (v := .i64 _) hc
    | constF32 => rw [List.append_nil] at hc; exact hpush (v := .f32 _) hc
    | constF64 => rw [List.append_nil] at hc; exact hpush (v := .f64 _) hc
    | @num _ op =>
      obtain ⟨vs, rest, hp, hv, hr, _⟩ := popArgs_ok hc.stack
      simp only [exec, hp]
      cases hx : M.num op vs with
      | none => exact ⟨hc.store, hc.evolves⟩
      | some v =>
        have hty := hn op vs v hv hx
        rw [← hty]
        exact confOk_stack hc (typed_cons hr)
    | drop t =>
      obtain ⟨v, s, hs, _, ht⟩ := typed_snoc hc.stack
      simp only [exec, pop, hs]
      rw [List.append_nil]
      exact confOk_stack hc ht
    | select t =>
      have h3 : Typed c.stack (t0 ++ [t] ++ [t] ++ [.i32]) := by simpa using hc.stack
      obtain ⟨b, s, hs, h2⟩ := typed_i32 h3
      obtain ⟨w, s1, rfl, hw, h1⟩ := typed_snoc h2
      obtain ⟨v, s2, rfl, hv, h0⟩ := typed_snoc h1
      simp only [exec, popI32, hs, pop, hv, hw, if_true]
      have : t = (if b = 0 then w else v).type := by split <;> simp [hv, hw]
      have h4 := hpush (v := if b = 0 then w else v) (confOk_stack hc h0)
      rw [← this] at h4
      exact h4
    | @localGet _ x t hx =>
      obtain ⟨v, hv, rfl⟩ := get_type hc.locals hx
      simp only [exec, hv]
      rw [List.append_nil] at hc
      exact hpush hc
    | @localSet _ x t hx =>
      obtain ⟨v, s, hs, hv, ht⟩ := typed_snoc hc.stack
      obtain ⟨w, hw, _⟩ := get_type hc.locals hx
      simp only [exec, pop, hs, (List.getElem?_eq_some_iff.mp hw).1, if_true]
      rw [List.append_nil]
      exact ⟨hc.store, hc.evolves, set_type hc.locals hx hv, ht⟩
    | @localTee _ x t hx =>
      obtain ⟨v, s, hs, hv, ht⟩ := typed_snoc hc.stack
      obtain ⟨w, hw, _⟩ := get_type hc.locals hx
      simp only [exec, pop, hs, (List.getElem?_eq_some_iff.mp hw).1, if_true]
      subst hv
      exact hpush ⟨hc.store, hc.evolves, set_type hc.locals hx rfl, ht⟩
    | @globalGet _ x g hx =>
      obtain ⟨a, gi, hl, _, _, hg⟩ := look_global hC hc.evolves hx
      simp only [exec, hl]
      rw [List.append_nil] at hc
      rw [← hg]
      exact hpush hc
    | @globalSet _ x g hx hmut =>
      obtain ⟨v, s, hs, hv, ht⟩ := typed_snoc hc.stack
      obtain ⟨a, gi, hl, hg, h1, h2⟩ := look_global hC hc.evolves hx
      rw [hmut] at h1
      simp only [exec, pop, hs, hl, h1, if_true]
      rw [List.append_nil]
      obtain ⟨h3, h4⟩ := set_global_ok hc.store hg h1 (hv.trans h2.symm)
      rw [h1] at h3 h4
      exact ⟨h3, extends_trans hc.evolves h4, hc.locals, ht⟩
    | @load _ op al off mt hm _ =>
      obtain ⟨y, x, hl, hx⟩ := look_mem hC hc.evolves hm
      obtain ⟨a, s, hs, ht⟩ := typed_i32 hc.stack
      simp only [exec, hl, popI32, hs]
      split
      · rw [← loaded_type op]
        exact hpush (confOk_stack hc ht)
      · exact ⟨hc.store, hc.evolves⟩
    | @store _ op al off mt hm _ =>
      obtain ⟨y, x, hl, hx⟩ := look_mem hC hc.evolves hm
      have h2 : Typed c.stack (t0 ++ [.i32] ++ [(storeType op).1]) := by simpa using hc.stack
      obtain ⟨v, s1, hs1, hv, h1⟩ := typed_snoc h2
      obtain ⟨a, s, rfl, ht⟩ := typed_i32 h1
      simp only [exec, hl, pop, popI32, hs1, hv, if_true]
      split
      · rw [List.append_nil]
        obtain ⟨h3, h4⟩ := set_mem_ok (y := writeMem x (a.toNat + off.toNat) (storeType op).2 v.bits) hc.store hx (Nat.le_refl _) rfl
          (hc.store.mems x (List.mem_of_getElem? hx))
        exact ⟨h3, extends_trans hc.evolves h4, hc.locals, ht⟩
      · exact ⟨hc.store, hc.evolves⟩
    | @memSize _ x mt hm =>
      obtain ⟨y, z, hl, hx⟩ := look_mem hC hc.evolves hm
      simp only [exec, hl]
      rw [List.append_nil] at hc
      exact hpush (v := .i32 _) hc
    | @memGrow _ x mt hm =>
      obtain ⟨y, z, hl, hx⟩ := look_mem hC hc.evolves hm
      obtain ⟨a, s, hs, ht⟩ := typed_i32 hc.stack
      simp only [exec, hl, popI32, hs]
      split
      · rename_i hg
        obtain ⟨h3, h4⟩ := set_mem_ok
          (y := { z with pages := z.pages + a.toNat, byte := fun i => if i < 65536 * z.pages then z.byte i else 0 }) hc.store hx
          (Nat.le_add_right _ _) rfl hg.1
        exact hpush (v := .i32 _) (c := ⟨_, c.locals, s⟩) ⟨h3, extends_trans hc.evolves h4, hc.locals, ht⟩
      · exact hpush (v := .i32 _) (confOk_stack hc ht)
    | nop => exact hc
    | unreachable ts ts' => exact ⟨hc.store, hc.evolves⟩
    | block hb =>
      rw [List.append_nil] at hc
      exact leave_ok (seq hb hc) hc.stack
    | @loop _ r body hb =>
      rw [List.append_nil] at hc
      have h1 := seq hb hc
      simp only [exec]
      cases ho : execs (exec M n inst) body { c with stack := [] } with
      | br l c' =>
        rw [ho] at h1
        obtain ⟨r', t1, hr, hc'⟩ := h1
        have hc' := confOk_labels.mp hc'
        cases l with
        | zero =>
          refine ih st inst C hC _ _ _ t0 _ (.loop hb) ?_
          rw [List.append_nil]
          exact confOk_stack hc' hc.stack
        | succ l => exact ⟨r', t1, hr, hc'⟩
      | normal c' =>
        rw [ho] at h1
        have h1 := confOk_labels.mp h1
        exact confOk_stack h1 (typed_append hc.stack h1.stack)
      | ret c' =>
        rw [ho] at h1
        obtain ⟨r', t1, hr, hc'⟩ := h1
        exact ⟨r', t1, hr, confOk_labels.mp hc'⟩
      | trap s => rw [ho] at h1; exact h1
      | timeout => trivial
      | stuck => rw [ho] at h1; exact h1
    | @ifElse _ r thn els h1 h2 =>
      obtain ⟨b, s, hs, ht⟩ := typed_i32 hc.stack
      simp only [exec, popI32, hs]
      refine leave_ok (seq (c := { c with stack := s }) ?_ (confOk_stack hc ht)) ht
      split
      · exact h2
      · exact h1
    | @br _ l r ts ts' hl => exact ⟨r, t0 ++ ts, hl, by rw [List.append_assoc]; exact hc⟩
    | @brIf _ l r hl =>
      have h1 : Typed c.stack (t0 ++ b ++ [.i32]) := by simpa using hc.stack
      obtain ⟨v, s, hs, ht⟩ := typed_i32 h1
      simp only [exec, popI32, hs]
      split
      · exact confOk_stack hc ht
      · exact ⟨b, t0, hl, confOk_stack hc ht⟩
    | @brTable _ ls l r ts ts' h1 h2 =>
      have h3 : Typed c.stack (t0 ++ ts ++ r ++ [.i32]) := by simpa using hc.stack
      obtain ⟨v, s, hs, ht⟩ := typed_i32 h3
      simp only [exec, popI32, hs]
      refine ⟨r, t0 ++ ts, ?_, confOk_stack hc ht⟩
      cases hk : ls[v.toNat]? with
      | none => exact h2
      | some x => exact h1 x (List.mem_of_getElem? hk)
    | @ret _ r ts ts' hr => exact ⟨r, t0 ++ ts, hr, by rw [List.append_assoc]; exact hc⟩
    | @call _ x t hx =>
      obtain ⟨a, fi, hl, hf, rfl⟩ := look_func hC hc.evolves hx
      simp only [exec, hl]
      exact call_ok hh ih hf hc
    | @callIndirect _ x y t tb hy _ hx =>
      rw [hC.types] at hx
      obtain ⟨a, tab, hl, htab⟩ := look_table hC hc.evolves hy
      have h3 : Typed c.stack (t0 ++ t.params ++ [.i32]) := by simpa using hc.stack
      obtain ⟨v, s, hs, ht⟩ := typed_i32 h3
      simp only [exec, hl, hx, popI32, hs]
      split
      · rename_i a ha
        have hlt := (hc.store.tables tab (List.mem_of_getElem? htab)).2 a (List.mem_of_getElem? ha)
        rw [List.getElem?_eq_getElem hlt]
        simp only
        split
        · rename_i hty
          subst hty
          exact call_ok (c := ⟨c.store, c.locals, s⟩) hh ih (List.getElem?_eq_getElem hlt) (confOk_stack hc ht)
        · exact ⟨hc.store, hc.evolves⟩
      · exact ⟨hc.store, hc.evolves⟩

theorem invoke_ok (hn : NumOk M) (hh : HostOk M) {fi : FuncInst} {a : Nat} (ha : st.funcs[a]? = some fi) (hst : StoreOk st) {args : List Value}
    (hargs : args.map Value.type = fi.type.params) (fuel : Nat) :
    match invoke M fuel a args st with
    | .values vs st' => vs.map Value.type = fi.type.results ∧ StoreOk st' ∧ Extends st st'
    | .trap st' => StoreOk st' ∧ Extends st st'
    | .timeout => True
    | .stuck => False := by
  simp only [invoke, ha]
  have hc : ConfOk st {} ([] ++ fi.type.params) ⟨st, [], args.reverse⟩ :=
    ⟨hst, extends_refl st, rfl, by unfold Typed; rw [List.map_reverse, hargs]; rfl⟩
  have := call_ok (C := {}) hh (exec_ok hn hh fuel) ha hc
  cases ho : call M (exec M fuel) fi ⟨st, [], args.reverse⟩ with
  | normal c =>
    rw [ho] at this
    refine ⟨?_, this.store, this.evolves⟩
    have h := this.stack
    unfold Typed at h
    rw [List.map_reverse, h, List.reverse_reverse]
    rfl
  | br l c => rw [ho] at this; obtain ⟨_, _, h, _⟩ := this; simp at h
  | ret c => rw [ho] at this; obtain ⟨_, _, h, _⟩ := this; simp at h
  | trap s => rw [ho] at this; exact this
  | timeout => trivial
  | stuck => rw [ho] at this; exact this

end Whasm.Link
