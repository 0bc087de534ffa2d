import Verif.Spec.Safety
import Verif.Lemmas.Typing

/-!
# Well-typed code does not get stuck
-/

namespace Whasm.Run
open Spec

/-- Types of a stack, in the order of the document. -/
def Typed (s : List Value) (ts : List Val) : Prop := s.map Value.type = ts.reverse

theorem typed_snoc {s : List Value} {ts : List Val} {t : Val} (h : Typed s (ts ++ [t])) :
    ∃ v s', s = v :: s' ∧ v.type = t ∧ Typed s' ts := by
  unfold Typed at h
  rw [List.reverse_append] at h
  cases s with
  | nil => simp at h
  | cons v s' =>
    simp only [List.map_cons, List.reverse_cons, List.reverse_nil, List.nil_append, List.singleton_append, List.cons.injEq] at h
    exact ⟨v, s', rfl, h.1, h.2⟩

theorem typed_cons {s : List Value} {ts : List Val} {v : Value} (h : Typed s ts) : Typed (v :: s) (ts ++ [v.type]) := by
  unfold Typed at *
  simp [h]

theorem typed_append {s s' : List Value} {ts ts' : List Val} (h : Typed s ts) (h' : Typed s' ts') : Typed (s' ++ s) (ts ++ ts') := by
  unfold Typed at *
  simp [h, h']

theorem typed_i32 {s : List Value} {ts : List Val} (h : Typed s (ts ++ [.i32])) : ∃ v s', s = .i32 v :: s' ∧ Typed s' ts := by
  obtain ⟨v, s', rfl, hv, hs⟩ := typed_snoc h
  cases v <;> cases hv
  exact ⟨_, _, rfl, hs⟩

theorem popArgs_ok {s : List Value} {ts a : List Val} (h : Typed s (ts ++ a)) :
    ∃ vs rest, popArgs a s = some (vs, rest) ∧ vs.map Value.type = a ∧ Typed rest ts ∧ s = vs.reverse ++ rest := by
  unfold Typed at h
  rw [List.reverse_append] at h
  have h1 : (s.take a.length).map Value.type = a.reverse := by
    rw [List.map_take, h, List.take_left' (by simp)]
  have h2 : (s.take a.length).reverse.map Value.type = a := by rw [List.map_reverse, h1, List.reverse_reverse]
  refine ⟨(s.take a.length).reverse, s.drop a.length, ?_, h2, ?_, ?_⟩
  · simp only [popArgs, h2, if_true]
  · unfold Typed
    rw [List.map_drop, h, List.drop_left' (by simp)]
  · rw [List.reverse_reverse, List.take_append_drop]

theorem evolves_refl (m : Module) (st : Store) : Evolves m st st :=
  ⟨fun _ _ _ _ => rfl, fun _ x h => ⟨x, h, Nat.le_refl _⟩, rfl⟩

theorem evolves_trans {m : Module} {a b c : Store} (h : Evolves m a b) (h' : Evolves m b c) : Evolves m a c :=
  ⟨fun i g hg hc => (h'.const i g hg hc).trans (h.const i g hg hc), fun i x hx => by
    obtain ⟨y, hy, h1⟩ := h.pages i x hx
    obtain ⟨z, hz, h2⟩ := h'.pages i y hy
    exact ⟨z, hz, Nat.le_trans h1 h2⟩, h'.tables.trans h.tables⟩

/-- What is needed of a machine. -/
structure Fit (m : Module) (M : Machine) : Prop where
  types : M.types = m.types
  funcs : ∀ (i : Nat) t, (funcSpace m)[i]? = some t → ∃ fi, M.funcs[i]? = some fi ∧ fi.type = t
  own : ∀ t f, .own t f ∈ M.all → HasTypes { bodyEnv .w3c m t f.locals with aligned := false } f.body [] t.results
  num : NumOk M
  host : HostOk m M

/-- A context for code of module `m`. -/
structure EnvOk (m : Module) (C : Env) : Prop where
  types : C.types = m.types
  funcs : C.funcs = funcSpace m
  tables : C.tables = tableSpace m
  mems : C.mems = memSpace m
  globals : C.globals = globalSpace m

/-- Invariant, with `st` the store at the beginning. -/
structure ConfOk (m : Module) (M : Machine) (st : Store) (C : Env) (ts : List Val) (c : Conf) : Prop where
  store : StoreOk m M.all.length c.store
  evolves : Evolves m st c.store
  locals : c.locals.map Value.type = C.locals
  stack : Typed c.stack ts

def Good (m : Module) (M : Machine) (st : Store) (C : Env) (ts : List Val) : Outcome → Prop
  | .normal c => ConfOk m M st C ts c
  | .br l c => ∃ r t0, C.labels[l]? = some r ∧ ConfOk m M st C (t0 ++ r) c
  | .ret c => ∃ r t0, C.ret = some r ∧ ConfOk m M st C (t0 ++ r) c
  | .trap s => StoreOk m M.all.length s ∧ Evolves m st s
  | .timeout => True
  | .stuck => False

variable {m : Module} {M : Machine} {st : Store} {C : Env}

theorem execs_ok {step : Instr → Conf → Outcome}
    (hs : ∀ i a b t0 c, HasType C i a b → ConfOk m M st C (t0 ++ a) c → Good m M st C (t0 ++ b) (step i c)) :
    ∀ {is a b c}, HasTypes C is a b → ConfOk m M st C a c → Good m M st C b (execs step is c) := by
  intro is
  induction is with
  | nil =>
    intro a b c h hc
    obtain rfl := hasTypes_nil h
    exact hc
  | cons i is ih =>
    intro a b c h hc
    obtain ⟨t0, x, y, rfl, hi, hr⟩ := hasTypes_cons.mp h
    have := hs i x y t0 c hi hc
    rw [execs]
    cases hstep : step i c with
    | normal c' => rw [hstep] at this; exact ih hr this
    | _ => rw [hstep] at this; exact this

/-- The invariant does not depend on labels. -/
theorem confOk_labels {ls : List (List Val)} {ts : List Val} {c : Conf} :
    ConfOk m M st { C with labels := ls } ts c ↔ ConfOk m M st C ts c :=
  ⟨fun ⟨a, b, c, d⟩ => ⟨a, b, c, d⟩, fun ⟨a, b, c, d⟩ => ⟨a, b, c, d⟩⟩

theorem confOk_stack {ts ts' : List Val} {c : Conf} {s : List Value} (h : ConfOk m M st C ts c) (hs : Typed s ts') :
    ConfOk m M st C ts' { c with stack := s } := ⟨h.store, h.evolves, h.locals, hs⟩

theorem leave_ok {r t0 : List Val} {outer : List Value} {o : Outcome} (h : Good m M st { C with labels := r :: C.labels } r o)
    (ht : Typed outer t0) : Good m M st C (t0 ++ r) (leave r outer o) := by
  cases o with
  | normal c =>
    have h := confOk_labels.mp h
    exact confOk_stack h (typed_append ht h.stack)
  | br l c =>
    obtain ⟨r', t1, hr, hc⟩ := h
    have hc := confOk_labels.mp hc
    cases l with
    | zero =>
      cases hr
      obtain ⟨vs, rest, hp, hv, _, _⟩ := popArgs_ok hc.stack
      simp only [leave, hp]
      exact confOk_stack hc (typed_append ht (by unfold Typed; rw [List.map_reverse, hv]))
    | succ l => exact ⟨r', t1, hr, hc⟩
  | ret c =>
    obtain ⟨r', t1, hr, hc⟩ := h
    exact ⟨r', t1, hr, confOk_labels.mp hc⟩
  | trap s => exact h
  | timeout => trivial
  | stuck => exact h

theorem leaveFunc_ok {t : FuncTy} {t0 : List Val} {c : Conf} {o : Outcome} {C' : Env} (hl : C'.labels = [t.results])
    (hr : C'.ret = some t.results) (h : Good m M st C' t.results o) (hc : ConfOk m M st C t0 c) :
    Good m M st C (t0 ++ t.results) (leaveFunc t c o) := by
  have fin : ∀ {c' : Conf} {t1 : List Val}, ConfOk m M st C' (t1 ++ t.results) c' → ∃ vs rest, popArgs t.results c'.stack = some (vs, rest) ∧
      Typed rest t1 ∧ ConfOk m M st C (t0 ++ t.results) ⟨c'.store, c.locals, vs.reverse ++ c.stack⟩ := by
    intro c' t1 h
    obtain ⟨vs, rest, hp, hv, hr, _⟩ := popArgs_ok h.stack
    exact ⟨vs, rest, hp, hr, h.store, h.evolves, hc.locals, typed_append hc.stack (by unfold Typed; rw [List.map_reverse, hv])⟩
  cases o with
  | normal c' =>
    obtain ⟨vs, rest, hp, hr, hok⟩ := fin (t1 := []) h
    have : rest = [] := by unfold Typed at hr; simpa using hr
    subst this
    simp only [leaveFunc, hp]
    exact hok
  | br l c' =>
    obtain ⟨r', t1, h1, h2⟩ := h
    rw [hl] at h1
    cases l with
    | zero =>
      cases h1
      obtain ⟨vs, rest, hp, hr, hok⟩ := fin h2
      simp only [leaveFunc, hp]
      exact hok
    | succ l => simp at h1
  | ret c' =>
    obtain ⟨r', t1, h1, h2⟩ := h
    rw [hr] at h1
    cases h1
    obtain ⟨vs, rest, hp, hr, hok⟩ := fin h2
    simp only [leaveFunc, hp]
    exact hok
  | trap s => exact h
  | timeout => trivial
  | stuck => exact h

theorem zero_type (t : Val) : (zero t).type = t := by cases t <;> rfl

theorem call_ok (H : Fit m M) {step : Instr → Conf → Outcome}
    (hs : ∀ C, EnvOk m C → ∀ i a b t0 c, HasType C i a b → ConfOk m M st C (t0 ++ a) c → Good m M st C (t0 ++ b) (step i c))
    {fi : FuncInst} (hf : fi ∈ M.all) {t0 : List Val} {c : Conf} (hc : ConfOk m M st C (t0 ++ fi.type.params) c) :
    Good m M st C (t0 ++ fi.type.results) (call M step fi c) := by
  obtain ⟨vs, rest, hp, hv, hr, _⟩ := popArgs_ok hc.stack
  cases fi with
  | own t f =>
    simp only [call, hp]
    have hb := H.own t f hf
    refine leaveFunc_ok (C' := { bodyEnv .w3c m t f.locals with aligned := false }) rfl rfl ?_ (confOk_stack hc hr)
    refine execs_ok (hs _ ⟨rfl, rfl, rfl, rfl, rfl⟩) hb ⟨hc.store, hc.evolves, ?_, rfl⟩
    show (vs ++ f.locals.map zero).map Value.type = t.params ++ f.locals
    rw [List.map_append, List.map_map]
    refine congr (congrArg _ hv) ?_
    exact (List.map_congr_left fun x _ => zero_type x).trans (List.map_id _)
  | host t id =>
    simp only [call, hp]
    cases hx : M.host id c.store vs with
    | mk s res =>
      obtain ⟨h1, h2, h3⟩ := H.host t id hf c.store vs hc.store hv _ _ hx
      have he := evolves_trans hc.evolves h2
      cases res with
      | none => exact ⟨h1, he⟩
      | some ws => exact ⟨h1, he, hc.locals, typed_append hr (by unfold Typed; rw [List.map_reverse, h3 ws rfl]; rfl)⟩

theorem set_type {l : List Value} {ts : List Val} {x : Nat} {t : Val} {v : Value} (h : l.map Value.type = ts) (hx : ts[x]? = some t)
    (hv : v.type = t) : (l.set x v).map Value.type = ts := by
  subst h hv
  rw [List.map_set]
  apply List.ext_getElem?
  intro i
  rw [List.getElem?_set]
  split
  · subst_vars
    split
    · exact hx.symm
    · rename_i h; rw [List.getElem?_eq_none (Nat.le_of_not_lt h)]
  · rfl

theorem get_type {l : List Value} {ts : List Val} {x : Nat} {t : Val} (h : l.map Value.type = ts) (hx : ts[x]? = some t) :
    ∃ v, l[x]? = some v ∧ v.type = t := by
  subst h
  rw [List.getElem?_map] at hx
  cases hl : l[x]? with
  | none => rw [hl] at hx; cases hx
  | some v => rw [hl] at hx; exact ⟨v, rfl, Option.some.inj hx⟩

theorem each_get {α β : Type} {R : α → β → Prop} {ts : List α} {xs : List β} (h : Each R ts xs) {i : Nat} {t : α} (ht : ts[i]? = some t) :
    ∃ x, xs[i]? = some x ∧ R t x := by
  have hi : i < xs.length := by rw [h.1]; exact (List.getElem?_eq_some_iff.mp ht).1
  exact ⟨xs[i], List.getElem?_eq_getElem hi, h.2 i t _ ht (List.getElem?_eq_getElem hi)⟩

theorem each_set {α β : Type} {R : α → β → Prop} {ts : List α} {xs : List β} (h : Each R ts xs) {i : Nat} {x : β}
    (hx : ∀ t, ts[i]? = some t → R t x) : Each R ts (xs.set i x) := by
  refine ⟨by rw [List.length_set]; exact h.1, fun j t y ht hy => ?_⟩
  rw [List.getElem?_set] at hy
  split at hy
  · subst_vars
    split at hy
    · cases hy; exact hx t ht
    · cases hy
  · exact h.2 j t y ht hy

theorem loaded_type (op : LoadOp) (n : Nat) : (loaded op n).type = (loadType op).1 := by cases op <;> rfl

/-- Replacing a memory by a larger one. -/
theorem confOk_mem {ts : List Val} {c : Conf} (h : ConfOk m M st C ts c) {i : Nat} {x y : MemInst} (hx : c.store.mems[i]? = some x)
    (hp : x.pages ≤ y.pages) (hy : ∀ t, (memSpace m)[i]? = some t → MemOk t x → MemOk t y) :
    ConfOk m M st C ts { c with store.mems := c.store.mems.set i y } := by
  obtain ⟨⟨h1, h2, h3⟩, he, hl, hs⟩ := h
  have hi : i < c.store.mems.length := (List.getElem?_eq_some_iff.mp hx).1
  refine ⟨⟨h1, each_set h2 fun t ht => hy t ht (h2.2 i t x ht hx), h3⟩, evolves_trans he ⟨fun _ _ _ _ => rfl, fun j z hz => ?_, rfl⟩, hl, hs⟩
  by_cases hij : i = j
  · subst hij
    rw [hx] at hz
    cases hz
    exact ⟨y, by simp [hi], hp⟩
  · exact ⟨z, by show (c.store.mems.set i y)[j]? = _; rw [List.getElem?_set_ne hij]; exact hz, Nat.le_refl _⟩

theorem exec_ok (H : Fit m M) : ∀ n (C : Env), EnvOk m C → ∀ i a b t0 c, HasType C i a b → ConfOk m M st C (t0 ++ a) c →
    Good m M st C (t0 ++ b) (exec M n i c) := by
  intro n
  induction n with
  | zero => intros; trivial
  | succ n ih =>
    intro C hC i a b t0 c h hc
    have seq : ∀ {ls is r} {c : Conf} {t : List Val}, HasTypes { C with labels := ls } is [] r → ConfOk m M st C t c →
        Good m M st { C with labels := ls } r (execs (exec M n) is { c with stack := [] }) := by
      intro ls is r c t h hc
      exact execs_ok (ih { C with labels := ls } ⟨hC.1, hC.2, hC.3, hC.4, hC.5⟩) h (confOk_labels.mpr (confOk_stack hc rfl))
    have hpush : ∀ {v : Value} {ts : List Val} {c : Conf}, ConfOk m M st C ts c → Good m M st C (ts ++ [v.type]) (push v c) := by
      intro v ts c hc
      exact confOk_stack hc (typed_cons hc.stack)
    cases h with
    | constI32 => rw [List.append_nil] at hc; exact hpush (v := .i32 _) hc
    | constI64 => rw [List.append_nil] at hc; exact hpush (v := .i64 _) hc
    | constF32 => rw [List.append_nil] at hc; exact hpush (v := .f32 _) hc
    | constF64 => rw [List.append_nil] at hc; exact hpush (v := .f64 _) hc
    | @num _ op =>
      obtain ⟨vs, rest, hp, hv, hr, _⟩ := popArgs_ok hc.stack
      simp only [exec, hp]
      cases hx : M.num op vs with
      | none => exact ⟨hc.store, hc.evolves⟩
      | some v =>
        have hty := H.num op vs v hv hx
        rw [← hty]
        exact confOk_stack hc (typed_cons hr)
    | drop t =>
      obtain ⟨v, s, hs, _, ht⟩ := typed_snoc hc.stack
      simp only [exec, pop, hs]
      rw [List.append_nil]
      exact confOk_stack hc ht
    | select t =>
      have h3 : Typed c.stack (t0 ++ [t] ++ [t] ++ [.i32]) := by simpa using hc.stack
      obtain ⟨b, s, hs, h2⟩ := typed_i32 h3
      obtain ⟨w, s1, rfl, hw, h1⟩ := typed_snoc h2
      obtain ⟨v, s2, rfl, hv, h0⟩ := typed_snoc h1
      simp only [exec, popI32, hs, pop, hv, hw, if_true]
      have : t = (if b = 0 then w else v).type := by split <;> simp [hv, hw]
      have h4 := hpush (v := if b = 0 then w else v) (confOk_stack hc h0)
      rw [← this] at h4
      exact h4
    | @localGet _ x t hx =>
      obtain ⟨v, hv, rfl⟩ := get_type hc.locals hx
      simp only [exec, hv]
      rw [List.append_nil] at hc
      exact hpush hc
    | @localSet _ x t hx =>
      obtain ⟨v, s, hs, hv, ht⟩ := typed_snoc hc.stack
      obtain ⟨w, hw, _⟩ := get_type hc.locals hx
      simp only [exec, pop, hs, (List.getElem?_eq_some_iff.mp hw).1, if_true]
      rw [List.append_nil]
      exact ⟨hc.store, hc.evolves, set_type hc.locals hx hv, ht⟩
    | @localTee _ x t hx =>
      obtain ⟨v, s, hs, hv, ht⟩ := typed_snoc hc.stack
      obtain ⟨w, hw, _⟩ := get_type hc.locals hx
      simp only [exec, pop, hs, (List.getElem?_eq_some_iff.mp hw).1, if_true]
      subst hv
      exact hpush ⟨hc.store, hc.evolves, set_type hc.locals hx rfl, ht⟩
    | @globalGet _ x g hx =>
      rw [hC.globals] at hx
      obtain ⟨v, hv, hg⟩ := get_type (t := g.val) hc.store.globals (by rw [List.getElem?_map, hx]; rfl)
      simp only [exec, hv]
      rw [List.append_nil] at hc
      rw [← hg]
      exact hpush hc
    | @globalSet _ x g hx hmut =>
      rw [hC.globals] at hx
      obtain ⟨v, s, hs, hv, ht⟩ := typed_snoc hc.stack
      have hx' : ((globalSpace m).map (·.val))[x.toNat]? = some g.val := by rw [List.getElem?_map, hx]; rfl
      obtain ⟨w, hw, hg⟩ := get_type hc.store.globals hx'
      simp only [exec, pop, hs, (List.getElem?_eq_some_iff.mp hw).1, if_true]
      rw [List.append_nil]
      refine ⟨⟨set_type hc.store.globals hx' hv, hc.store.mems, hc.store.tables⟩,
        evolves_trans hc.evolves ⟨fun i g' hg' hc' => ?_, fun _ x h => ⟨x, h, Nat.le_refl _⟩, rfl⟩, hc.locals, ht⟩
      have : x.toNat ≠ i := by
        rintro rfl
        rw [hx] at hg'
        cases hg'
        rw [hmut] at hc'
        cases hc'
      exact List.getElem?_set_ne this
    | @load _ op al off mt hm _ =>
      rw [hC.mems] at hm
      obtain ⟨x, hx, _⟩ := each_get hc.store.mems hm
      obtain ⟨a, s, hs, ht⟩ := typed_i32 hc.stack
      simp only [exec, hx, popI32, hs]
      split
      · rw [← loaded_type op]
        exact hpush (confOk_stack hc ht)
      · exact ⟨hc.store, hc.evolves⟩
    | @store _ op al off mt hm _ =>
      rw [hC.mems] at hm
      obtain ⟨x, hx, _⟩ := each_get hc.store.mems hm
      have h2 : Typed c.stack (t0 ++ [.i32] ++ [(storeType op).1]) := by simpa using hc.stack
      obtain ⟨v, s1, hs1, hv, h1⟩ := typed_snoc h2
      obtain ⟨a, s, rfl, ht⟩ := typed_i32 h1
      simp only [exec, hx, pop, popI32, hs1, hv, if_true]
      split
      · rw [List.append_nil]
        exact confOk_mem (confOk_stack hc ht) hx (Nat.le_refl _) fun t _ h => ⟨h.min, h.limit, h.max⟩
      · exact ⟨hc.store, hc.evolves⟩
    | @memSize _ x mt hm =>
      rw [hC.mems] at hm
      obtain ⟨y, hy, _⟩ := each_get hc.store.mems hm
      simp only [exec, hy]
      rw [List.append_nil] at hc
      exact hpush (v := .i32 _) hc
    | @memGrow _ x mt hm =>
      rw [hC.mems] at hm
      obtain ⟨y, hy, _⟩ := each_get hc.store.mems hm
      obtain ⟨a, s, hs, ht⟩ := typed_i32 hc.stack
      simp only [exec, hy, popI32, hs]
      split
      · rename_i hg
        refine hpush (v := .i32 _) (confOk_mem (confOk_stack hc ht) hy (Nat.le_add_right _ _) fun t _ h => ⟨?_, hg.1, h.max⟩)
        exact Nat.le_trans h.min (Nat.le_add_right _ _)
      · exact hpush (v := .i32 _) (confOk_stack hc ht)
    | nop => exact hc
    | unreachable ts ts' => exact ⟨hc.store, hc.evolves⟩
    | block hb =>
      rw [List.append_nil] at hc
      exact leave_ok (seq hb hc) hc.stack
    | @loop _ r body hb =>
      rw [List.append_nil] at hc
      have h1 := seq hb hc
      simp only [exec]
      cases ho : execs (exec M n) body { c with stack := [] } with
      | br l c' =>
        rw [ho] at h1
        obtain ⟨r', t1, hr, hc'⟩ := h1
        have hc' := confOk_labels.mp hc'
        cases l with
        | zero =>
          refine ih C hC _ _ _ t0 _ (.loop hb) ?_
          rw [List.append_nil]
          exact confOk_stack hc' hc.stack
        | succ l => exact ⟨r', t1, hr, hc'⟩
      | normal c' =>
        rw [ho] at h1
        have h1 := confOk_labels.mp h1
        exact confOk_stack h1 (typed_append hc.stack h1.stack)
      | ret c' =>
        rw [ho] at h1
        obtain ⟨r', t1, hr, hc'⟩ := h1
        exact ⟨r', t1, hr, confOk_labels.mp hc'⟩
      | trap s => rw [ho] at h1; exact h1
      | timeout => trivial
      | stuck => rw [ho] at h1; exact h1
    | @ifElse _ r thn els h1 h2 =>
      obtain ⟨b, s, hs, ht⟩ := typed_i32 hc.stack
      simp only [exec, popI32, hs]
      refine leave_ok (seq (c := { c with stack := s }) ?_ (confOk_stack hc ht)) ht
      split
      · exact h2
      · exact h1
    | @br _ l r ts ts' hl => exact ⟨r, t0 ++ ts, hl, by rw [List.append_assoc]; exact hc⟩
    | @brIf _ l r hl =>
      have h1 : Typed c.stack (t0 ++ b ++ [.i32]) := by simpa using hc.stack
      obtain ⟨v, s, hs, ht⟩ := typed_i32 h1
      simp only [exec, popI32, hs]
      split
      · exact confOk_stack hc ht
      · exact ⟨b, t0, hl, confOk_stack hc ht⟩
    | @brTable _ ls l r ts ts' h1 h2 =>
      have h3 : Typed c.stack (t0 ++ ts ++ r ++ [.i32]) := by simpa using hc.stack
      obtain ⟨v, s, hs, ht⟩ := typed_i32 h3
      simp only [exec, popI32, hs]
      refine ⟨r, t0 ++ ts, ?_, confOk_stack hc ht⟩
      cases hk : ls[v.toNat]? with
      | none => exact h2
      | some x => exact h1 x (List.mem_of_getElem? hk)
    | @ret _ r ts ts' hr => exact ⟨r, t0 ++ ts, hr, by rw [List.append_assoc]; exact hc⟩
    | @call _ x t hx =>
      rw [hC.funcs] at hx
      obtain ⟨fi, hf, rfl⟩ := H.funcs _ _ hx
      simp only [exec, hf]
      exact call_ok H ih (List.mem_append_left _ (List.mem_of_getElem? hf)) hc
    | @callIndirect _ x y t tb hy _ hx =>
      rw [hC.tables] at hy
      rw [hC.types, ← H.types] at hx
      obtain ⟨tab, htab, hok⟩ := each_get hc.store.tables hy
      have h3 : Typed c.stack (t0 ++ t.params ++ [.i32]) := by simpa using hc.stack
      obtain ⟨v, s, hs, ht⟩ := typed_i32 h3
      simp only [exec, htab, hx, popI32, hs]
      split
      · rename_i a ha
        have hlt := hok.entries a (List.mem_of_getElem? ha)
        rw [List.getElem?_eq_getElem hlt]
        simp only
        split
        · rename_i hty
          subst hty
          exact call_ok H ih (List.getElem_mem hlt) (confOk_stack hc ht)
        · exact ⟨hc.store, hc.evolves⟩
      · exact ⟨hc.store, hc.evolves⟩

theorem invoke_ok (H : Fit m M) {fi : FuncInst} {a : Nat} (ha : M.funcs[a]? = some fi) (hst : StoreOk m M.all.length st) {args : List Value}
    (hargs : args.map Value.type = fi.type.params) (fuel : Nat) : CallOk m M st fi.type (invoke M fuel a args st) := by
  simp only [invoke, ha]
  have hc : ConfOk m M st {} ([] ++ fi.type.params) ⟨st, [], args.reverse⟩ :=
    ⟨hst, evolves_refl m st, rfl, by unfold Typed; rw [List.map_reverse, hargs]; rfl⟩
  have := call_ok (C := {}) H (exec_ok H fuel) (List.mem_append_left _ (List.mem_of_getElem? ha)) hc
  cases ho : call M (exec M fuel) fi ⟨st, [], args.reverse⟩ with
  | normal c =>
    rw [ho] at this
    refine ⟨?_, this.store, this.evolves⟩
    have h := this.stack
    unfold Typed at h
    rw [List.map_reverse, h, List.reverse_reverse]
    rfl
  | br l c => rw [ho] at this; obtain ⟨_, _, h, _⟩ := this; simp at h
  | ret c => rw [ho] at this; obtain ⟨_, _, h, _⟩ := this; simp at h
  | trap s => rw [ho] at this; exact this
  | timeout => trivial
  | stuck => rw [ho] at this; exact this

end Whasm.Run
