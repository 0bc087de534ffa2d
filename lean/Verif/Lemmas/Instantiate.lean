import Verif.Spec.Instantiate
import Verif.Lemmas.Run
import Verif.Spec.Items

/-!
# Instantiation of valid modules
-/

namespace Whasm.Run
open Spec

variable {m : Module} {M : Machine}

theorem evalConst_ok {gs : List GlobalTy} {e : Expr} {t : Val} (h : SingleConst gs e t) {st : Store}
    (hg : st.globals.map Value.type = gs.map (·.val)) : ∃ v, evalConst M st e = some v ∧ v.type = t := by
  cases h with
  | i32 v => exact ⟨.i32 v, rfl, rfl⟩
  | i64 v => exact ⟨.i64 v, rfl, rfl⟩
  | f32 v => exact ⟨.f32 v, rfl, rfl⟩
  | f64 v => exact ⟨.f64 v, rfl, rfl⟩
  | @global x t h =>
    obtain ⟨v, hv, ht⟩ := get_type (t := t) hg (by rw [List.getElem?_map, h]; rfl)
    exact ⟨v, by simp only [evalConst, execs, exec, hv, push], ht⟩

theorem evalOffset_ok {gs : List GlobalTy} {e : Expr} (h : SingleConst gs e .i32) {st : Store}
    (hg : st.globals.map Value.type = gs.map (·.val)) : ∃ n, evalOffset M st e = some n := by
  obtain ⟨v, hv, ht⟩ := evalConst_ok (M := M) h hg
  cases v <;> cases ht
  exact ⟨_, by simp only [evalOffset, hv]; rfl⟩

theorem all_ok {α β : Type} {f : α → Option β} {R : α → β → Prop} {l : List α} (h : ∀ x ∈ l, ∃ y, f x = some y ∧ R x y) :
    ∃ ys, all f l = some ys ∧ Each R l ys := by
  induction l with
  | nil => exact ⟨[], rfl, rfl, fun i t x h => by simp at h⟩
  | cons x l ih =>
    obtain ⟨y, hy, hr⟩ := h x List.mem_cons_self
    obtain ⟨ys, hys, hl, he⟩ := ih fun z hz => h z (List.mem_cons_of_mem _ hz)
    refine ⟨y :: ys, by simp only [all, hy, hys], by simp [hl], fun i t z ht hz => ?_⟩
    cases i with
    | zero => cases ht; cases hz; exact hr
    | succ i => exact he i t z ht hz

theorem each_append {α β : Type} {R : α → β → Prop} {a a' : List α} {b b' : List β} (h : Each R a b) (h' : Each R a' b') :
    Each R (a ++ a') (b ++ b') := by
  refine ⟨by simp [h.1, h'.1], fun i t x ht hx => ?_⟩
  rw [List.getElem?_append] at ht hx
  rw [h.1] at hx
  split at ht
  · rename_i hi
    rw [if_pos hi] at hx
    exact h.2 i t x ht hx
  · rename_i hi
    rw [if_neg hi] at hx
    exact h'.2 _ t x ht hx

theorem each_map {α β γ : Type} {R : α → β → Prop} {f : γ → α} {g : γ → β} {l : List γ} (h : ∀ x ∈ l, R (f x) (g x)) :
    Each R (l.map f) (l.map g) := by
  refine ⟨by simp, fun i t x ht hx => ?_⟩
  rw [List.getElem?_map] at ht hx
  cases hl : l[i]? with
  | none => rw [hl] at ht; cases ht
  | some y =>
    rw [hl] at ht hx
    cases ht
    cases hx
    exact h y (List.mem_of_getElem? hl)

theorem each_modify {α β : Type} {R : α → β → Prop} {ts : List α} {xs : List β} (h : Each R ts xs) {i : Nat} {f : β → β}
    (hf : ∀ t x, R t x → R t (f x)) : Each R ts (xs.modify i f) := by
  refine ⟨by rw [List.length_modify]; exact h.1, fun j t y ht hy => ?_⟩
  rw [List.getElem?_modify] at hy
  cases hx : xs[j]? with
  | none => rw [hx] at hy; cases hy
  | some x =>
    rw [hx] at hy
    have := h.2 j t x ht hx
    simp only [Option.map_eq_map, Option.map_some, Option.some.injEq] at hy
    subst hy
    split
    · exact hf t x this
    · exact this

theorem newMem_ok {t : MemTy} (h : LimitsOk 65535 t.lim) : MemOk t (newMem t) := by
  obtain ⟨h1, h2⟩ := h
  refine ⟨Nat.le_refl _, ?_, fun n hn => ?_⟩
  · show t.lim.min.toNat ≤ _
    cases hm : t.lim.max with
    | none => simp only [pageLimit, newMem, hm, Option.map_none]; omega
    | some n =>
      have := h2 n hm
      simp only [pageLimit, newMem, hm, Option.map_some]
      omega
  · simp only [pageLimit, newMem, hn, Option.map_some]
    omega

theorem newTable_ok {k : Nat} {t : TableTy} (h : LimitsOk (2 ^ 32) t.lim) : TableOk k t (newTable t) :=
  ⟨by simp [newTable], fun n hn => by simp [newTable]; exact (h.2 n hn).2, fun a ha => by simp [newTable] at ha⟩

theorem types_of_each {l : List Global} {vs : List Value} (h : Each (fun g v => v.type = g.ty.val) l vs) :
    vs.map Value.type = l.map (·.ty.val) := by
  apply List.ext_getElem?
  intro i
  rw [List.getElem?_map, List.getElem?_map]
  cases hg : l[i]? with
  | none => rw [List.getElem?_eq_none (by rw [h.1]; exact List.getElem?_eq_none_iff.mp hg)]; rfl
  | some g =>
    obtain ⟨v, hv, ht⟩ := each_get h hg
    rw [hv]
    simp [ht]

theorem allocated_ok {p : Provided} {k : Nat} (hd : DeclsOk .code m) (hp : ProvidedOk m k p) {gs : List Value}
    (hg : gs.map Value.type = m.globals.map (·.ty.val)) : StoreOk m k (allocated m p gs) := by
  refine ⟨?_, each_append hp.mems (each_map fun x hx => newMem_ok (hd.mems x hx)), each_append hp.tables (each_map fun x hx => newTable_ok (hd.tables x hx))⟩
  simp only [allocated, List.map_append, hp.globals, hg, globalSpace, ownGlobals, List.map_map]
  rfl

/-- Same sizes, same globals. -/
theorem evolves_tables {st : Store} {i : Nat} {f : List (Option Nat) → List (Option Nat)} (hf : ∀ l, (f l).length = l.length) :
    Evolves m st { st with tables := st.tables.modify i f } := by
  refine ⟨fun _ _ _ _ => rfl, fun _ x h => ⟨x, h, Nat.le_refl _⟩, ?_⟩
  apply List.ext_getElem?
  intro j
  simp only [List.getElem?_map, List.getElem?_modify]
  cases st.tables[j]? with
  | none => rfl
  | some x =>
    simp only [Option.map_eq_map, Option.map_some]
    split
    · simp [hf]
    · rfl

theorem evolves_mems {st : Store} {i : Nat} {f : MemInst → MemInst} (hf : ∀ x, (f x).pages = x.pages) :
    Evolves m st { st with mems := st.mems.modify i f } := by
  refine ⟨fun _ _ _ _ => rfl, fun j x h => ?_, rfl⟩
  by_cases hij : i = j
  · refine ⟨f x, ?_, by rw [hf]; exact Nat.le_refl _⟩
    show (st.mems.modify i f)[j]? = _
    rw [List.getElem?_modify, h]
    simp [hij]
  · refine ⟨x, ?_, Nat.le_refl _⟩
    show (st.mems.modify i f)[j]? = _
    rw [List.getElem?_modify, h]
    simp [hij]

theorem length_overwrite {α : Type} (o : Nat) (xs l : List α) : (overwrite o xs l).length = l.length := by simp [overwrite]

theorem mem_overwrite {α : Type} {o : Nat} {xs l : List α} {a : α} (h : a ∈ overwrite o xs l) : a ∈ l ∨ a ∈ xs := by
  obtain ⟨i, hi⟩ := List.mem_iff_getElem?.mp h
  rw [overwrite, List.getElem?_mapIdx] at hi
  cases hl : l[i]? with
  | none => rw [hl] at hi; cases hi
  | some b =>
    rw [hl] at hi
    simp only [Option.map_some, Option.some.injEq] at hi
    subst hi
    split
    · cases hx : xs[i - o]? with
      | none => exact .inl (List.mem_of_getElem? hl)
      | some y => exact .inr (List.mem_of_getElem? hx)
    · exact .inl (List.mem_of_getElem? hl)

theorem writeElem_ok {k : Nat} {st : Store} (h : StoreOk m k st) {e : Elem × Nat} (he : ∀ x ∈ e.1.init, x.toNat < k) :
    StoreOk m k (writeElem st e) ∧ Evolves m st (writeElem st e) := by
  refine ⟨⟨h.globals, h.mems, each_modify h.tables fun t x hx => ⟨?_, fun n hn => ?_, fun a ha => ?_⟩⟩, evolves_tables (length_overwrite _ _)⟩
  · rw [length_overwrite]; exact hx.min
  · rw [length_overwrite]; exact hx.max n hn
  · rcases mem_overwrite ha with ha | ha
    · exact hx.entries a ha
    · obtain ⟨y, hy, h⟩ := List.mem_map.mp ha
      cases h
      exact he y hy

theorem writeData_ok {k : Nat} {st : Store} (h : StoreOk m k st) (d : Data × Nat) :
    StoreOk m k (writeData st d) ∧ Evolves m st (writeData st d) :=
  ⟨⟨h.globals, each_modify h.mems fun _ _ hx => ⟨hx.min, hx.limit, hx.max⟩, h.tables⟩, evolves_mems fun _ => rfl⟩

theorem writeElems_ok {k : Nat} : ∀ (es : List (Elem × Nat)) {st : Store}, StoreOk m k st → (∀ e ∈ es, ∀ x ∈ e.1.init, x.toNat < k) →
    StoreOk m k (es.foldl writeElem st) ∧ Evolves m st (es.foldl writeElem st)
  | [], st, h, _ => ⟨h, evolves_refl m st⟩
  | e :: es, st, h, he => by
    obtain ⟨h1, h2⟩ := writeElem_ok h (he e List.mem_cons_self)
    obtain ⟨h3, h4⟩ := writeElems_ok es h1 fun e h => he e (List.mem_cons_of_mem _ h)
    exact ⟨h3, evolves_trans h2 h4⟩

theorem writeDatas_ok {k : Nat} : ∀ (ds : List (Data × Nat)) {st : Store}, StoreOk m k st →
    StoreOk m k (ds.foldl writeData st) ∧ Evolves m st (ds.foldl writeData st)
  | [], st, h => ⟨h, evolves_refl m st⟩
  | d :: ds, st, h => by
    obtain ⟨h1, h2⟩ := writeData_ok h d
    obtain ⟨h3, h4⟩ := writeDatas_ok ds h1
    exact ⟨h3, evolves_trans h2 h4⟩

theorem runStart_ok (H : Fit m M) (hd : DeclsOk .code m) {st0 st : Store} (hst : StoreOk m M.all.length st) (he : Evolves m st0 st) (fuel : Nat) :
    StartedOk m M st0 (runStart M m fuel st) := by
  unfold runStart
  cases hs : m.start with
  | none => exact ⟨hst, he⟩
  | some s =>
    obtain ⟨fi, hf, ht⟩ := H.funcs _ _ (hd.start s hs)
    have := invoke_ok H hf hst (args := []) (by rw [ht]; rfl) fuel
    simp only
    cases ho : invoke M fuel s.func.toNat [] st with
    | values vs st' =>
      rw [ho, ht] at this
      obtain ⟨h1, h2, h3⟩ := this
      have : vs = [] := by simpa using h1
      subst this
      exact ⟨h2, evolves_trans he h3⟩
    | trap st' => rw [ho] at this; exact ⟨this.1, evolves_trans he this.2⟩
    | timeout => trivial
    | stuck => rw [ho] at this; exact this

theorem instantiate_ok (H : Fit m M) (hd : DeclsOk .code m)
    (hg : ∀ g ∈ m.globals, SingleConst (importedGlobals m) g.init g.ty.val)
    (he : ∀ e ∈ m.elem, SingleConst (globalSpace m) e.offset .i32) (hda : ∀ d ∈ m.data, SingleConst (globalSpace m) d.offset .i32)
    {p : Provided} (hp : ProvidedOk m M.all.length p) (fuel : Nat) :
    ∃ gs, all (fun (g : Global) => evalConst M (beforeGlobals p) g.init) m.globals = some gs ∧
      StoreOk m M.all.length (allocated m p gs) ∧ StartedOk m M (allocated m p gs) (instantiate M m p fuel) := by
  obtain ⟨gs, hgs, hty⟩ := all_ok (f := fun (g : Global) => evalConst M (beforeGlobals p) g.init) (R := fun g v => v.type = g.ty.val)
    fun g hm => evalConst_ok (hg g hm) hp.globals
  have hst := allocated_ok hd hp (types_of_each hty)
  refine ⟨gs, hgs, hst, ?_⟩
  have hlen : ∀ x : Nat, x < (funcSpace m).length → x < M.funcs.length := by
    intro x hx
    obtain ⟨fi, hf, _⟩ := H.funcs x _ (List.getElem?_eq_getElem hx)
    exact (List.getElem?_eq_some_iff.mp hf).1
  obtain ⟨eo, heo, _⟩ := all_ok (f := fun (e : Elem) => evalOffset M (allocated m p gs) e.offset) (R := fun _ _ => True) (l := m.elem)
    fun e hm => by
      obtain ⟨n, hn⟩ := evalOffset_ok (M := M) (he e hm) hst.globals
      exact ⟨n, hn, trivial⟩
  obtain ⟨dof, hdo, _⟩ := all_ok (f := fun (d : Data) => evalOffset M (allocated m p gs) d.offset) (R := fun _ _ => True) (l := m.data)
    fun e hm => by
      obtain ⟨n, hn⟩ := evalOffset_ok (M := M) (hda e hm) hst.globals
      exact ⟨n, hn, trivial⟩
  obtain ⟨be, hbe, _⟩ := all_ok (f := elemFits M (allocated m p gs)) (R := fun _ _ => True) (l := m.elem.zip eo)
    fun e hm => by
      have hm := (List.of_mem_zip hm).1
      obtain ⟨⟨t, ht, _⟩, _, hx⟩ := hd.elem e.1 hm
      obtain ⟨tb, htb, _⟩ := each_get hst.tables ht
      have : e.1.init.all (fun x => decide (x.toNat < M.funcs.length)) = true := by
        rw [List.all_eq_true]
        intro x h
        exact decide_eq_true (hlen _ (hx x h))
      exact ⟨_, by simp only [elemFits, htb, this, if_true]; rfl, trivial⟩
  obtain ⟨bd, hbd, _⟩ := all_ok (f := dataFits (allocated m p gs)) (R := fun _ _ => True) (l := m.data.zip dof)
    fun d hm => by
      have hm := (List.of_mem_zip hm).1
      obtain ⟨x, hx, _⟩ := each_get hst.mems (List.getElem?_eq_getElem (hd.data d.1 hm).1)
      exact ⟨_, by simp only [dataFits, hx, Option.map_some]; rfl, trivial⟩
  simp only [instantiate, hgs, heo, hdo, hbe, hbd]
  split
  · obtain ⟨h1, h2⟩ := writeElems_ok (m.elem.zip eo) hst fun e hm x hx => by
      obtain ⟨_, _, h⟩ := hd.elem e.1 (List.of_mem_zip hm).1
      have := hlen _ (h x hx)
      simp only [Machine.all, List.length_append]
      omega
    obtain ⟨h3, h4⟩ := writeDatas_ok (m.data.zip dof) h1
    exact runStart_ok H hd h3 (evolves_trans h2 h4) fuel
  · trivial

end Whasm.Run
