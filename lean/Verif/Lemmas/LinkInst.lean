import Verif.Lemmas.Link

/-!
# Instantiation of a module that is linked to others
-/

namespace Whasm.Link
open Spec
open Run (Value MemInst popArgs zero readMem writeMem loaded pageLimit Each overwrite all newMem Typed set_type get_type each_get each_append
  each_map all_ok mem_overwrite length_overwrite newMem_ok)

variable {M : Machine} {st st' : Store} {inst : Inst} {m : Module}

/-! ## Lists -/

section
variable {α β : Type} {R : α → β → Prop}

theorem each_nil : Each R [] [] := ⟨rfl, fun i t x h => by simp at h⟩

theorem each_cons {t : α} {ts : List α} {x : β} {xs : List β} (h : R t x) (h' : Each R ts xs) : Each R (t :: ts) (x :: xs) := by
  refine ⟨by simp [h'.1], fun i t' x' ht hx => ?_⟩
  cases i with
  | zero => cases ht; cases hx; exact h
  | succ i => exact h'.2 i t' x' ht hx

theorem each_cons_inv {t : α} {ts : List α} {xs : List β} (h : Each R (t :: ts) xs) : ∃ x xs', xs = x :: xs' ∧ R t x ∧ Each R ts xs' := by
  cases xs with
  | nil => exact absurd h.1 (by simp)
  | cons x xs' => exact ⟨x, xs', rfl, h.2 0 t x rfl rfl, by simpa using h.1, fun i t' x' ht hx => h.2 (i + 1) t' x' ht hx⟩

theorem each_range {ts : List α} {R : α → Nat → Prop} {n k : Nat} (hl : ts.length = n) (h : ∀ i t, ts[i]? = some t → R t (k + i)) :
    Each R ts ((List.range n).map (k + ·)) := by
  refine ⟨by simp [hl], fun i t x ht hx => ?_⟩
  rw [List.getElem?_map] at hx
  by_cases hi : i < n
  · rw [List.getElem?_eq_getElem (by simpa using hi)] at hx
    simp only [List.getElem_range, Option.map_some, Option.some.injEq] at hx
    subst hx
    exact h i t ht
  · rw [List.getElem?_eq_none (by simp; omega)] at hx
    cases hx

end

/-! ## Imports -/

/-- The imports sorted by kind. -/
theorem imports_split : ∀ (l : List Import) (es : List Extern), (∀ i ∈ l, (importType m i).isSome = true) →
    Each (fun t e => ExternOk st e t) (l.filterMap (importType m)) es →
    Each (fun t a => ExternOk st (.func a) (.func t)) (importedFuncs { m with imports := l }) (es.filterMap Extern.func?) ∧
    Each (fun t a => ExternOk st (.table a) (.table t)) (importedTables { m with imports := l }) (es.filterMap Extern.table?) ∧
    Each (fun t a => ExternOk st (.mem a) (.mem t)) (importedMems { m with imports := l }) (es.filterMap Extern.mem?) ∧
    Each (fun t a => ExternOk st (.global a) (.global t)) (importedGlobals { m with imports := l }) (es.filterMap Extern.global?)
  | [], es, _, h => by
    have : es = [] := List.eq_nil_of_length_eq_zero h.1
    subst this
    exact ⟨each_nil, each_nil, each_nil, each_nil⟩
  | i :: l, es, hi, h => by
    have hi0 := hi i List.mem_cons_self
    obtain ⟨t, ht⟩ := Option.isSome_iff_exists.mp hi0
    rw [List.filterMap_cons, ht] at h
    obtain ⟨e, es, rfl, h1, h2⟩ := each_cons_inv h
    obtain ⟨i1, i2, i3, i4⟩ := imports_split l es (fun j hj => hi j (List.mem_cons_of_mem _ hj)) h2
    obtain ⟨mod, name, desc⟩ := i
    cases desc with
    | func x =>
      simp only [importType] at ht
      cases hx : m.types[x.toNat]? with
      | none => rw [hx] at ht; cases ht
      | some ft =>
        rw [hx] at ht
        cases ht
        cases e with
        | func a =>
          refine ⟨?_, i2, i3, i4⟩
          simp only [importedFuncs, List.filterMap_cons, hx, Extern.func?]
          exact each_cons h1 i1
        | _ => exact h1.elim
    | table tt =>
      cases ht
      cases e with
      | table a => exact ⟨i1, each_cons h1 i2, i3, i4⟩
      | _ => exact h1.elim
    | mem tt =>
      cases ht
      cases e with
      | mem a => exact ⟨i1, i2, each_cons h1 i3, i4⟩
      | _ => exact h1.elim
    | global tt =>
      cases ht
      cases e with
      | global a => exact ⟨i1, i2, i3, each_cons h1 i4⟩
      | _ => exact h1.elim

/-! ## Constants -/

theorem evalConst_ok {gs : List GlobalTy} {e : Expr} {t : Val} (h : SingleConst gs e t)
    (hg : Each (fun t a => ExternOk st (.global a) (.global t)) gs inst.globals) : ∃ v, evalConst M inst st e = some v ∧ v.type = t := by
  cases h with
  | i32 v => exact ⟨.i32 v, rfl, rfl⟩
  | i64 v => exact ⟨.i64 v, rfl, rfl⟩
  | f32 v => exact ⟨.f32 v, rfl, rfl⟩
  | f64 v => exact ⟨.f64 v, rfl, rfl⟩
  | @global x t h =>
    obtain ⟨a, ha, g, hga, _, hty⟩ := each_get hg h
    exact ⟨g.value, by simp only [evalConst, execs, exec, look, ha, hga, Option.bind_some, Option.map_some, push], hty⟩

theorem evalOffset_ok {gs : List GlobalTy} {e : Expr} (h : SingleConst gs e .i32)
    (hg : Each (fun t a => ExternOk st (.global a) (.global t)) gs inst.globals) : ∃ n, evalOffset M inst st e = some n := by
  obtain ⟨v, hv, ht⟩ := evalConst_ok (M := M) h hg
  cases v <;> cases ht
  exact ⟨_, by simp only [evalOffset, hv]; rfl⟩

/-! ## Allocation -/

theorem newFuncs_types : ∀ {l : List Func} {fs : List FuncInst}, all (newFunc m inst) l = some fs →
    l.filterMap (fun f => m.types[f.ty.toNat]?) = fs.map FuncInst.type ∧ fs.length = l.length ∧
    ∀ fi ∈ fs, ∃ t f, f ∈ l ∧ m.types[f.ty.toNat]? = some t ∧ fi = .own t inst f
  | [], fs, h => by cases h; exact ⟨rfl, rfl, fun _ h => by cases h⟩
  | f :: l, fs, h => by
    rw [all] at h
    split at h
    · rename_i y ys h1 h2
      cases h
      obtain ⟨i1, i2, i3⟩ := newFuncs_types h2
      cases ht : m.types[f.ty.toNat]? with
      | none => simp only [newFunc, ht, Option.map_none] at h1; cases h1
      | some t =>
        simp only [newFunc, ht, Option.map_some, Option.some.injEq] at h1
        subst h1
        refine ⟨?_, by simp [i2], fun fi hfi => ?_⟩
        · rw [List.filterMap_cons, ht, List.map_cons, ← i1]
          rfl
        · rcases List.mem_cons.mp hfi with rfl | hfi
          · exact ⟨t, f, List.mem_cons_self, ht, rfl⟩
          · obtain ⟨t', f', h1, h2⟩ := i3 fi hfi
            exact ⟨t', f', List.mem_cons_of_mem _ h1, h2⟩
    · cases h

theorem extends_allocated (fs : List FuncInst) (gs : List Value) : Extends st (allocated m st fs gs) := by
  refine ⟨⟨fs, rfl⟩, fun a x h => ⟨x, ?_, rfl, rfl⟩, fun a x h => ⟨x, ?_, rfl, Nat.le_refl _⟩, fun a x h => ⟨x, ?_, rfl, rfl, fun _ => rfl⟩⟩
  all_goals
    simp only [allocated]
    rw [List.getElem?_append_left (List.getElem?_eq_some_iff.mp h).1, h]

/-- What is needed of a module. -/
structure ModuleOk (m : Module) : Prop where
  decls : DeclsOk .code m
  inits : ∀ g ∈ m.globals, SingleConst (importedGlobals m) g.init g.ty.val
  elems : ∀ e ∈ m.elem, SingleConst (globalSpace m) e.offset .i32
  datas : ∀ d ∈ m.data, SingleConst (globalSpace m) d.offset .i32
  funcs : ∀ f ∈ m.funcs, ∃ t, m.types[f.ty.toNat]? = some t ∧
    HasTypes { bodyEnv .w3c m t f.locals with aligned := false } f.body [] t.results

theorem allocated_inst {imports : List Extern} (hi : ∀ i ∈ m.imports, (importType m i).isSome = true)
    (h : Each (fun t e => ExternOk st e t) (m.imports.filterMap (importType m)) imports) {fs : List FuncInst} {gs : List Value}
    (hf : all (newFunc m (newInst m imports st)) m.funcs = some fs) (hg : Each (fun (g : Global) (v : Value) => v.type = g.ty.val) m.globals gs) :
    InstOk (allocated m st fs gs) m (newInst m imports st) := by
  obtain ⟨i1, i2, i3, i4⟩ := imports_split m.imports imports hi (each_mono h fun t e he => he.mono (extends_allocated (m := m) fs gs))
  obtain ⟨f1, f2, _⟩ := newFuncs_types hf
  refine ⟨rfl, each_append i1 (each_range ?_ fun i t ht => ?_), each_append i2 (each_range (by simp) fun i t ht => ?_),
    each_append i3 (each_range (by simp) fun i t ht => ?_), each_append i4 (each_range (by simp [ownGlobals]) fun i t ht => ?_)⟩
  · rw [f1, List.length_map, f2]
  · rw [f1, List.getElem?_map] at ht
    cases hx : fs[i]? with
    | none => rw [hx] at ht; cases ht
    | some fi =>
      rw [hx] at ht
      cases ht
      refine ⟨fi, ?_, rfl⟩
      simp only [allocated]
      rw [List.getElem?_append_right (by omega), Nat.add_sub_cancel_left, hx]
  · rw [List.getElem?_map] at ht
    cases hx : m.tables[i]? with
    | none => rw [hx] at ht; cases ht
    | some x =>
      rw [hx] at ht
      cases ht
      refine ⟨newTable x.ty, ?_, by simp [newTable], fun n hn => ⟨n.toNat, by simp [newTable, hn], Nat.le_refl _⟩⟩
      simp only [allocated]
      rw [List.getElem?_append_right (by omega), Nat.add_sub_cancel_left, List.getElem?_map, hx]
      rfl
  · rw [List.getElem?_map] at ht
    cases hx : m.mems[i]? with
    | none => rw [hx] at ht; cases ht
    | some x =>
      rw [hx] at ht
      cases ht
      refine ⟨newMem x.ty, ?_, by simp [newMem], fun n hn => ⟨n.toNat, by simp [newMem, hn], Nat.le_refl _⟩⟩
      simp only [allocated]
      rw [List.getElem?_append_right (by omega), Nat.add_sub_cancel_left, List.getElem?_map, hx]
      rfl
  · rw [ownGlobals, List.getElem?_map] at ht
    cases hx : m.globals[i]? with
    | none => rw [hx] at ht; cases ht
    | some x =>
      rw [hx] at ht
      cases ht
      obtain ⟨v, hv, hty⟩ := each_get hg hx
      refine ⟨⟨x.ty.mt, v⟩, ?_, rfl, hty⟩
      simp only [allocated]
      rw [List.getElem?_append_right (by omega), Nat.add_sub_cancel_left, List.getElem?_map, List.zip, List.getElem?_zipWith, hx, hv]
      rfl

theorem allocated_ok (hm : ModuleOk m) (hst : StoreOk st) {fs : List FuncInst} {gs : List Value}
    (hf : all (newFunc m inst) m.funcs = some fs) (hi : InstOk (allocated m st fs gs) m inst) : StoreOk (allocated m st fs gs) := by
  obtain ⟨_, _, f3⟩ := newFuncs_types hf
  refine ⟨fun fi h => ?_, fun tb h => ?_, fun x h => ?_⟩
  · rcases List.mem_append.mp h with h | h
    · exact (hst.funcs fi h).mono (extends_allocated fs gs)
    · obtain ⟨t, f, h1, h2, rfl⟩ := f3 fi h
      obtain ⟨t', h3, h4⟩ := hm.funcs f h1
      rw [h2] at h3
      cases h3
      exact ⟨m, hi, h4⟩
  · rcases List.mem_append.mp h with h | h
    · refine ⟨(hst.tables tb h).1, fun a ha => ?_⟩
      have := (hst.tables tb h).2 a ha
      simp only [allocated, List.length_append]
      omega
    · obtain ⟨x, hx, rfl⟩ := List.mem_map.mp h
      refine ⟨fun n hn => ?_, fun a ha => by simp [newTable] at ha⟩
      simp only [newTable] at hn ⊢
      cases hl : x.ty.lim.max with
      | none => rw [hl] at hn; cases hn
      | some k =>
        rw [hl] at hn
        cases hn
        simpa using ((hm.decls.tables x hx).2 k hl).2
  · rcases List.mem_append.mp h with h | h
    · exact hst.mems x h
    · obtain ⟨y, hy, rfl⟩ := List.mem_map.mp h
      exact (newMem_ok (hm.decls.mems y hy)).limit

/-! ## Segments -/

theorem mem_modify {α : Type} {l : List α} {i : Nat} {f : α → α} {y : α} (h : y ∈ l.modify i f) : y ∈ l ∨ ∃ x, l[i]? = some x ∧ y = f x := by
  obtain ⟨j, hj⟩ := List.mem_iff_getElem?.mp h
  rw [List.getElem?_modify] at hj
  cases hx : l[j]? with
  | none => rw [hx] at hj; cases hj
  | some x =>
    rw [hx] at hj
    simp only [Option.map_eq_map, Option.map_some, Option.some.injEq] at hj
    subst hj
    split
    · subst_vars
      exact .inr ⟨x, hx, rfl⟩
    · exact .inl (List.mem_of_getElem? hx)

theorem writeElem_ok (h : StoreOk st) (hi : ∀ (x a : Nat), inst.funcs[x]? = some a → a < st.funcs.length) (e : Elem × Nat) :
    StoreOk (writeElem inst st e) ∧ Extends st (writeElem inst st e) := by
  unfold writeElem
  split
  · rename_i a _
    have he : Extends st { st with tables := st.tables.modify a fun tb =>
        { tb with elem := overwrite e.2 (e.1.init.map fun x => inst.funcs[x.toNat]?) tb.elem } } := by
      refine ⟨⟨[], by simp⟩, fun b tb hb => ?_, fun _ x h => ⟨x, h, rfl, Nat.le_refl _⟩, fun _ g h => ⟨g, h, rfl, rfl, fun _ => rfl⟩⟩
      simp only
      rw [List.getElem?_modify, hb]
      by_cases hab : a = b
      · simp only [hab, if_true]
        exact ⟨_, rfl, rfl, length_overwrite _ _ _⟩
      · simp only [hab, if_false]
        exact ⟨tb, rfl, rfl, rfl⟩
    refine ⟨⟨fun fi hf => (h.funcs fi hf).mono he, fun tb ht => ?_, h.mems⟩, he⟩
    rcases mem_modify ht with ht | ⟨x, hx, rfl⟩
    · exact h.tables tb ht
    · have hx := h.tables x (List.mem_of_getElem? hx)
      refine ⟨fun n hn => ?_, fun b hb => ?_⟩
      · rw [length_overwrite]; exact hx.1 n hn
      · rcases mem_overwrite hb with hb | hb
        · exact hx.2 b hb
        · obtain ⟨y, hy, h⟩ := List.mem_map.mp hb
          exact hi _ _ h
  · exact ⟨h, extends_refl st⟩

theorem writeData_ok (h : StoreOk st) (d : Data × Nat) :
    StoreOk (writeData inst st d) ∧ Extends st (writeData inst st d) := by
  unfold writeData
  split
  · rename_i a _
    have he : Extends st { st with mems := st.mems.modify a fun x =>
        { x with byte := fun i => if d.2 ≤ i then d.1.init[i - d.2]?.getD (x.byte i) else x.byte i } } := by
      refine ⟨⟨[], by simp⟩, fun _ tb h => ⟨tb, h, rfl, rfl⟩, fun b x hb => ?_, fun _ g h => ⟨g, h, rfl, rfl, fun _ => rfl⟩⟩
      simp only
      rw [List.getElem?_modify, hb]
      by_cases hab : a = b
      · simp only [hab, if_true]
        exact ⟨_, rfl, rfl, Nat.le_refl _⟩
      · simp only [hab, if_false]
        exact ⟨x, rfl, rfl, Nat.le_refl _⟩
    refine ⟨⟨fun fi hf => (h.funcs fi hf).mono he, h.tables, fun x hx => ?_⟩, he⟩
    rcases mem_modify hx with hx | ⟨y, hy, rfl⟩
    · exact h.mems x hx
    · exact h.mems y (List.mem_of_getElem? hy)
  · exact ⟨h, extends_refl st⟩

theorem func_lt (hi : InstOk st m inst) {x a : Nat} (h : inst.funcs[x]? = some a) : a < st.funcs.length := by
  have hx : x < (funcSpace m).length := by rw [← hi.funcs.1]; exact (List.getElem?_eq_some_iff.mp h).1
  obtain ⟨fi, h1, _⟩ := hi.funcs.2 x _ a (List.getElem?_eq_getElem hx) h
  exact (List.getElem?_eq_some_iff.mp h1).1

theorem writeElems_ok : ∀ (es : List (Elem × Nat)) {st : Store}, StoreOk st → InstOk st m inst →
    StoreOk (es.foldl (writeElem inst) st) ∧ Extends st (es.foldl (writeElem inst) st)
  | [], st, h, _ => ⟨h, extends_refl st⟩
  | e :: es, st, h, hi => by
    obtain ⟨h1, h2⟩ := writeElem_ok h (fun _ _ => func_lt hi) e
    obtain ⟨h3, h4⟩ := writeElems_ok es h1 (hi.mono h2)
    exact ⟨h3, extends_trans h2 h4⟩

theorem writeDatas_ok : ∀ (ds : List (Data × Nat)) {st : Store}, StoreOk st →
    StoreOk (ds.foldl (writeData inst) st) ∧ Extends st (ds.foldl (writeData inst) st)
  | [], st, h => ⟨h, extends_refl st⟩
  | d :: ds, st, h => by
    obtain ⟨h1, h2⟩ := writeData_ok (inst := inst) h d
    obtain ⟨h3, h4⟩ := writeDatas_ok ds h1
    exact ⟨h3, extends_trans h2 h4⟩

/-! ## Exports -/

theorem exportVal_ok (hi : InstOk st m inst) {e : Export} {t : External} (h : exportType m e = some t) :
    ∃ v, exportVal inst e = some v ∧ ExternOk st v t := by
  obtain ⟨name, desc⟩ := e
  cases desc with
  | func x =>
    simp only [exportType] at h
    cases hx : (funcSpace m)[x.toNat]? with
    | none => rw [hx] at h; cases h
    | some y =>
      rw [hx] at h
      cases h
      obtain ⟨a, ha, hok⟩ := each_get hi.funcs hx
      exact ⟨.func a, by simp only [exportVal, ha, Option.map_some], hok⟩
  | table x =>
    simp only [exportType] at h
    cases hx : (tableSpace m)[x.toNat]? with
    | none => rw [hx] at h; cases h
    | some y =>
      rw [hx] at h
      cases h
      obtain ⟨a, ha, hok⟩ := each_get hi.tables hx
      exact ⟨.table a, by simp only [exportVal, ha, Option.map_some], hok⟩
  | mem x =>
    simp only [exportType] at h
    cases hx : (memSpace m)[x.toNat]? with
    | none => rw [hx] at h; cases h
    | some y =>
      rw [hx] at h
      cases h
      obtain ⟨a, ha, hok⟩ := each_get hi.mems hx
      exact ⟨.mem a, by simp only [exportVal, ha, Option.map_some], hok⟩
  | global x =>
    simp only [exportType] at h
    cases hx : (globalSpace m)[x.toNat]? with
    | none => rw [hx] at h; cases h
    | some y =>
      rw [hx] at h
      cases h
      obtain ⟨a, ha, hok⟩ := each_get hi.globals hx
      exact ⟨.global a, by simp only [exportVal, ha, Option.map_some], hok⟩

theorem exports_ok (hi : InstOk st m inst) : ∀ {l : List Export}, (∀ e ∈ l, (exportType m e).isSome = true) →
    Each (fun t e => ExternOk st e t) (l.filterMap (exportType m)) (l.filterMap (exportVal inst)) ∧ (l.filterMap (exportVal inst)).length = l.length
  | [], _ => ⟨each_nil, rfl⟩
  | e :: l, h => by
    obtain ⟨t, ht⟩ := Option.isSome_iff_exists.mp (h e List.mem_cons_self)
    obtain ⟨v, hv, hok⟩ := exportVal_ok hi ht
    obtain ⟨h1, h2⟩ := exports_ok hi (l := l) fun e he => h e (List.mem_cons_of_mem _ he)
    rw [List.filterMap_cons, List.filterMap_cons, ht, hv]
    exact ⟨each_cons hok h1, by simp [h2]⟩

theorem each_zip {α β : Type} {R : α → β → Prop} {ts : List α} {xs : List β} (h : Each R ts xs) {x : β} {t : α} (hz : (x, t) ∈ xs.zip ts) : R t x := by
  obtain ⟨i, hi⟩ := List.mem_iff_getElem?.mp hz
  rw [List.zip, List.getElem?_zipWith] at hi
  cases hx : xs[i]? with
  | none => rw [hx] at hi; cases hi
  | some x' =>
    cases ht : ts[i]? with
    | none => rw [hx, ht] at hi; cases hi
    | some t' =>
      rw [hx, ht] at hi
      cases hi
      exact h.2 i t x ht hx

/-! ## Instantiation -/

theorem SystemOk.extend {s : System} (h : SystemOk s) (hst : StoreOk st) (he : Extends s.store st) : SystemOk ⟨st, s.pool⟩ :=
  ⟨hst, fun e t hp => (h.pool e t hp).mono he⟩

theorem runStart_ok (hn : NumOk M) (hh : HostOk M) (hm : ModuleOk m) {s : System} (hs : SystemOk s) (hst : StoreOk st) (he : Extends s.store st)
    (hi : InstOk st m inst) (fuel : Nat) : StartedOk s m (externals m) (runStart M m inst fuel st) := by
  have fin : ∀ {st : Store}, StoreOk st → Extends s.store st → InstOk st m inst → StartedOk s m (externals m) (.ok inst st) := by
    intro st hst he hi
    obtain ⟨h1, h2⟩ := exports_ok hi hm.decls.exports
    refine ⟨⟨hst, fun e t hp => ?_⟩, he, h2⟩
    rcases List.mem_append.mp hp with hp | hp
    · exact (hs.pool e t hp).mono he
    · exact each_zip h1 hp
  unfold runStart
  cases hstart : m.start with
  | none => exact fin hst he hi
  | some sf =>
    obtain ⟨a, ha, fi, hf, ht⟩ := each_get hi.funcs (hm.decls.start sf hstart)
    have := invoke_ok hn hh hf hst (args := []) (by rw [ht]; rfl) fuel
    simp only [ha]
    cases ho : invoke M fuel a [] st with
    | values vs st' =>
      rw [ho, ht] at this
      obtain ⟨h1, h2, h3⟩ := this
      have : vs = [] := by simpa using h1
      subst this
      exact fin h2 (extends_trans he h3) (hi.mono h3)
    | trap st' => rw [ho] at this; exact ⟨hs.extend this.1 (extends_trans he this.2), extends_trans he this.2⟩
    | timeout => trivial
    | stuck => rw [ho] at this; exact this

theorem instantiate_ok (hn : NumOk M) (hh : HostOk M) (hm : ModuleOk m) {s : System} (hs : SystemOk s) {imports : List Extern}
    (hr : Resolved s.pool (externals m).imports imports) (fuel : Nat) :
    StartedOk s m (externals m) (instantiate M m imports fuel s.store) := by
  have himp : Each (fun t e => ExternOk s.store e t) (m.imports.filterMap (importType m)) imports :=
    each_mono hr fun t e ⟨t', h1, h2⟩ => extern_match (hs.pool e t' h1) h2
  obtain ⟨_, _, _, i4⟩ := imports_split m.imports imports hm.decls.imports himp
  obtain ⟨gs, hgs, hty⟩ := all_ok (f := fun (g : Global) => evalConst M (auxInst imports) s.store g.init) (R := fun g v => v.type = g.ty.val)
    fun g hg => evalConst_ok (hm.inits g hg) i4
  obtain ⟨fs, hfs, _⟩ := all_ok (f := newFunc m (newInst m imports s.store)) (R := fun _ _ => True) (l := m.funcs)
    fun f hf => by
      obtain ⟨t, ht, _⟩ := hm.funcs f hf
      exact ⟨_, by simp only [newFunc, ht, Option.map_some]; rfl, trivial⟩
  have hi := allocated_inst hm.decls.imports himp hfs hty
  have hst := allocated_ok hm hs.store hfs hi
  have he := extends_allocated (m := m) (st := s.store) fs gs
  obtain ⟨eo, heo, _⟩ := all_ok (f := fun (e : Elem) => evalOffset M (newInst m imports s.store) (allocated m s.store fs gs) e.offset)
    (R := fun _ _ => True) (l := m.elem) fun e hm' => by
      obtain ⟨n, hn⟩ := evalOffset_ok (M := M) (hm.elems e hm') hi.globals
      exact ⟨n, hn, trivial⟩
  obtain ⟨dof, hdo, _⟩ := all_ok (f := fun (d : Data) => evalOffset M (newInst m imports s.store) (allocated m s.store fs gs) d.offset)
    (R := fun _ _ => True) (l := m.data) fun e hm' => by
      obtain ⟨n, hn⟩ := evalOffset_ok (M := M) (hm.datas e hm') hi.globals
      exact ⟨n, hn, trivial⟩
  obtain ⟨be, hbe, _⟩ := all_ok (f := elemFits (newInst m imports s.store) (allocated m s.store fs gs)) (R := fun _ _ => True) (l := m.elem.zip eo)
    fun e hm' => by
      have hm' := (List.of_mem_zip hm').1
      obtain ⟨⟨t, ht, _⟩, _, hx⟩ := hm.decls.elem e.1 hm'
      obtain ⟨a, ha, tb, htb, _⟩ := each_get hi.tables ht
      have : e.1.init.all (fun x => decide (x.toNat < (newInst m imports s.store).funcs.length)) = true := by
        rw [List.all_eq_true]
        intro x h
        rw [hi.funcs.1]
        exact decide_eq_true (hx x h)
      exact ⟨_, by simp only [elemFits, look, ha, htb, Option.bind_some, Option.map_some, this, if_true]; rfl, trivial⟩
  obtain ⟨bd, hbd, _⟩ := all_ok (f := dataFits (newInst m imports s.store) (allocated m s.store fs gs)) (R := fun _ _ => True) (l := m.data.zip dof)
    fun d hm' => by
      have hm' := (List.of_mem_zip hm').1
      obtain ⟨a, ha, x, hx, _⟩ := each_get hi.mems (List.getElem?_eq_getElem (hm.decls.data d.1 hm').1)
      exact ⟨_, by simp only [dataFits, look, ha, hx, Option.bind_some, Option.map_some]; rfl, trivial⟩
  simp only [instantiate, hgs, hfs, heo, hdo, hbe, hbd]
  split
  · obtain ⟨h1, h2⟩ := writeElems_ok (m.elem.zip eo) hst hi
    obtain ⟨h3, h4⟩ := writeDatas_ok (inst := newInst m imports s.store) (m.data.zip dof) h1
    have h5 := extends_trans h2 h4
    exact runStart_ok hn hh hm hs h3 (extends_trans he h5) (hi.mono h5) fuel
  · exact ⟨hs.extend hst he, he⟩

end Whasm.Link
