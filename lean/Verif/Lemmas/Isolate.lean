import Verif.Spec.Isolate
import Verif.Lemmas.LinkInst

/-!
# What the execution of code changes, and what it depends on (C98)
-/

namespace Whasm.Link
open Spec
open Run (Value MemInst popArgs zero readMem writeMem loaded pageLimit Each overwrite all newMem)

variable {M : Machine} {A : Area} {st st' : Store} {inst : Inst}

/-! ## Stores -/

theorem untouched_refl (A : Area) (st : Store) : Untouched A st st := ⟨⟨[], by simp⟩, fun _ _ => rfl, fun _ _ => rfl, fun _ _ => rfl, fun _ => rfl⟩

theorem untouched_trans {a b c : Store} (h : Untouched A a b) (h' : Untouched A b c) : Untouched A a c := by
  refine ⟨?_, fun i hi => (h'.tables i hi).trans (h.tables i hi), fun i hi => (h'.mems i hi).trans (h.mems i hi),
    fun i hi => (h'.globals i hi).trans (h.globals i hi), fun hw => (h'.world hw).trans (h.world hw)⟩
  obtain ⟨l, hl⟩ := h.funcs
  obtain ⟨l', hl'⟩ := h'.funcs
  exact ⟨l ++ l', by rw [hl', hl, List.append_assoc]⟩

/-- The invariant. -/
def Within (A : Area) (st st' : Store) : Prop := Sealed A st' ∧ Untouched A st st'

theorem Within.trans {a b c : Store} (h : Untouched A a b) (h' : Within A b c) : Within A a c := ⟨h'.1, untouched_trans h h'.2⟩

def WithinO (A : Area) (st : Store) : Outcome → Prop
  | .normal c => Within A st c.store
  | .br _ c => Within A st c.store
  | .ret c => Within A st c.store
  | .trap st' => Within A st st'
  | .timeout | .stuck => True

theorem WithinO.trans (h : Untouched A st st') : ∀ {o : Outcome}, WithinO A st' o → WithinO A st o
  | .normal _, h' | .br _ _, h' | .ret _, h' | .trap _, h' => Within.trans h h'
  | .timeout, _ | .stuck, _ => trivial

theorem look_eq_some {α : Type} {as : List Nat} {objs : List α} {x a : Nat} {o : α} (h : look as objs x = some (a, o)) :
    as[x]? = some a ∧ objs[a]? = some o := by
  unfold look at h
  cases h1 : as[x]? with
  | none => simp [h1] at h
  | some b =>
    cases h2 : objs[b]? with
    | none => simp [h1, h2] at h
    | some p =>
      simp [h1, h2] at h
      obtain ⟨rfl, rfl⟩ := h
      exact ⟨rfl, h2⟩

theorem look_mem_area {α : Type} {as : List Nat} {objs : List α} {x a : Nat} {o : α} {P : Nat → Prop} (hP : ∀ a ∈ as, P a)
    (h : look as objs x = some (a, o)) : P a := hP a (List.mem_of_getElem? (look_eq_some h).1)

/-- A change of a memory of the part. -/
theorem within_mem (h : Sealed A st) {y : Nat} (hy : A.mems y) (m : MemInst) : Within A st { st with mems := st.mems.set y m } := by
  refine ⟨⟨h.funcs, h.tables⟩, ⟨⟨[], by simp⟩, fun _ _ => rfl, fun a ha => ?_, fun _ _ => rfl, fun _ => rfl⟩⟩
  rw [List.getElem?_set_ne]
  rintro rfl
  exact ha hy

theorem within_global (h : Sealed A st) {y : Nat} (hy : A.globals y) (g : GlobalInst) : Within A st { st with globals := st.globals.set y g } := by
  refine ⟨⟨h.funcs, h.tables⟩, ⟨⟨[], by simp⟩, fun _ _ => rfl, fun _ _ => rfl, fun a ha => ?_, fun _ => rfl⟩⟩
  rw [List.getElem?_set_ne]
  rintro rfl
  exact ha hy

/-! ## Execution changes only the part -/

theorem push_within {v : Value} {c : Conf} (h : Within A st c.store) : WithinO A st (push v c) := h

theorem pop_within {c : Conf} {k : Value → Conf → Outcome} (h : ∀ v s, WithinO A st (k v { c with stack := s })) : WithinO A st (pop c k) := by
  unfold pop
  split
  · exact h _ _
  · trivial

theorem popI32_within {c : Conf} {k : BitVec 32 → Conf → Outcome} (h : ∀ v s, WithinO A st (k v { c with stack := s })) :
    WithinO A st (popI32 c k) := by
  unfold popI32
  split
  · exact h _ _
  · trivial

theorem leave_within {r : List Val} {outer : List Value} : ∀ {o : Outcome}, WithinO A st o → WithinO A st (leave r outer o)
  | .normal _, h => h
  | .br 0 c, h => by
    show WithinO A st (match popArgs r c.stack with
      | some (vs, _) => .normal { c with stack := vs.reverse ++ outer }
      | none => .stuck)
    cases popArgs r c.stack with
    | none => trivial
    | some p => exact h
  | .br (_ + 1) _, h => h
  | .ret _, h | .trap _, h => h
  | .timeout, _ | .stuck, _ => trivial

theorem results_within {t : FuncTy} {caller c : Conf} (h : Within A st c.store) :
    WithinO A st (match popArgs t.results c.stack with
      | some (vs, _) => .normal ⟨c.store, caller.locals, vs.reverse ++ caller.stack⟩
      | none => .stuck) := by
  cases popArgs t.results c.stack with
  | none => trivial
  | some p => exact h

theorem leaveFunc_within {t : FuncTy} {caller : Conf} : ∀ {o : Outcome}, WithinO A st o → WithinO A st (leaveFunc t caller o)
  | .normal c, h => by
    show WithinO A st (match popArgs t.results c.stack with
      | some (vs, []) => .normal ⟨c.store, caller.locals, vs.reverse ++ caller.stack⟩
      | _ => .stuck)
    cases popArgs t.results c.stack with
    | none => trivial
    | some p =>
      obtain ⟨vs, rest⟩ := p
      cases rest with
      | nil => exact h
      | cons => trivial
  | .br 0 c, h => results_within h
  | .ret c, h => results_within h
  | .br (_ + 1) _, h => trivial
  | .trap _, h => h
  | .timeout, _ | .stuck, _ => trivial

theorem execs_within {step : Instr → Conf → Outcome} (hs : ∀ i c, Sealed A c.store → WithinO A c.store (step i c)) :
    ∀ (is : List Instr) (c : Conf), Sealed A c.store → WithinO A c.store (execs step is c)
  | [], c, h => ⟨h, untouched_refl A _⟩
  | i :: is, c, h => by
    have h1 := hs i c h
    unfold execs
    split
    · next c' e =>
      rw [e] at h1
      exact WithinO.trans h1.2 (execs_within hs is c' h1.1)
    · exact h1

theorem call_within (hh : HostKeeps M A) {step : Inst → Instr → Conf → Outcome}
    (hs : ∀ inst, A.Holds inst → ∀ i c, Sealed A c.store → WithinO A c.store (step inst i c)) {c : Conf} (h : Sealed A c.store)
    {a : Nat} {fi : FuncInst} (ha : A.funcs a) (hf : c.store.funcs[a]? = some fi) : WithinO A c.store (call M step fi c) := by
  unfold call
  cases popArgs fi.type.params c.stack with
  | none => trivial
  | some p =>
    obtain ⟨args, rest⟩ := p
    cases fi with
    | own t inst f => exact leaveFunc_within (execs_within (hs inst (h.funcs a t inst f ha hf)) f.body ⟨c.store, _, []⟩ h)
    | host t id =>
      have h1 := hh a t id c.store args ha hf h
      dsimp only
      generalize M.host id c.store args = r at h1
      obtain ⟨st', res⟩ := r
      cases res with
      | some vs => exact h1
      | none => exact h1

theorem exec_within (hh : HostKeeps M A) : ∀ (n : Nat) (inst : Inst), A.Holds inst → ∀ (i : Instr) (c : Conf), Sealed A c.store →
    WithinO A c.store (exec M n inst i c)
  | 0, _, _, _, _, _ => by unfold exec; trivial
  | n + 1, inst, hi, i, c, h => by
    have ih := exec_within hh n
    have h0 : Within A c.store c.store := ⟨h, untouched_refl A _⟩
    unfold exec
    cases i with
    | unreachable => exact h0
    | nop => exact h0
    | block r body => exact leave_within (execs_within (ih inst hi) body { c with stack := [] } h)
    | loop r body =>
      have h1 := execs_within (ih inst hi) body { c with stack := [] } h
      dsimp only
      split
      · next c' e =>
        rw [e] at h1
        exact WithinO.trans h1.2 (ih inst hi (.loop r body) { c' with stack := c.stack } h1.1)
      · exact leave_within h1
    | ifElse r thn els =>
      exact popI32_within fun v s => leave_within (execs_within (ih inst hi) _ ⟨c.store, c.locals, []⟩ h)
    | elseMark => trivial
    | endMark => trivial
    | br l => exact h0
    | brIf l =>
      refine popI32_within fun v s => ?_
      split
      · exact h0
      · exact h0
    | brTable ls l => exact popI32_within fun v s => h0
    | ret => exact h0
    | call x =>
      dsimp only
      split
      · next e => exact call_within hh ih h (look_mem_area hi.funcs e) (look_eq_some e).2
      · trivial
    | callIndirect x y =>
      dsimp only
      split
      · next tb t e _ =>
        refine popI32_within fun v s => ?_
        dsimp only
        split
        · next a hel =>
          split
          · next fi hfi =>
            split
            · have hy := look_mem_area hi.tables e
              exact call_within (c := { c with stack := s }) hh ih h (h.tables _ _ hy (look_eq_some e).2 a (List.mem_of_getElem? hel)) hfi
            · exact h0
          · trivial
        · exact h0
      · trivial
    | drop => exact pop_within fun v s => h0
    | select =>
      refine popI32_within fun b s => pop_within fun w s => pop_within fun v s => ?_
      split
      · exact h0
      · trivial
    | localGet x =>
      dsimp only
      split
      · exact h0
      · trivial
    | localSet x =>
      refine pop_within fun v s => ?_
      dsimp only
      split
      · exact h0
      · trivial
    | localTee x =>
      refine pop_within fun v s => ?_
      dsimp only
      split
      · exact h0
      · trivial
    | globalGet x =>
      dsimp only
      split
      · exact h0
      · trivial
    | globalSet x =>
      refine pop_within fun v s => ?_
      dsimp only
      split
      · next a g e =>
        split
        · exact within_global h (look_mem_area hi.globals e) _
        · trivial
      · trivial
    | load op al off =>
      dsimp only
      split
      · refine popI32_within fun v s => ?_
        dsimp only
        split
        · exact h0
        · exact h0
      · trivial
    | store op al off =>
      dsimp only
      split
      · next y m e =>
        refine pop_within fun v s => popI32_within fun w s => ?_
        dsimp only
        split
        · split
          · exact within_mem h (look_mem_area hi.mems e) _
          · exact h0
        · trivial
      · trivial
    | memSize x =>
      dsimp only
      split
      · exact h0
      · trivial
    | memGrow x =>
      dsimp only
      split
      · next y m e =>
        refine popI32_within fun w s => ?_
        dsimp only
        split
        · exact within_mem h (look_mem_area hi.mems e) _
        · exact h0
      · trivial
    | constI32 v => exact h0
    | constI64 v => exact h0
    | constF32 v => exact h0
    | constF64 v => exact h0
    | num op =>
      dsimp only
      split
      · split
        · exact h0
        · exact h0
      · trivial

theorem invoke_within (hh : HostKeeps M A) (h : Sealed A st) {a : Nat} (ha : A.funcs a) (fuel : Nat) (args : List Value) :
    CalledWithin A st (invoke M fuel a args st) := by
  unfold invoke
  split
  · trivial
  · next fi hf =>
    have h1 := call_within (c := ⟨st, [], args.reverse⟩) hh (exec_within hh fuel) h ha hf
    split
    · next e => rw [e] at h1; exact h1
    · next e => rw [e] at h1; exact h1
    · trivial
    · trivial

/-! ## Instantiation changes only the part -/

variable {m : Module} {imports : List Extern}

theorem newInst_holds (hn : A.New st) (hi : ∀ e ∈ imports, A.Has e) : A.Holds (newInst m imports st) := by
  refine ⟨fun a ha => ?_, fun a ha => ?_, fun a ha => ?_, fun a ha => ?_⟩
  all_goals
    rcases List.mem_append.mp ha with h | h
    · obtain ⟨e, he, h1⟩ := List.mem_filterMap.mp h
      have := hi e he
      cases e <;> simp only [Extern.func?, Extern.table?, Extern.mem?, Extern.global?, Option.some.injEq, reduceCtorEq] at h1
      subst h1
      exact this
    · obtain ⟨k, _, rfl⟩ := List.mem_map.mp h
      first
        | exact hn.funcs _ (Nat.le_add_right _ _)
        | exact hn.tables _ (Nat.le_add_right _ _)
        | exact hn.mems _ (Nat.le_add_right _ _)
        | exact hn.globals _ (Nat.le_add_right _ _)

theorem get_append {α : Type} {l k : List α} {P : Nat → Prop} (hP : ∀ a, l.length ≤ a → P a) (a : Nat) (h : ¬ P a) : (l ++ k)[a]? = l[a]? :=
  List.getElem?_append_left (Nat.lt_of_not_le fun h' => h (hP a h'))

theorem allocated_within (h : Sealed A st) (hn : A.New st) (hi : A.Holds (newInst m imports st)) {fs : List FuncInst}
    (hf : all (newFunc m (newInst m imports st)) m.funcs = some fs) (gs : List Value) : Within A st (allocated m st fs gs) := by
  refine ⟨⟨fun a t inst f ha he => ?_, fun a tb ha he b hb => ?_⟩,
    ⟨⟨fs, rfl⟩, get_append hn.tables, get_append hn.mems, get_append hn.globals, fun _ => rfl⟩⟩
  · simp only [allocated] at he
    by_cases hl : a < st.funcs.length
    · rw [List.getElem?_append_left hl] at he
      exact h.funcs a t inst f ha he
    · rw [List.getElem?_append_right (by omega)] at he
      obtain ⟨t', f', _, _, e⟩ := (newFuncs_types hf).2.2 _ (List.mem_of_getElem? he)
      cases e
      exact hi
  · simp only [allocated] at he
    by_cases hl : a < st.tables.length
    · rw [List.getElem?_append_left hl] at he
      exact h.tables a tb ha he b hb
    · rw [List.getElem?_append_right (by omega)] at he
      obtain ⟨x, _, rfl⟩ := List.mem_map.mp (List.mem_of_getElem? he)
      exact nomatch (List.mem_replicate.mp hb).2

theorem writeElem_within (h : Sealed A st) (hi : A.Holds inst) (e : Elem × Nat) : Within A st (writeElem inst st e) := by
  unfold writeElem
  split
  · next a ha =>
    have hA := hi.tables a (List.mem_of_getElem? ha)
    refine ⟨⟨h.funcs, fun b tb hb he c hc => ?_⟩, ⟨⟨[], by simp⟩, fun b hb => ?_, fun _ _ => rfl, fun _ _ => rfl, fun _ => rfl⟩⟩
    · simp only at he
      rw [List.getElem?_modify] at he
      cases hx : st.tables[b]? with
      | none => rw [hx] at he; cases he
      | some x =>
        rw [hx] at he
        simp only [Option.map_eq_map, Option.map_some, Option.some.injEq] at he
        subst he
        split at hc
        · rcases Run.mem_overwrite hc with hc | hc
          · exact h.tables b x hb hx c hc
          · obtain ⟨y, _, h1⟩ := List.mem_map.mp hc
            exact hi.funcs c (List.mem_of_getElem? h1)
        · exact h.tables b x hb hx c hc
    · have hne : a ≠ b := fun e => hb (e ▸ hA)
      simp only
      rw [List.getElem?_modify]
      simp [hne]
  · exact ⟨h, untouched_refl A st⟩

theorem writeData_within (h : Sealed A st) (hi : A.Holds inst) (d : Data × Nat) : Within A st (writeData inst st d) := by
  unfold writeData
  split
  · next a ha =>
    have hA := hi.mems a (List.mem_of_getElem? ha)
    refine ⟨⟨h.funcs, h.tables⟩, ⟨⟨[], by simp⟩, fun _ _ => rfl, fun b hb => ?_, fun _ _ => rfl, fun _ => rfl⟩⟩
    have hne : a ≠ b := fun e => hb (e ▸ hA)
    simp only
    rw [List.getElem?_modify]
    simp [hne]
  · exact ⟨h, untouched_refl A st⟩

theorem foldl_within {α : Type} {f : Store → α → Store} (hf : ∀ st x, Sealed A st → Within A st (f st x)) :
    ∀ (l : List α) (st : Store), Sealed A st → Within A st (l.foldl f st)
  | [], st, h => ⟨h, untouched_refl A st⟩
  | x :: l, st, h => Within.trans (hf st x h).2 (foldl_within hf l _ (hf st x h).1)

theorem runStart_within (hh : HostKeeps M A) (hi : A.Holds inst) (hu : Within A st st') (fuel : Nat) :
    StartedWithin A st (runStart M m inst fuel st') := by
  unfold runStart
  split
  · exact ⟨hi, hu⟩
  · split
    · trivial
    · next a ha =>
      have h1 := invoke_within hh hu.1 (hi.funcs a (List.mem_of_getElem? ha)) fuel []
      split
      · next e => rw [e] at h1; exact ⟨hi, Within.trans hu.2 h1⟩
      · next e => rw [e] at h1; exact Within.trans hu.2 h1
      · trivial
      · trivial

theorem instantiate_within (hh : HostKeeps M A) (h : Sealed A st) (hn : A.New st) (hi : ∀ e ∈ imports, A.Has e) (fuel : Nat) :
    StartedWithin A st (instantiate M m imports fuel st) := by
  have hI : A.Holds (newInst m imports st) := newInst_holds hn hi
  unfold instantiate
  dsimp only
  split
  · next gs fs _ hfs =>
    have h1 := allocated_within (m := m) h hn hI hfs gs
    split
    · next eo dof _ _ =>
      split
      · split
        · refine runStart_within hh hI ?_ fuel
          have h2 := foldl_within (fun st x hs => writeElem_within hs hI x) (m.elem.zip eo) _ h1.1
          have h3 := foldl_within (fun st x hs => writeData_within hs hI x) (m.data.zip dof) _ h2.1
          exact Within.trans h1.2 (Within.trans h2.2 h3)
        · exact h1
      · trivial
    · trivial
  · trivial

/-! ## Execution depends only on the part -/

theorem sealed_same (h : Sealed A st) (hs : SameIn A st st') : Sealed A st' :=
  ⟨fun a t inst f ha he => h.funcs a t inst f ha (by rw [← hs.funcs a ha]; exact he),
    fun a tb ha he => h.tables a tb ha (by rw [← hs.tables a ha]; exact he)⟩

/-- The stores are the same in the part, from which no way leads out. -/
def Twin (A : Area) (st st' : Store) : Prop := Sealed A st ∧ SameIn A st st'

def TwinC (A : Area) (c c' : Conf) : Prop := Twin A c.store c'.store ∧ c'.locals = c.locals ∧ c'.stack = c.stack

inductive TwinO (A : Area) : Outcome → Outcome → Prop
  | normal {c c' : Conf} : TwinC A c c' → TwinO A (.normal c) (.normal c')
  | br {l : Nat} {c c' : Conf} : TwinC A c c' → TwinO A (.br l c) (.br l c')
  | ret {c c' : Conf} : TwinC A c c' → TwinO A (.ret c) (.ret c')
  | trap {st st' : Store} : Twin A st st' → TwinO A (.trap st) (.trap st')
  | timeout : TwinO A .timeout .timeout
  | stuck : TwinO A .stuck .stuck

theorem look_same {α : Type} {as : List Nat} {objs objs' : List α} (h : ∀ a ∈ as, objs'[a]? = objs[a]?) (x : Nat) :
    look as objs' x = look as objs x := by
  unfold look
  cases hx : as[x]? with
  | none => rfl
  | some a => simp only [Option.bind_some, h a (List.mem_of_getElem? hx)]

theorem getElem?_set_same {α : Type} {P : Nat → Prop} {l l' : List α} (h : ∀ a, P a → l'[a]? = l[a]?) (y : Nat) (x : α) (a : Nat) (ha : P a) :
    (l'.set y x)[a]? = (l.set y x)[a]? := by
  by_cases hy : y = a
  · subst hy
    rw [List.getElem?_set_self', List.getElem?_set_self', h y ha]
  · rw [List.getElem?_set_ne hy, List.getElem?_set_ne hy, h a ha]

theorem twin_mem (h : Twin A st st') (y : Nat) (m : MemInst) :
    Twin A { st with mems := st.mems.set y m } { st' with mems := st'.mems.set y m } :=
  ⟨⟨h.1.funcs, h.1.tables⟩, ⟨h.2.funcs, h.2.tables, getElem?_set_same h.2.mems y m, h.2.globals, h.2.world⟩⟩

theorem twin_global (h : Twin A st st') (y : Nat) (g : GlobalInst) :
    Twin A { st with globals := st.globals.set y g } { st' with globals := st'.globals.set y g } :=
  ⟨⟨h.1.funcs, h.1.tables⟩, ⟨h.2.funcs, h.2.tables, h.2.mems, getElem?_set_same h.2.globals y g, h.2.world⟩⟩

theorem pop_twin {c c' : Conf} (hc : TwinC A c c') {k k' : Value → Conf → Outcome}
    (h : ∀ v s, TwinO A (k v { c with stack := s }) (k' v { c' with stack := s })) : TwinO A (pop c k) (pop c' k') := by
  unfold pop
  rw [hc.2.2]
  cases c.stack with
  | nil => exact .stuck
  | cons v s => exact h v s

theorem popI32_twin {c c' : Conf} (hc : TwinC A c c') {k k' : BitVec 32 → Conf → Outcome}
    (h : ∀ v s, TwinO A (k v { c with stack := s }) (k' v { c' with stack := s })) : TwinO A (popI32 c k) (popI32 c' k') := by
  unfold popI32
  rw [hc.2.2]
  cases c.stack with
  | nil => exact .stuck
  | cons v s =>
    cases v with
    | i32 v => exact h v s
    | _ => exact .stuck

/-- Another stack. -/
theorem TwinC.stack {c c' : Conf} (h : TwinC A c c') (s : List Value) : TwinC A { c with stack := s } { c' with stack := s } :=
  ⟨h.1, h.2.1, rfl⟩

theorem leave_twin {r : List Val} {outer : List Value} {o o' : Outcome} (h : TwinO A o o') : TwinO A (leave r outer o) (leave r outer o') := by
  cases h with
  | @normal c c' h => exact .normal ⟨h.1, h.2.1, by simp only [h.2.2]⟩
  | @br l c c' h =>
    cases l with
    | zero =>
      show TwinO A (match popArgs r c.stack with
        | some (vs, _) => .normal { c with stack := vs.reverse ++ outer }
        | none => .stuck) (match popArgs r c'.stack with
        | some (vs, _) => .normal { c' with stack := vs.reverse ++ outer }
        | none => .stuck)
      rw [h.2.2]
      cases popArgs r c.stack with
      | none => exact .stuck
      | some p => exact .normal (h.stack _)
    | succ l => exact .br h
  | ret h => exact .ret h
  | trap h => exact .trap h
  | timeout => exact .timeout
  | stuck => exact .stuck

theorem results_twin {t : FuncTy} {caller caller' c c' : Conf} (hl : caller'.locals = caller.locals) (hk : caller'.stack = caller.stack) (h : TwinC A c c') :
    TwinO A (match popArgs t.results c.stack with
      | some (vs, _) => .normal ⟨c.store, caller.locals, vs.reverse ++ caller.stack⟩
      | none => .stuck) (match popArgs t.results c'.stack with
      | some (vs, _) => .normal ⟨c'.store, caller'.locals, vs.reverse ++ caller'.stack⟩
      | none => .stuck) := by
  rw [h.2.2, hl, hk]
  cases popArgs t.results c.stack with
  | none => exact .stuck
  | some p => exact .normal ⟨h.1, rfl, rfl⟩

theorem leaveFunc_twin {t : FuncTy} {caller caller' : Conf} (hl : caller'.locals = caller.locals) (hk : caller'.stack = caller.stack) {o o' : Outcome}
    (h : TwinO A o o') : TwinO A (leaveFunc t caller o) (leaveFunc t caller' o') := by
  cases h with
  | @normal c c' h =>
    show TwinO A (match popArgs t.results c.stack with
      | some (vs, []) => .normal ⟨c.store, caller.locals, vs.reverse ++ caller.stack⟩
      | _ => .stuck) (match popArgs t.results c'.stack with
      | some (vs, []) => .normal ⟨c'.store, caller'.locals, vs.reverse ++ caller'.stack⟩
      | _ => .stuck)
    rw [h.2.2, hl, hk]
    cases popArgs t.results c.stack with
    | none => exact .stuck
    | some p =>
      obtain ⟨vs, rest⟩ := p
      cases rest with
      | nil => exact .normal ⟨h.1, rfl, rfl⟩
      | cons => exact .stuck
  | @br l c c' h =>
    cases l with
    | zero => exact results_twin hl hk h
    | succ l => exact .stuck
  | ret h => exact results_twin hl hk h
  | trap h => exact .trap h
  | timeout => exact .timeout
  | stuck => exact .stuck

theorem execs_twin {step step' : Instr → Conf → Outcome} (hs : ∀ i c c', TwinC A c c' → TwinO A (step i c) (step' i c')) :
    ∀ (is : List Instr) (c c' : Conf), TwinC A c c' → TwinO A (execs step is c) (execs step' is c')
  | [], c, c', h => .normal h
  | i :: is, c, c', h => by
    have h1 := hs i c c' h
    unfold execs
    generalize step i c = o, step' i c' = o' at h1
    cases h1 with
    | normal h => exact execs_twin hs is _ _ h
    | br h => exact .br h
    | ret h => exact .ret h
    | trap h => exact .trap h
    | timeout => exact .timeout
    | stuck => exact .stuck

theorem call_twin (hh : HostBlind M A) {step : Inst → Instr → Conf → Outcome}
    (hs : ∀ inst, A.Holds inst → ∀ i c c', TwinC A c c' → TwinO A (step inst i c) (step inst i c')) {c c' : Conf} (h : TwinC A c c')
    {a : Nat} {fi : FuncInst} (ha : A.funcs a) (hf : c.store.funcs[a]? = some fi) : TwinO A (call M step fi c) (call M step fi c') := by
  unfold call
  rw [h.2.2]
  cases popArgs fi.type.params c.stack with
  | none => exact .stuck
  | some p =>
    obtain ⟨args, rest⟩ := p
    cases fi with
    | own t inst f =>
      refine leaveFunc_twin (caller := { c with stack := rest }) (caller' := { c' with stack := rest }) h.2.1 rfl ?_
      exact execs_twin (hs inst (h.1.1.funcs a t inst f ha hf)) f.body _ _ ⟨h.1, rfl, rfl⟩
    | host t id =>
      obtain ⟨h1, h2, h3⟩ := hh.host a t id c.store c'.store args ha hf h.1.1 h.1.2
      dsimp only
      generalize M.host id c.store args = r, M.host id c'.store args = r' at h1 h2 h3
      obtain ⟨s1, res⟩ := r
      obtain ⟨s2, res'⟩ := r'
      cases h2
      cases res with
      | some vs => exact .normal ⟨⟨h3, h1⟩, h.2.1, rfl⟩
      | none => exact .trap ⟨h3, h1⟩

theorem exec_twin (hh : HostBlind M A) : ∀ (n : Nat) (inst : Inst), A.Holds inst → ∀ (i : Instr) (c c' : Conf), TwinC A c c' →
    TwinO A (exec M n inst i c) (exec M n inst i c')
  | 0, _, _, _, _, _, _ => by unfold exec; exact .timeout
  | n + 1, inst, hi, i, c, c', h => by
    have ih := exec_twin hh n
    have hf := fun x => look_same (fun a ha => h.1.2.funcs a (hi.funcs a ha)) x
    have ht := fun x => look_same (fun a ha => h.1.2.tables a (hi.tables a ha)) x
    have hm := fun x => look_same (fun a ha => h.1.2.mems a (hi.mems a ha)) x
    have hg := fun x => look_same (fun a ha => h.1.2.globals a (hi.globals a ha)) x
    have hk : ∀ s, TwinC A { c with stack := s } { c' with stack := s } := h.stack
    have hn : ∀ s, TwinO A (.normal { c with stack := s }) (.normal { c' with stack := s }) := fun s => .normal (hk s)
    have hp : ∀ v s, TwinO A (push v { c with stack := s }) (push v { c' with stack := s }) := fun v s => .normal (hk (v :: s))
    have hp0 : ∀ v, TwinO A (push v c) (push v c') := fun v => .normal ⟨h.1, h.2.1, by simp only [h.2.2]⟩
    unfold exec
    cases i with
    | unreachable => exact .trap h.1
    | nop => exact .normal h
    | block r body =>
      dsimp only
      rw [h.2.2]
      exact leave_twin (execs_twin (ih inst hi) body _ _ (hk []))
    | loop r body =>
      have h1 := execs_twin (ih inst hi) body _ _ (hk [])
      dsimp only
      rw [h.2.2]
      generalize execs (exec M n inst) body { c with stack := [] } = o, execs (exec M n inst) body { c' with stack := [] } = o' at h1
      cases h1 with
      | @br l c1 c1' h1 =>
        cases l with
        | zero => exact ih inst hi (.loop r body) _ _ (h1.stack _)
        | succ l => exact leave_twin (.br h1)
      | normal h1 => exact leave_twin (.normal h1)
      | ret h1 => exact leave_twin (.ret h1)
      | trap h1 => exact leave_twin (.trap h1)
      | timeout => exact leave_twin .timeout
      | stuck => exact leave_twin .stuck
    | ifElse r thn els =>
      exact popI32_twin h fun v s => leave_twin (execs_twin (ih inst hi) _ _ _ (hk []))
    | elseMark => exact .stuck
    | endMark => exact .stuck
    | br l => exact .br h
    | brIf l =>
      refine popI32_twin h fun v s => ?_
      split
      · exact hn s
      · exact .br (hk s)
    | brTable ls l => exact popI32_twin h fun v s => .br (hk s)
    | ret => exact .ret h
    | call x =>
      dsimp only
      rw [hf]
      split
      · next e => exact call_twin hh ih h (look_mem_area hi.funcs e) (look_eq_some e).2
      · exact .stuck
    | callIndirect x y =>
      dsimp only
      rw [ht]
      split
      · next tb t e _ =>
        refine popI32_twin h fun v s => ?_
        dsimp only
        split
        · next a hel =>
          have ha := h.1.1.tables _ _ (look_mem_area hi.tables e) (look_eq_some e).2 a (List.mem_of_getElem? hel)
          rw [h.1.2.funcs a ha]
          split
          · next fi hfi =>
            split
            · exact call_twin hh ih (hk s) ha hfi
            · exact .trap h.1
          · exact .stuck
        · exact .trap h.1
      · exact .stuck
    | drop => exact pop_twin h fun v s => hn s
    | select =>
      refine popI32_twin h fun b s => pop_twin (hk s) fun w s => pop_twin (hk s) fun v s => ?_
      dsimp only
      split
      · exact hp _ s
      · exact .stuck
    | localGet x =>
      dsimp only
      rw [h.2.1]
      split
      · exact hp0 _
      · exact .stuck
    | localSet x =>
      refine pop_twin h fun v s => ?_
      dsimp only
      rw [h.2.1]
      split
      · exact .normal ⟨h.1, rfl, rfl⟩
      · exact .stuck
    | localTee x =>
      refine pop_twin h fun v s => ?_
      dsimp only
      rw [h.2.1]
      split
      · exact .normal ⟨h.1, rfl, rfl⟩
      · exact .stuck
    | globalGet x =>
      dsimp only
      rw [hg]
      split
      · exact hp0 _
      · exact .stuck
    | globalSet x =>
      refine pop_twin h fun v s => ?_
      dsimp only
      rw [hg]
      split
      · next a g e =>
        split
        · exact .normal ⟨twin_global h.1 a _, h.2.1, rfl⟩
        · exact .stuck
      · exact .stuck
    | load op al off =>
      dsimp only
      rw [hm]
      split
      · refine popI32_twin h fun v s => ?_
        dsimp only
        split
        · exact hp _ s
        · exact .trap h.1
      · exact .stuck
    | store op al off =>
      dsimp only
      rw [hm]
      split
      · next y m e =>
        refine pop_twin h fun v s => popI32_twin (hk s) fun w s => ?_
        dsimp only
        split
        · split
          · exact .normal ⟨twin_mem h.1 y _, h.2.1, rfl⟩
          · exact .trap h.1
        · exact .stuck
      · exact .stuck
    | memSize x =>
      dsimp only
      rw [hm]
      split
      · exact hp0 _
      · exact .stuck
    | memGrow x =>
      dsimp only
      rw [hm]
      split
      · next y m e =>
        refine popI32_twin h fun w s => ?_
        dsimp only
        rw [hh.grow y _ c.store c'.store (look_mem_area hi.mems e) h.1.2]
        split
        · exact .normal ⟨twin_mem h.1 y _, h.2.1, rfl⟩
        · exact hp _ s
      · exact .stuck
    | constI32 v => exact hp0 _
    | constI64 v => exact hp0 _
    | constF32 v => exact hp0 _
    | constF64 v => exact hp0 _
    | num op =>
      dsimp only
      rw [h.2.2]
      split
      · split
        · exact hn _
        · exact .trap h.1
      · exact .stuck

theorem invoke_twin (hh : HostBlind M A) (h : Twin A st st') {a : Nat} (ha : A.funcs a) (fuel : Nat) (args : List Value) :
    SameCalled A (invoke M fuel a args st) (invoke M fuel a args st') ∧ (∀ vs s, invoke M fuel a args st = .values vs s → Sealed A s) ∧
      ∀ s, invoke M fuel a args st = .trap s → Sealed A s := by
  unfold invoke
  rw [h.2.funcs a ha]
  cases hf : st.funcs[a]? with
  | none => exact ⟨trivial, (fun _ _ h => by cases h), (fun _ h => by cases h)⟩
  | some fi =>
    have h1 := call_twin (c := ⟨st, [], args.reverse⟩) (c' := ⟨st', [], args.reverse⟩) hh (exec_twin hh fuel) ⟨h, rfl, rfl⟩ ha hf
    dsimp only
    generalize call M (exec M fuel) fi ⟨st, [], args.reverse⟩ = o, call M (exec M fuel) fi ⟨st', [], args.reverse⟩ = o' at h1
    cases h1 with
    | normal h1 => exact ⟨⟨by simp only [h1.2.2], h1.1.2⟩, (fun _ _ h => by cases h; exact h1.1.1), (fun _ h => by cases h)⟩
    | br h1 => exact ⟨trivial, (fun _ _ h => by cases h), (fun _ h => by cases h)⟩
    | ret h1 => exact ⟨trivial, (fun _ _ h => by cases h), (fun _ h => by cases h)⟩
    | trap h1 => exact ⟨h1.2, (fun _ _ h => by cases h), (fun _ h => by cases h; exact h1.1)⟩
    | timeout => exact ⟨trivial, (fun _ _ h => by cases h), (fun _ h => by cases h)⟩
    | stuck => exact ⟨trivial, (fun _ _ h => by cases h), (fun _ h => by cases h)⟩

/-! ## Instantiation depends only on the part -/

theorem all_same {α β : Type} {f g : α → Option β} : ∀ {l : List α}, (∀ x ∈ l, f x = g x) → all f l = all g l
  | [], _ => rfl
  | x :: l, h => by
    unfold all
    rw [h x (by simp), all_same fun y hy => h y (by simp [hy])]

theorem evalConst_twin (hh : HostBlind M A) (h : Twin A st st') (hi : A.Holds inst) (e : Expr) : evalConst M inst st' e = evalConst M inst st e := by
  have h1 := execs_twin (exec_twin hh 1 inst hi) e ⟨st, [], []⟩ ⟨st', [], []⟩ ⟨h, rfl, rfl⟩
  unfold evalConst
  generalize execs (exec M 1 inst) e ⟨st, [], []⟩ = o, execs (exec M 1 inst) e ⟨st', [], []⟩ = o' at h1
  cases h1 with
  | @normal c c' h1 =>
    obtain ⟨s, l, k⟩ := c
    obtain ⟨s', l', k'⟩ := c'
    obtain ⟨_, _, rfl⟩ := h1
    rcases k' with _ | ⟨v, _ | ⟨w, k⟩⟩ <;> rfl
  | br h1 => rfl
  | ret h1 => rfl
  | trap h1 => rfl
  | timeout => rfl
  | stuck => rfl

theorem evalOffset_twin (hh : HostBlind M A) (h : Twin A st st') (hi : A.Holds inst) (e : Expr) : evalOffset M inst st' e = evalOffset M inst st e := by
  unfold evalOffset
  rw [evalConst_twin hh h hi]

theorem auxInst_holds (hi : ∀ e ∈ imports, A.Has e) : A.Holds (auxInst imports) := by
  refine ⟨fun a ha => by simp [auxInst] at ha, fun a ha => by simp [auxInst] at ha, fun a ha => by simp [auxInst] at ha, fun a ha => ?_⟩
  obtain ⟨e, he, h1⟩ := List.mem_filterMap.mp ha
  have := hi e he
  cases e <;> simp only [Extern.global?, Option.some.injEq, reduceCtorEq] at h1
  subst h1
  exact this

theorem append_same {α : Type} {P : Nat → Prop} {l l' : List α} (h : ∀ a, P a → l'[a]? = l[a]?) (hl : l'.length = l.length) (k : List α) (a : Nat)
    (ha : P a) : (l' ++ k)[a]? = (l ++ k)[a]? := by
  simp only [List.getElem?_append, hl, h a ha]

theorem modify_same {α : Type} {P : Nat → Prop} {l l' : List α} (h : ∀ a, P a → l'[a]? = l[a]?) (y : Nat) (f : α → α) (a : Nat)
    (ha : P a) : (l'.modify y f)[a]? = (l.modify y f)[a]? := by
  simp only [List.getElem?_modify, h a ha]

theorem newInst_twin (hz : SameSize st st') : newInst m imports st' = newInst m imports st := by
  unfold newInst
  rw [hz.funcs, hz.tables, hz.mems, hz.globals]

theorem allocated_twin (h : SameIn A st st') (hz : SameSize st st') (fs : List FuncInst) (gs : List Value) :
    SameIn A (allocated m st fs gs) (allocated m st' fs gs) :=
  ⟨append_same h.funcs hz.funcs _, append_same h.tables hz.tables _, append_same h.mems hz.mems _, append_same h.globals hz.globals _, h.world⟩

theorem writeElem_twin (h : SameIn A st st') (e : Elem × Nat) : SameIn A (writeElem inst st e) (writeElem inst st' e) := by
  unfold writeElem
  split
  · exact ⟨h.funcs, modify_same h.tables _ _, h.mems, h.globals, h.world⟩
  · exact h

theorem writeData_twin (h : SameIn A st st') (e : Data × Nat) : SameIn A (writeData inst st e) (writeData inst st' e) := by
  unfold writeData
  split
  · exact ⟨h.funcs, h.tables, modify_same h.mems _ _, h.globals, h.world⟩
  · exact h

theorem foldl_twin {α : Type} {f : Store → α → Store} (hf : ∀ st st' x, SameIn A st st' → SameIn A (f st x) (f st' x)) :
    ∀ (l : List α) (st st' : Store), SameIn A st st' → SameIn A (l.foldl f st) (l.foldl f st')
  | [], _, _, h => h
  | x :: l, st, st', h => foldl_twin hf l _ _ (hf st st' x h)

theorem runStart_twin (hh : HostBlind M A) (h : Twin A st st') (hi : A.Holds inst) (fuel : Nat) :
    SameStarted A (runStart M m inst fuel st) (runStart M m inst fuel st') := by
  unfold runStart
  split
  · exact ⟨rfl, h.2⟩
  · split
    · trivial
    · next a ha =>
      have h1 := (invoke_twin hh h (hi.funcs a (List.mem_of_getElem? ha)) fuel []).1
      generalize invoke M fuel a [] st = o, invoke M fuel a [] st' = o' at h1
      cases o <;> cases o' <;> first | exact h1.elim | skip
      · next vs _ vs' _ =>
        obtain ⟨h2, h1⟩ := h1
        cases h2
        cases vs with
        | nil => exact ⟨rfl, h1⟩
        | cons => trivial
      · exact h1
      · trivial
      · trivial

theorem instantiate_twin (hh : HostBlind M A) (h : Twin A st st') (hz : SameSize st st') (hn : A.New st) (hi : ∀ e ∈ imports, A.Has e) (fuel : Nat) :
    SameStarted A (instantiate M m imports fuel st) (instantiate M m imports fuel st') := by
  have hI : A.Holds (newInst m imports st) := newInst_holds hn hi
  unfold instantiate
  rw [newInst_twin hz]
  dsimp only
  rw [all_same fun (g : Global) _ => evalConst_twin hh h (auxInst_holds hi) g.init]
  cases hgs : all (fun (g : Global) => evalConst M (auxInst imports) st g.init) m.globals with
  | none => trivial
  | some gs =>
    cases hfs : all (newFunc m (newInst m imports st)) m.funcs with
    | none => trivial
    | some fs =>
      have h1 : Twin A (allocated m st fs gs) (allocated m st' fs gs) :=
        ⟨(allocated_within h.1 hn hI hfs gs).1, allocated_twin h.2 hz fs gs⟩
      generalize newInst m imports st = inst at hI
      dsimp only
      rw [all_same fun (e : Elem) _ => evalOffset_twin hh h1 hI e.offset, all_same fun (e : Data) _ => evalOffset_twin hh h1 hI e.offset]
      split
      · next eo dof _ _ =>
        have he : ∀ e, elemFits inst (allocated m st' fs gs) e = elemFits inst (allocated m st fs gs) e := by
          intro e
          unfold elemFits
          rw [look_same fun a ha => h1.2.tables a (hI.tables a ha)]
        have hd : ∀ e, dataFits inst (allocated m st' fs gs) e = dataFits inst (allocated m st fs gs) e := by
          intro e
          unfold dataFits
          rw [look_same fun a ha => h1.2.mems a (hI.mems a ha)]
        rw [all_same fun e _ => he e, all_same fun e _ => hd e]
        split
        · split
          · refine runStart_twin hh ⟨?_, foldl_twin (fun _ _ x h => writeData_twin h x) _ _ _ (foldl_twin (fun _ _ x h => writeElem_twin h x) _ _ _ h1.2)⟩
              hI fuel
            have h2 := foldl_within (fun st x hs => writeElem_within hs hI x) (m.elem.zip eo) _ h1.1
            exact (foldl_within (fun st x hs => writeData_within hs hI x) (m.data.zip dof) _ h2.1).1
          · exact h1.2
        · trivial
      · trivial

end Whasm.Link
