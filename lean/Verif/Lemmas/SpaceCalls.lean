import Verif.Lemmas.Space
import Verif.Spec.Safety

/-!
# Calls that have not returned, and how much they can come to hold
-/

namespace Whasm.Run
open Spec

variable {m : Module} {M : Machine}

/-! ## Each is an execution of a body -/

/-- A call in a state with store `st`: the body of a function has come this far. -/
def Began (m : Module) (M : Machine) (st : Store) (ls vs : List Value) (es : List Admin) : Prop :=
  ∃ t f st0 args j, .own t f ∈ M.all ∧ StoreOk m M.all.length st0 ∧ args.map Value.type = t.params ∧
    Steps M j ⟨st0, args ++ f.locals.map zero, []⟩ [.label t.results [] [] (plains f.body)] ⟨st, ls, vs⟩ es

/-- All calls of a state are, and they are at the head. -/
inductive Org (m : Module) (M : Machine) (st : Store) : List Admin → Prop
  | plains (is : List Instr) : Org m M st (plains is)
  | trap (is : List Instr) : Org m M st (.trap :: plains is)
  | invoke (fi : FuncInst) (is : List Instr) : Org m M st (.invoke fi :: plains is)
  | label {r k vs es} (h : Org m M st es) (is : List Instr) : Org m M st (.label r k vs es :: plains is)
  | frame {r ls vs es} (hb : Began m M st ls vs es) (h : Org m M st es) (is : List Instr) : Org m M st (.frame r ls vs es :: plains is)

theorem org_tail {st : Store} {e : Admin} {es : List Admin} (h : Org m M st (e :: es)) : ∃ is, es = plains is := by
  generalize hx : e :: es = x at h
  cases h with
  | plains is =>
    cases is with
    | nil => cases hx
    | cons i is => cases hx; exact ⟨is, rfl⟩
  | _ => cases hx; exact ⟨_, rfl⟩

theorem org_label {st : Store} {r : List Val} {k : List Instr} {vs : List Value} {fs es : List Admin} (h : Org m M st (.label r k vs fs :: es)) : Org m M st fs := by
  generalize hx : Admin.label r k vs fs :: es = x at h
  cases h with
  | plains is => cases is <;> cases hx
  | label h _ => cases hx; exact h
  | _ => cases hx

theorem org_frame {st : Store} {r : List Val} {ls vs : List Value} {fs es : List Admin} (h : Org m M st (.frame r ls vs fs :: es)) : Began m M st ls vs fs ∧ Org m M st fs := by
  generalize hx : Admin.frame r ls vs fs :: es = x at h
  cases h with
  | plains is => cases is <;> cases hx
  | frame hb h _ => cases hx; exact ⟨hb, h⟩
  | _ => cases hx

theorem plain_act : ∀ {is : List Instr} {ls vs : List Value} {es : List Admin}, ¬ Activation (plains is) ls vs es
  | [], _, _, _, h => by cases h
  | i :: is, _, _, _, h => by
    cases h with
    | there h => exact plain_act h

theorem org_act {st : Store} {es : List Admin} (h : Org m M st es) {ls vs : List Value} {fs : List Admin} (ha : Activation es ls vs fs) : Began m M st ls vs fs := by
  induction h with
  | plains is => exact (plain_act ha).elim
  | trap is => cases ha with | there h => exact (plain_act h).elim
  | invoke fi is => cases ha with | there h => exact (plain_act h).elim
  | label _ is ih =>
    cases ha with
    | label h => exact ih h
    | there h => exact (plain_act h).elim
  | frame hb _ is ih =>
    cases ha with
    | here => exact hb
    | frame h => exact ih h
    | there h => exact (plain_act h).elim

theorem step_org {st : Store} {c c' : Conf} {es es' : List Admin} (h : Step M c es c' es') :
    ∀ {C : Env}, EnvOk m C → ∀ {ts ts' : List Val}, ConfOk m M st C ts c → AOk m M C es ts ts' → Org m M c.store es → Org m M c'.store es' := by
  induction h with
  | inLabel _ ih =>
    intro C hC ts ts' hc ha ho
    obtain ⟨is, rfl⟩ := org_tail ho
    cases ha with
    | label hw hfs hk hes =>
      exact .label (ih (envOk_labels hC) (confOk_labels.mpr ⟨hc.store, hc.evolves, hc.locals, hw⟩) hfs (org_label ho)) _
  | inFrame hs ih =>
    intro C hC ts ts' hc ha ho
    obtain ⟨is, rfl⟩ := org_tail ho
    cases ha with
    | frame hC' hl hn hr hw hfs hes =>
      obtain ⟨⟨t, f, st0, args, j, h1, h2, h3, h4⟩, ho⟩ := org_frame ho
      exact .frame ⟨t, f, st0, args, j + 1, h1, h2, h3, steps_trans h4 (step_one hs)⟩ (ih hC' ⟨hc.store, hc.evolves, hl, hw⟩ hfs ho) _
  | @invokeOwn st ls vs es t f args rest hp =>
    intro C hC ts ts' hc ha ho
    obtain ⟨is, rfl⟩ := org_tail ho
    cases ha with
    | invoke hf hes => exact .frame ⟨t, f, st, args, 0, hf, hc.store, popArgs_types hp, .zero⟩ (.label (.plains _) []) _
  | brHere hl hp =>
    intro C hC ts ts' hc ha ho
    obtain ⟨is, rfl⟩ := org_tail ho
    rename_i k _ _ _ _ _
    rw [← List.map_append]
    exact .plains _
  | block => intro C hC ts ts' hc ha ho; obtain ⟨is, rfl⟩ := org_tail ho; exact .label (.plains _) _
  | loop => intro C hC ts ts' hc ha ho; obtain ⟨is, rfl⟩ := org_tail ho; exact .label (.plains _) _
  | ifThen hk => intro C hC ts ts' hc ha ho; obtain ⟨is, rfl⟩ := org_tail ho; exact .label (.plains _) _
  | ifElse hk => intro C hC ts ts' hc ha ho; obtain ⟨is, rfl⟩ := org_tail ho; exact .label (.plains _) _
  | _ =>
    intro C hC ts ts' hc ha ho
    obtain ⟨is, rfl⟩ := org_tail ho
    first | exact .plains is | exact .trap is | exact .invoke _ is | exact .plains (_ :: is)

theorem steps_org (H : Fit m M) {st : Store} {k : Nat} {c c' : Conf} {es es' : List Admin} (h : Steps M k c es c' es') {C : Env} (hC : EnvOk m C) {ts ts' : List Val}
    (hc : ConfOk m M st C ts c) (ha : AOk m M C es ts ts') (ho : Org m M c.store es) : Org m M c'.store es' := by
  induction h generalizing ts with
  | zero => exact ho
  | succ h _ ih =>
    obtain ⟨us, h1, h2⟩ := step_keeps H h hC hc ha
    exact ih h1 h2 (step_org h hC hc ha ho)

/-! ## What it holds and may come to hold -/

mutual
/-- Operands at most. -/
def roomA : Admin → Nat
  | .plain i => sizeI i
  | .trap => 0
  | .invoke fi => fi.type.results.length
  | .label r k vs es => max (vs.length + roomL es) (sizeL k + if k = [] then 0 else r.length)
  | .frame r _ _ _ => r.length
def roomL : List Admin → Nat
  | [] => 0
  | e :: es => roomA e + roomL es
end

mutual
/-- Labels at most. -/
def deepA : Admin → Nat
  | .plain i => depthI i
  | .label _ k _ es => max (1 + deepL es) (depthL k)
  | _ => 0
def deepL : List Admin → Nat
  | [] => 0
  | e :: es => max (deepA e) (deepL es)
end

theorem room_plains : ∀ (is : List Instr) (es : List Admin), roomL (plains is ++ es) = sizeL is + roomL es
  | [], es => by rw [sizeL, Nat.zero_add]; rfl
  | i :: is, es => by
    show sizeI i + roomL (plains is ++ es) = _
    rw [room_plains is es, sizeL]
    omega

theorem deep_plains : ∀ (is : List Instr) (es : List Admin), deepL (plains is ++ es) = max (depthL is) (deepL es)
  | [], es => by rw [depthL, Nat.zero_max]; rfl
  | i :: is, es => by
    show max (depthI i) (deepL (plains is ++ es)) = _
    rw [deep_plains is es, depthL]
    omega

theorem room_body (is : List Instr) : roomL (plains is) = sizeL is := by
  have h := room_plains is []
  rw [List.append_nil] at h
  exact h

theorem deep_body (is : List Instr) : deepL (plains is) = depthL is := by
  have h := deep_plains is []
  rw [List.append_nil] at h
  rw [h]
  exact Nat.max_zero _

mutual
theorem held_room : ∀ (e : Admin), heldA e ≤ roomA e
  | .plain _ => Nat.zero_le _
  | .trap => Nat.zero_le _
  | .invoke _ => Nat.zero_le _
  | .label r k vs es => by
    have := held_roomL es
    rw [heldA, roomA]
    omega
  | .frame _ _ _ _ => Nat.zero_le _
theorem held_roomL : ∀ (es : List Admin), heldL es ≤ roomL es
  | [] => Nat.zero_le _
  | e :: es => by
    have h1 := held_room e
    have h2 := held_roomL es
    rw [heldL, roomL]
    omega
end

mutual
theorem nest_deep : ∀ (e : Admin), nestA e ≤ deepA e
  | .plain _ => Nat.zero_le _
  | .trap => Nat.zero_le _
  | .invoke _ => Nat.zero_le _
  | .label r k vs es => by
    have := nest_deepL es
    rw [nestA, deepA]
    omega
  | .frame _ _ _ _ => Nat.zero_le _
theorem nest_deepL : ∀ (es : List Admin), nestL es ≤ deepL es
  | [] => Nat.zero_le _
  | e :: es => by
    have h1 := nest_deep e
    have h2 := nest_deepL es
    rw [nestL, deepL]
    omega
end

/-- The host returns as many values as it should when it is called next. -/
def HostCount (M : Machine) (c : Conf) (es : List Admin) : Prop :=
  ∀ t id args, Calling c.stack es (.host t id) args → ∀ st' us, M.host id c.store args = (st', some us) → us.length = t.results.length

/-- A step does not raise it. -/
theorem step_room (hf : ∀ fi ∈ M.funcs, fi.type.results.length ≤ 1) (ht : ∀ t ∈ M.types, t.results.length ≤ 1) {c c' : Conf} {es es' : List Admin} (h : Step M c es c' es')
    (hh : HostCount M c es) : c'.stack.length + roomL es' ≤ c.stack.length + roomL es := by
  induction h with
  | inLabel _ ih =>
    have := ih fun t id args hc => hh t id args (.label hc)
    dsimp only at this
    simp only [roomL, roomA]
    omega
  | brHere hl hp =>
    have := popArgs_len hp
    simp only [room_plains, roomL, roomA, List.length_append, List.length_reverse]
    split
    · next hk => subst hk; simp only [sizeL]; omega
    · omega
  | call hx =>
    have := hf _ (List.mem_of_getElem? hx)
    simp only [roomL, roomA, sizeI]
    omega
  | callIndirect hy hx hk ha hty =>
    have := ht _ (List.mem_of_getElem? hx)
    rw [← hty] at this
    simp only [roomL, roomA, sizeI, List.length_cons]
    omega
  | invokeOwn hp =>
    have := popArgs_len hp
    simp only [roomL, roomA, FuncInst.type]
    omega
  | invokeHost hp hr =>
    have h1 := popArgs_len hp
    have h2 := hh _ _ _ (.here hp) _ _ hr
    simp only [roomL, roomA, FuncInst.type, List.length_append, List.length_reverse]
    omega
  | hostTrap hp hr =>
    have := popArgs_len hp
    simp only [roomL, roomA, FuncInst.type]
    omega
  | endFrame hp =>
    have := popArgs_len hp
    simp only [roomL, roomA, List.length_append, List.length_reverse]
    omega
  | retHere hp =>
    have := popArgs_len hp
    simp only [roomL, roomA, List.length_append, List.length_reverse]
    omega
  | num hp _ =>
    have := popArgs_len hp
    simp only [roomL, roomA, sizeI, List.length_cons]
    omega
  | numTrap hp _ =>
    have := popArgs_len hp
    simp only [roomL, roomA, sizeI]
    omega
  | loop =>
    simp only [roomL, roomA, sizeI, sizeL, room_body, List.length_nil, Nat.zero_add, Nat.add_zero]
    split <;> omega
  | _ =>
    simp only [roomL, roomA, sizeI, sizeL, room_body, List.length_nil, List.length_cons, List.length_append, Nat.zero_add, Nat.add_zero, if_true]
    first | done | omega

theorem step_deep {c c' : Conf} {es es' : List Admin} (h : Step M c es c' es') : deepL es' ≤ deepL es := by
  induction h with
  | inLabel _ ih => simp only [deepL, deepA]; omega
  | brHere hl hp => simp only [deep_plains, deepL, deepA]; omega
  | _ =>
    simp only [deepL, deepA, depthI, depthL, deep_body]
    first | done | omega

/-- In a well-typed state the host does. -/
theorem count_ok (H : Fit m M) {st : Store} {C : Env} {ts ts' : List Val} {c : Conf} {es : List Admin} (hc : ConfOk m M st C ts c) (ha : AOk m M C es ts ts') : HostCount M c es := by
  intro t id args hcall st' us hr
  obtain ⟨h1, h2⟩ := calling_ok hcall hc.stack ha
  have h3 := (H.host t id h1 _ _ hc.store h2 _ _ hr).2.2 us rfl
  rw [← h3, List.length_map]

theorem steps_room (H : Fit m M) (hf : ∀ fi ∈ M.funcs, fi.type.results.length ≤ 1) (ht : ∀ t ∈ M.types, t.results.length ≤ 1) {st : Store} {k : Nat} {c c' : Conf} {es es' : List Admin}
    (h : Steps M k c es c' es') {C : Env} (hC : EnvOk m C) {ts ts' : List Val} (hc : ConfOk m M st C ts c) (ha : AOk m M C es ts ts') :
    c'.stack.length + roomL es' ≤ c.stack.length + roomL es := by
  induction h generalizing ts with
  | zero => exact Nat.le_refl _
  | succ h _ ih =>
    obtain ⟨us, h1, h2⟩ := step_keeps H h hC hc ha
    exact Nat.le_trans (ih h1 h2) (step_room hf ht h (count_ok H hc ha))

theorem steps_deep {k : Nat} {c c' : Conf} {es es' : List Admin} (h : Steps M k c es c' es') : deepL es' ≤ deepL es := by
  induction h with
  | zero => exact Nat.le_refl _
  | succ h _ ih => exact Nat.le_trans ih (step_deep h)

end Whasm.Run
