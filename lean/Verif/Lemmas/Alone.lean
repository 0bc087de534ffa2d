import Verif.Spec.Alone

/-!
# The two specifications of execution agree on a single module

`Spec/Run` has one module, whose index spaces are the store; `Spec/Link` has addresses.
-/

namespace Whasm.Link
open Spec
open Run (Value MemInst popArgs zero readMem writeMem loaded pageLimit overwrite all newMem)

/-- What `Spec/Run` has of a store. Before the memories and tables of a module exist, it has none (`b = false`). -/
def eraseS (b : Bool) (st : Store) : Run.Store :=
  ⟨st.globals.map (·.value), if b then st.mems else [], if b then st.tables.map (·.elem) else [], st.world⟩

def eraseC (b : Bool) (c : Conf) : Run.Conf := ⟨eraseS b c.store, c.locals, c.stack⟩

def eraseO (b : Bool) : Outcome → Run.Outcome
  | .normal c => .normal (eraseC b c)
  | .br l c => .br l (eraseC b c)
  | .ret c => .ret (eraseC b c)
  | .trap st => .trap (eraseS b st)
  | .timeout => .timeout
  | .stuck => .stuck

/-- Before the memories and tables of a module exist, no instance has functions, memories or tables. -/
structure Ident' (R : Run.Machine) (b : Bool) (inst : Inst) : Prop extends Ident R inst where
  early : b = false → inst.funcs = [] ∧ inst.tables = [] ∧ inst.mems = []

structure SameMachine' (M : Machine) (R : Run.Machine) (b : Bool) : Prop where
  num : M.num = R.num
  grow : b = true → ∀ st, Alone R st → ∀ x n, M.grow st x n = R.grow (eraseS true st) x n
  host : b = true → ∀ id st, Alone R st → ∀ args,
    Alone R (M.host id st args).1 ∧ R.host id (eraseS true st) args = (eraseS true (M.host id st args).1, (M.host id st args).2)

theorem sameMachine (b : Bool) {M : Machine} {R : Run.Machine} (h : SameMachine M R) : SameMachine' M R b :=
  ⟨h.num, fun _ => h.grow, fun _ => h.host⟩

def AloneO (R : Run.Machine) : Outcome → Prop
  | .normal c => Alone R c.store
  | .br _ c => Alone R c.store
  | .ret c => Alone R c.store
  | .trap st => Alone R st
  | .timeout => True
  | .stuck => True

/-- The same outcome, unless the one with addresses is stuck. -/
def Sim (R : Run.Machine) (b : Bool) (o : Outcome) (o' : Run.Outcome) : Prop := o = .stuck ∨ (o' = eraseO b o ∧ AloneO R o)

variable {M : Machine} {R : Run.Machine} {b : Bool} {inst : Inst}

theorem sim_stuck {o' : Run.Outcome} : Sim R b .stuck o' := .inl rfl

theorem sim_push (v : Value) {c : Conf} (h : Alone R c.store) : Sim R b (push v c) (Run.push v (eraseC b c)) := .inr ⟨rfl, h⟩

theorem sim_pop {c : Conf} (h : Alone R c.store) {k : Value → Conf → Outcome} {k' : Value → Run.Conf → Run.Outcome}
    (hk : ∀ v c, Alone R c.store → Sim R b (k v c) (k' v (eraseC b c))) : Sim R b (pop c k) (Run.pop (eraseC b c) k') := by
  obtain ⟨st, ls, s⟩ := c
  cases s with
  | nil => exact sim_stuck
  | cons v s => exact hk v ⟨st, ls, s⟩ h

theorem sim_popI32 {c : Conf} (h : Alone R c.store) {k : BitVec 32 → Conf → Outcome} {k' : BitVec 32 → Run.Conf → Run.Outcome}
    (hk : ∀ v c, Alone R c.store → Sim R b (k v c) (k' v (eraseC b c))) : Sim R b (popI32 c k) (Run.popI32 (eraseC b c) k') := by
  obtain ⟨st, ls, s⟩ := c
  cases s with
  | nil => exact sim_stuck
  | cons v s =>
    cases v with
    | i32 v => exact hk v ⟨st, ls, s⟩ h
    | _ => exact sim_stuck

theorem sim_execs {step : Instr → Conf → Outcome} {step' : Instr → Run.Conf → Run.Outcome}
    (hs : ∀ i c, Alone R c.store → Sim R b (step i c) (step' i (eraseC b c))) : ∀ (is : List Instr) (c : Conf), Alone R c.store →
      Sim R b (execs step is c) (Run.execs step' is (eraseC b c))
  | [], c, h => .inr ⟨rfl, h⟩
  | i :: is, c, h => by
    rcases hs i c h with h1 | ⟨h1, h2⟩
    · simp only [execs, h1]; exact sim_stuck
    · simp only [execs, Run.execs, h1]
      cases ho : step i c with
      | normal c' => rw [ho] at h2; exact sim_execs hs is c' h2
      | br l c' => rw [ho] at h2; exact .inr ⟨rfl, h2⟩
      | ret c' => rw [ho] at h2; exact .inr ⟨rfl, h2⟩
      | trap st => rw [ho] at h2; exact .inr ⟨rfl, h2⟩
      | timeout => exact .inr ⟨rfl, trivial⟩
      | stuck => exact sim_stuck

theorem sim_leave (r : List Val) (outer : List Value) {o : Outcome} {o' : Run.Outcome} (h : Sim R b o o') : Sim R b (leave r outer o) (Run.leave r outer o') := by
  rcases h with rfl | ⟨rfl, h⟩
  · exact sim_stuck
  · cases o with
    | normal c => exact .inr ⟨rfl, h⟩
    | br l c =>
      cases l with
      | zero =>
        simp only [leave, eraseO, Run.leave, eraseC]
        rcases popArgs r c.stack with _ | ⟨vs, s⟩
        · exact sim_stuck
        · exact .inr ⟨rfl, h⟩
      | succ l => exact .inr ⟨rfl, h⟩
    | ret c => exact .inr ⟨rfl, h⟩
    | trap st => exact .inr ⟨rfl, h⟩
    | timeout => exact .inr ⟨rfl, h⟩
    | stuck => exact sim_stuck

theorem sim_leaveFunc (t : FuncTy) (caller : Conf) {o : Outcome} {o' : Run.Outcome} (h : Sim R b o o') :
    Sim R b (leaveFunc t caller o) (Run.leaveFunc t (eraseC b caller) o') := by
  rcases h with rfl | ⟨rfl, h⟩
  · exact sim_stuck
  · cases o with
    | normal c =>
      simp only [leaveFunc, eraseO, Run.leaveFunc, eraseC]
      rcases popArgs t.results c.stack with _ | ⟨vs, s⟩
      · exact sim_stuck
      · cases s with
        | nil => exact .inr ⟨rfl, h⟩
        | cons => exact sim_stuck
    | br l c =>
      cases l with
      | zero =>
        simp only [leaveFunc, eraseO, Run.leaveFunc, eraseC]
        rcases popArgs t.results c.stack with _ | ⟨vs, s⟩
        · exact sim_stuck
        · exact .inr ⟨rfl, h⟩
      | succ l => exact sim_stuck
    | ret c =>
      simp only [leaveFunc, eraseO, Run.leaveFunc, eraseC]
      rcases popArgs t.results c.stack with _ | ⟨vs, s⟩
      · exact sim_stuck
      · exact .inr ⟨rfl, h⟩
    | trap st => exact .inr ⟨rfl, h⟩
    | timeout => exact .inr ⟨rfl, h⟩
    | stuck => exact sim_stuck

theorem sameFunc_type {fi : FuncInst} {fi' : Run.FuncInst} (h : SameFunc R fi fi') : fi.type = fi'.type := by cases h <;> rfl

theorem sim_call (hM : SameMachine' M R true) {step : Inst → Instr → Conf → Outcome} {step' : Instr → Run.Conf → Run.Outcome}
    (hs : ∀ inst, Ident' R true inst → ∀ i c, Alone R c.store → Sim R true (step inst i c) (step' i (eraseC true c))) {fi : FuncInst} {fi' : Run.FuncInst} (hf : SameFunc R fi fi') {c : Conf}
    (h : Alone R c.store) : Sim R true (call M step fi c) (Run.call R step' fi' (eraseC true c)) := by
  simp only [call, Run.call, sameFunc_type hf, eraseC]
  rcases popArgs fi'.type.params c.stack with _ | ⟨args, rest⟩
  · exact sim_stuck
  · cases hf with
    | @own t inst f hi => exact sim_leaveFunc t ⟨c.store, c.locals, rest⟩ (sim_execs (hs inst ⟨hi, nofun⟩) f.body ⟨c.store, args ++ f.locals.map zero, []⟩ h)
    | @host t id =>
      obtain ⟨h1, h2⟩ := hM.host rfl id c.store h args
      simp only [h2]
      rcases hh : M.host id c.store args with ⟨st, _ | vs⟩
      · rw [hh] at h1; exact .inr ⟨rfl, h1⟩
      · rw [hh] at h1; exact .inr ⟨rfl, h1⟩

theorem look_ident {α : Type} {as : List Nat} (h : ∀ (x : Nat) a, as[x]? = some a → a = x) {objs : List α} {x a : Nat} {o : α} (hl : look as objs x = some (a, o)) :
    a = x ∧ objs[x]? = some o := by
  unfold look at hl
  cases hx : as[x]? with
  | none => rw [hx] at hl; cases hl
  | some b =>
    obtain rfl := h _ _ hx
    rw [hx] at hl
    simp only [Option.bind_some, Option.map_eq_some_iff] at hl
    obtain ⟨o', ho, he⟩ := hl
    cases he
    exact ⟨rfl, ho⟩

theorem look_nil {α : Type} {objs : List α} {x : Nat} {r : Nat × α} (hl : look [] objs x = some r) : False := by
  simp [look] at hl

theorem late_funcs (hi : Ident' R b inst) {α : Type} {objs : List α} {x : Nat} {r : Nat × α} (hl : look inst.funcs objs x = some r) : b = true := by
  cases b with
  | true => rfl
  | false => rw [(hi.early rfl).1] at hl; exact (look_nil hl).elim

theorem late_tables (hi : Ident' R b inst) {α : Type} {objs : List α} {x : Nat} {r : Nat × α} (hl : look inst.tables objs x = some r) : b = true := by
  cases b with
  | true => rfl
  | false => rw [(hi.early rfl).2.1] at hl; exact (look_nil hl).elim

theorem late_mems (hi : Ident' R b inst) {α : Type} {objs : List α} {x : Nat} {r : Nat × α} (hl : look inst.mems objs x = some r) : b = true := by
  cases b with
  | true => rfl
  | false => rw [(hi.early rfl).2.2] at hl; exact (look_nil hl).elim

/-- Execution of instructions. -/
theorem sim_exec (hM : SameMachine' M R b) : ∀ (n : Nat) (inst : Inst), Ident' R b inst → ∀ (i : Instr) (c : Conf), Alone R c.store →
    Sim R b (exec M n inst i c) (Run.exec R n i (eraseC b c))
  | 0, _, _, _, _, _ => .inr ⟨rfl, trivial⟩
  | n + 1, inst, hi, i, c, h => by
    have ih := sim_exec hM n
    cases i with
    | unreachable => exact .inr ⟨rfl, h⟩
    | nop => exact .inr ⟨rfl, h⟩
    | block r body =>
      exact sim_leave r c.stack (sim_execs (ih inst hi) body { c with stack := [] } h)
    | loop r body =>
      have h1 := sim_execs (ih inst hi) body { c with stack := [] } h
      simp only [exec, Run.exec]
      change Sim R b _ (match Run.execs (Run.exec R n) body (eraseC b { c with stack := [] }) with
        | .br 0 c' => Run.exec R n (.loop r body) { c' with stack := c.stack }
        | o => Run.leave [] c.stack o)
      rcases h1 with h1 | ⟨h1, h2⟩
      · rw [h1]; exact sim_stuck
      · rw [h1]
        generalize execs (exec M n inst) body { c with stack := [] } = o at h2
        cases o with
        | br l c' =>
          cases l with
          | zero => exact ih inst hi (.loop r body) { c' with stack := c.stack } h2
          | succ l => exact sim_leave [] c.stack (.inr ⟨rfl, h2⟩)
        | normal c' => exact sim_leave [] c.stack (.inr ⟨rfl, h2⟩)
        | ret c' => exact sim_leave [] c.stack (.inr ⟨rfl, h2⟩)
        | trap st => exact sim_leave [] c.stack (.inr ⟨rfl, h2⟩)
        | timeout => exact sim_leave [] c.stack (.inr ⟨rfl, h2⟩)
        | stuck => exact sim_stuck
    | ifElse r thn els =>
      simp only [exec, Run.exec]
      exact sim_popI32 h fun b c h => sim_leave r c.stack (sim_execs (ih inst hi) _ { c with stack := [] } h)
    | elseMark => exact sim_stuck
    | endMark => exact sim_stuck
    | br l => exact .inr ⟨rfl, h⟩
    | brIf l =>
      simp only [exec, Run.exec]
      refine sim_popI32 h fun b c h => ?_
      by_cases hb : b = 0
      · simp only [hb, if_true]; exact .inr ⟨rfl, h⟩
      · simp only [hb, if_false]; exact .inr ⟨rfl, h⟩
    | brTable ls l => exact sim_popI32 h fun k c h => .inr ⟨rfl, h⟩
    | ret => exact .inr ⟨rfl, h⟩
    | call x =>
      simp only [exec, Run.exec]
      rcases hl : look inst.funcs c.store.funcs x.toNat with _ | ⟨a, fi⟩
      · exact sim_stuck
      · obtain rfl := late_funcs hi hl
        obtain ⟨_, h2⟩ := look_ident hi.funcs hl
        obtain ⟨fi', h3, h4⟩ := h _ _ h2
        simp only [h3]
        exact sim_call hM ih h4 h
    | callIndirect x y =>
      simp only [exec, Run.exec]
      rcases hl : look inst.tables c.store.tables y.toNat with _ | ⟨a, tb⟩
      · exact sim_stuck
      · obtain rfl := late_tables hi hl
        obtain ⟨_, h2⟩ := look_ident hi.tables hl
        rcases ht : inst.types[x.toNat]? with _ | t
        · exact sim_stuck
        · have h3 : (eraseC true c).store.tables[y.toNat]? = some tb.elem := by simp [eraseC, eraseS, h2]
          simp only [h3, hi.types _ _ ht]
          refine sim_popI32 h fun k c h => ?_
          rcases tb.elem[k.toNat]? with _ | _ | a
          · exact .inr ⟨rfl, h⟩
          · exact .inr ⟨rfl, h⟩
          · simp only
            rcases hf : c.store.funcs[a]? with _ | fi
            · exact sim_stuck
            · obtain ⟨fi', h4, h5⟩ := h _ _ hf
              have h6 : R.all[a]? = some fi' := by
                unfold Run.Machine.all
                rw [List.getElem?_append_left (List.getElem?_eq_some_iff.mp h4).1, h4]
              simp only [h6, sameFunc_type h5]
              split
              · exact sim_call hM ih h5 h
              · exact .inr ⟨rfl, h⟩
    | drop => exact sim_pop h fun v c h => .inr ⟨rfl, h⟩
    | select =>
      simp only [exec, Run.exec]
      refine sim_popI32 h fun b c h => sim_pop h fun w c h => sim_pop h fun v c h => ?_
      by_cases hv : v.type = w.type
      · simp only [hv, if_true]; exact sim_push _ h
      · simp only [hv, if_false]; exact sim_stuck
    | localGet x =>
      simp only [exec, Run.exec, eraseC]
      rcases c.locals[x.toNat]? with _ | v
      · exact sim_stuck
      · exact sim_push v h
    | localSet x =>
      simp only [exec, Run.exec]
      refine sim_pop h fun v c h => ?_
      simp only [eraseC]
      by_cases hx : x.toNat < c.locals.length
      · simp only [hx, if_true]; exact .inr ⟨rfl, h⟩
      · simp only [hx, if_false]; exact sim_stuck
    | localTee x =>
      simp only [exec, Run.exec]
      refine sim_pop h fun v c h => ?_
      simp only [eraseC]
      by_cases hx : x.toNat < c.locals.length
      · simp only [hx, if_true]; exact .inr ⟨rfl, h⟩
      · simp only [hx, if_false]; exact sim_stuck
    | globalGet x =>
      simp only [exec, Run.exec]
      rcases hl : look inst.globals c.store.globals x.toNat with _ | ⟨a, g⟩
      · exact sim_stuck
      · obtain ⟨_, h2⟩ := look_ident hi.globals hl
        have h3 : (eraseC b c).store.globals[x.toNat]? = some g.value := by simp [eraseC, eraseS, h2]
        simp only [h3]
        exact sim_push _ h
    | globalSet x =>
      simp only [exec, Run.exec]
      refine sim_pop h fun v c h => ?_
      rcases hl : look inst.globals c.store.globals x.toNat with _ | ⟨a, g⟩
      · exact sim_stuck
      · obtain ⟨rfl, h2⟩ := look_ident hi.globals hl
        have h3 : x.toNat < (eraseC b c).store.globals.length := by
          simp only [eraseC, eraseS, List.length_map]
          exact (List.getElem?_eq_some_iff.mp h2).1
        simp only [h3, if_true]
        split
        · refine .inr ⟨?_, h⟩
          simp only [eraseO, eraseC, eraseS, List.map_set]
        · exact sim_stuck
    | load op al offset =>
      simp only [exec, Run.exec]
      rcases hl : look inst.mems c.store.mems 0 with _ | ⟨a, m⟩
      · exact sim_stuck
      · obtain rfl := late_mems hi hl
        obtain ⟨_, h2⟩ := look_ident hi.mems hl
        have h3 : (eraseC true c).store.mems[0]? = some m := h2
        simp only [h3]
        refine sim_popI32 h fun a c h => ?_
        split
        · exact sim_push _ h
        · exact .inr ⟨rfl, h⟩
    | store op al offset =>
      simp only [exec, Run.exec]
      rcases hl : look inst.mems c.store.mems 0 with _ | ⟨y, m⟩
      · exact sim_stuck
      · obtain rfl := late_mems hi hl
        obtain ⟨rfl, h2⟩ := look_ident hi.mems hl
        have h3 : (eraseC true c).store.mems[0]? = some m := h2
        simp only [h3]
        refine sim_pop h fun v c h => sim_popI32 h fun a c h => ?_
        split
        · split
          · exact .inr ⟨rfl, h⟩
          · exact .inr ⟨rfl, h⟩
        · exact sim_stuck
    | memSize x =>
      simp only [exec, Run.exec]
      rcases hl : look inst.mems c.store.mems x.toNat with _ | ⟨a, m⟩
      · exact sim_stuck
      · obtain rfl := late_mems hi hl
        obtain ⟨_, h2⟩ := look_ident hi.mems hl
        have h3 : (eraseC true c).store.mems[x.toNat]? = some m := h2
        simp only [h3]
        exact sim_push _ h
    | memGrow x =>
      simp only [exec, Run.exec]
      rcases hl : look inst.mems c.store.mems x.toNat with _ | ⟨y, m⟩
      · exact sim_stuck
      · obtain rfl := late_mems hi hl
        obtain ⟨rfl, h2⟩ := look_ident hi.mems hl
        have h3 : (eraseC true c).store.mems[x.toNat]? = some m := h2
        simp only [h3]
        refine sim_popI32 h fun k c h => ?_
        simp only [hM.grow rfl c.store h]
        change Sim R true _ (if m.pages + k.toNat ≤ pageLimit m ∧ R.grow (eraseS true c.store) x.toNat (m.pages + k.toNat) = true then _ else _)
        split
        · exact .inr ⟨rfl, h⟩
        · exact .inr ⟨rfl, h⟩
    | constI32 v => exact sim_push _ h
    | constI64 v => exact sim_push _ h
    | constF32 v => exact sim_push _ h
    | constF64 v => exact sim_push _ h
    | num op =>
      simp only [exec, Run.exec, eraseC, hM.num]
      rcases popArgs (numType op).1 c.stack with _ | ⟨args, s⟩
      · exact sim_stuck
      · simp only
        rcases R.num op args with _ | v
        · exact .inr ⟨rfl, h⟩
        · exact .inr ⟨rfl, h⟩

/-! ## Calls from outside -/

theorem invoke_sim (hM : SameMachine M R) {st : Store} (h : Alone R st) (fuel a : Nat) (args : List Value) :
    invoke M fuel a args st = .stuck ∨
      (Run.invoke R fuel a args (plain st) = plainCalled (invoke M fuel a args st) ∧ (invoke M fuel a args st).AloneIn R) := by
  unfold invoke Run.invoke
  cases hf : st.funcs[a]? with
  | none => exact .inl rfl
  | some fi =>
    obtain ⟨fi', h1, h2⟩ := h _ _ hf
    simp only [h1]
    have h3 := sim_call (sameMachine true hM) (step := exec M fuel) (step' := Run.exec R fuel) (fun inst hi i c hc => sim_exec (sameMachine true hM) fuel inst hi i c hc)
      h2 (c := ⟨st, [], args.reverse⟩) h
    change Sim R true _ (Run.call R (Run.exec R fuel) fi' ⟨plain st, [], args.reverse⟩) at h3
    rcases h3 with h3 | ⟨h3, h4⟩
    · exact .inl (by rw [h3])
    · rw [h3]
      cases ho : call M (exec M fuel) fi ⟨st, [], args.reverse⟩ with
      | normal c => rw [ho] at h4; exact .inr ⟨rfl, h4⟩
      | br l c => exact .inl rfl
      | ret c => exact .inl rfl
      | trap st => rw [ho] at h4; exact .inr ⟨rfl, h4⟩
      | timeout => exact .inr ⟨rfl, trivial⟩
      | stuck => exact .inl rfl

/-! ## Instantiation -/

theorem evalConst_sim (hM : SameMachine' M R b) (hi : Ident' R b inst) {st : Store} (h : Alone R st) {e : Expr} {v : Value}
    (he : evalConst M inst st e = some v) : Run.evalConst R (eraseS b st) e = some v := by
  unfold evalConst at he
  unfold Run.evalConst
  have h1 := sim_execs (fun i c hc => sim_exec hM 1 inst hi i c hc) e ⟨st, [], []⟩ h
  change Sim R b _ (Run.execs (Run.exec R 1) e ⟨eraseS b st, [], []⟩) at h1
  rcases h1 with h1 | ⟨h1, _⟩
  · rw [h1] at he; cases he
  · rw [h1]
    cases ho : execs (exec M 1 inst) e ⟨st, [], []⟩ with
    | normal c =>
      obtain ⟨st', ls, s⟩ := c
      rw [ho] at he
      rcases s with _ | ⟨w, _ | _⟩
      · cases he
      · exact he
      · cases he
    | br l c => rw [ho] at he; cases he
    | ret c => rw [ho] at he; cases he
    | trap st => rw [ho] at he; cases he
    | timeout => rw [ho] at he; cases he
    | stuck => rw [ho] at he; cases he

theorem evalOffset_sim (hM : SameMachine' M R b) (hi : Ident' R b inst) {st : Store} (h : Alone R st) {e : Expr} {n : Nat}
    (he : evalOffset M inst st e = some n) : Run.evalOffset R (eraseS b st) e = some n := by
  unfold evalOffset at he
  unfold Run.evalOffset
  cases hc : evalConst M inst st e with
  | none => rw [hc] at he; cases he
  | some v => rw [evalConst_sim hM hi h hc]; rw [hc] at he; exact he

theorem all_cons {α β : Type} {f : α → Option β} {x : α} {xs : List α} {ys : List β} (h : all f (x :: xs) = some ys) :
    ∃ y ys', f x = some y ∧ all f xs = some ys' ∧ ys = y :: ys' := by
  unfold Run.all at h
  cases hx : f x with
  | none => simp [hx] at h
  | some y =>
    cases hxs : Run.all f xs with
    | none => simp [hx, hxs] at h
    | some ys' => simp only [hx, hxs, Option.some.injEq] at h; exact ⟨y, ys', rfl, rfl, h.symm⟩

theorem all_map {α β γ δ : Type} {f : α → Option β} {g : γ → Option δ} (p : α → γ) (q : β → δ) : ∀ {xs : List α} {ys : List β},
    (∀ x ∈ xs, ∀ y, f x = some y → g (p x) = some (q y)) → all f xs = some ys → all g (xs.map p) = some (ys.map q)
  | [], ys, _, h => by simp only [Run.all, Option.some.injEq] at h; subst h; rfl
  | x :: xs, ys, hf, h => by
    obtain ⟨y, ys', h1, h2, rfl⟩ := all_cons h
    simp only [List.map_cons, Run.all, hf x (by simp) y h1, all_map p q (fun z hz => hf z (by simp [hz])) h2]

theorem all_mono {α β : Type} {f g : α → Option β} {xs : List α} {ys : List β} (hf : ∀ x ∈ xs, ∀ y, f x = some y → g x = some y) (h : all f xs = some ys) :
    all g xs = some ys := by
  have := all_map id id hf h
  simpa using this

theorem all_length {α β : Type} {f : α → Option β} : ∀ {xs : List α} {ys : List β}, all f xs = some ys → ys.length = xs.length
  | [], ys, h => by simp only [Run.all, Option.some.injEq] at h; subst h; rfl
  | x :: xs, ys, h => by
    obtain ⟨y, ys', _, h2, rfl⟩ := all_cons h
    simp only [List.length_cons, all_length h2]

theorem all_filterMap {α β : Type} {f : α → Option β} : ∀ {xs : List α} {ys : List β}, all f xs = some ys → xs.filterMap f = ys
  | [], ys, h => by simp only [Run.all, Option.some.injEq] at h; subst h; rfl
  | x :: xs, ys, h => by
    obtain ⟨y, ys', h1, h2, rfl⟩ := all_cons h
    simp only [List.filterMap_cons, h1, all_filterMap h2]

theorem all_mem {α β : Type} {f : α → Option β} : ∀ {xs : List α} {ys : List β}, all f xs = some ys → ∀ x ∈ xs, ∃ y, f x = some y
  | [], _, _, _, hx => nomatch hx
  | x :: xs, ys, h, z, hz => by
    obtain ⟨y, ys', h1, h2, rfl⟩ := all_cons h
    rcases List.mem_cons.mp hz with rfl | hz
    · exact ⟨y, h1⟩
    · exact all_mem h2 z hz

theorem map_modify {α β : Type} (p : α → β) (f : α → α) (g : β → β) (h : ∀ x, p (f x) = g (p x)) (l : List α) (i : Nat) :
    (l.modify i f).map p = (l.map p).modify i g := by
  apply List.ext_getElem?
  intro j
  simp only [List.getElem?_map, List.getElem?_modify]
  cases l[j]? with
  | none => rfl
  | some a => by_cases hij : i = j <;> simp [hij, h]

theorem range_look {as : List Nat} {n : Nat} (h : as = List.range n) (x a : Nat) (hx : as[x]? = some a) : a = x := by
  subst h
  obtain ⟨_, h1⟩ := List.getElem?_eq_some_iff.mp hx
  simpa using h1.symm

theorem range_get {as : List Nat} {n : Nat} (h : as = List.range n) {x : Nat} (hx : x < n) : as[x]? = some x := by
  subst h
  simp [hx]

/-- The index spaces of the instance, with imports that are all there is. -/
theorem newInst_spaces {m : Module} {imports : List Extern} {st : Store} (h : OnlyImports imports st) :
    (newInst m imports st).funcs = List.range (st.funcs.length + m.funcs.length) ∧
    (newInst m imports st).tables = List.range (st.tables.length + m.tables.length) ∧
    (newInst m imports st).mems = List.range (st.mems.length + m.mems.length) ∧
    (newInst m imports st).globals = List.range (st.globals.length + m.globals.length) := by
  simp only [newInst, h.funcs, h.tables, h.mems, h.globals, List.range_add, and_self]

theorem newInst_ident {m : Module} {imports : List Extern} {st : Store} (h : OnlyImports imports st) (ht : R.types = m.types) :
    Ident R (newInst m imports st) := by
  obtain ⟨h1, h2, h3, h4⟩ := newInst_spaces (m := m) h
  exact ⟨fun x t hx => by rw [ht]; exact hx, range_look h1, range_look h2, range_look h3, range_look h4⟩

theorem auxInst_ident {imports : List Extern} {st : Store} (h : OnlyImports imports st) : Ident' R false (auxInst imports) := by
  refine ⟨⟨?_, ?_, ?_, ?_, range_look h.globals⟩, fun _ => ⟨rfl, rfl, rfl⟩⟩ <;> intro x a hx <;> simp [auxInst] at hx

theorem newFunc_plain {m : Module} {inst : Inst} {fs : List FuncInst} (h : all (newFunc m inst) m.funcs = some fs) : fs.map plainFunc = Run.ownFuncs m := by
  rw [← all_filterMap h, List.map_filterMap]
  unfold Run.ownFuncs
  congr 1
  funext f
  unfold newFunc
  rcases m.types[f.ty.toNat]? with _ | t <;> rfl

theorem newFunc_mem {m : Module} {inst : Inst} {fs : List FuncInst} (h : all (newFunc m inst) m.funcs = some fs) {fi : FuncInst} (hfi : fi ∈ fs) :
    ∃ t f, fi = .own t inst f := by
  rw [← all_filterMap h, List.mem_filterMap] at hfi
  obtain ⟨f, _, hf⟩ := hfi
  unfold newFunc at hf
  rcases ht : m.types[f.ty.toNat]? with _ | t
  · rw [ht] at hf; cases hf
  · rw [ht] at hf; exact ⟨t, f, by simpa using hf.symm⟩

theorem alone_imports {imports : List Extern} {st : Store} {m : Module} (h : OnlyImports imports st) (hr : R.funcs = st.funcs.map plainFunc ++ Run.ownFuncs m) : Alone R st := by
  intro a fi hfi
  obtain ⟨ha, _⟩ := List.getElem?_eq_some_iff.mp hfi
  refine ⟨plainFunc fi, ?_, ?_⟩
  · rw [hr, List.getElem?_append_left (by simpa using ha), List.getElem?_map, hfi]; rfl
  · obtain ⟨t, id, rfl⟩ := h.hosts fi (List.mem_of_getElem? hfi)
    exact .host

theorem alone_allocated {imports : List Extern} {st st' : Store} {m : Module} (h : OnlyImports imports st) (ht : R.types = m.types)
    (hr : R.funcs = st.funcs.map plainFunc ++ Run.ownFuncs m) {fs : List FuncInst} (hfs : all (newFunc m (newInst m imports st)) m.funcs = some fs)
    (hst : st'.funcs = st.funcs ++ fs) : Alone R st' := by
  intro a fi hfi
  rw [hst] at hfi
  refine ⟨plainFunc fi, ?_, ?_⟩
  · rw [hr, ← newFunc_plain hfs, ← List.map_append, List.getElem?_map, hfi]; rfl
  · rcases List.mem_append.mp (List.mem_of_getElem? hfi) with h1 | h1
    · obtain ⟨t, id, rfl⟩ := h.hosts fi h1
      exact .host
    · obtain ⟨t, f, rfl⟩ := newFunc_mem hfs h1
      exact .own (newInst_ident h ht)

theorem plain_allocated {m : Module} {st : Store} {fs : List FuncInst} {gs : List Value} (hg : gs.length = m.globals.length) :
    plain (allocated m st fs gs) = Run.allocated m (provided st) gs := by
  simp only [plain, allocated, Run.allocated, provided, List.map_append, List.map_map]
  congr 2
  apply List.ext_getElem
  · simp [hg]
  · intro i h1 h2
    simp

theorem elemFits_sim (hi : Ident R inst) (hl : inst.funcs.length = R.funcs.length) {st : Store} {e : Elem × Nat} {x : Bool} (h : elemFits inst st e = some x) :
    Run.elemFits R (plain st) e = some x := by
  unfold elemFits at h
  unfold Run.elemFits
  rcases hk : look inst.tables st.tables e.1.table.toNat with _ | ⟨a, tb⟩
  · rw [hk] at h; cases h
  · obtain ⟨_, h2⟩ := look_ident hi.tables hk
    have h3 : (plain st).tables[e.1.table.toNat]? = some tb.elem := by simp [plain, h2]
    rw [hk] at h
    simp only [h3, ← hl]
    exact h

theorem dataFits_sim (hi : Ident R inst) {st : Store} {d : Data × Nat} {x : Bool} (h : dataFits inst st d = some x) : Run.dataFits (plain st) d = some x := by
  unfold dataFits at h
  unfold Run.dataFits
  rcases hk : look inst.mems st.mems d.1.mem.toNat with _ | ⟨a, y⟩
  · rw [hk] at h; cases h
  · obtain ⟨_, h2⟩ := look_ident hi.mems hk
    have h3 : (plain st).mems[d.1.mem.toNat]? = some y := h2
    rw [hk] at h
    rw [h3]
    exact h

theorem writeElem_plain (hi : Ident R inst) (hf : ∀ x < inst.funcs.length, inst.funcs[x]? = some x) {e : Elem × Nat}
    (h1 : (inst.tables[e.1.table.toNat]?).isSome) (h2 : ∀ x ∈ e.1.init, x.toNat < inst.funcs.length) (st : Store) :
    plain (writeElem inst st e) = Run.writeElem (plain st) e := by
  obtain ⟨a, ha⟩ := Option.isSome_iff_exists.mp h1
  obtain rfl := hi.tables _ _ ha
  unfold writeElem Run.writeElem
  simp only [ha, plain]
  congr 1
  apply map_modify
  intro tb
  have : e.1.init.map (fun x => inst.funcs[x.toNat]?) = e.1.init.map fun x => some x.toNat := List.map_congr_left fun x hx => hf _ (h2 x hx)
  simp only [this]

theorem writeData_plain (hi : Ident R inst) {d : Data × Nat} (h1 : (inst.mems[d.1.mem.toNat]?).isSome) (st : Store) :
    plain (writeData inst st d) = Run.writeData (plain st) d := by
  obtain ⟨a, ha⟩ := Option.isSome_iff_exists.mp h1
  obtain rfl := hi.mems _ _ ha
  unfold writeData Run.writeData
  simp only [ha, plain]

theorem foldl_plain {α : Type} (f : Store → α → Store) (g : Run.Store → α → Run.Store) : ∀ (l : List α), (∀ x ∈ l, ∀ st, plain (f st x) = g (plain st) x) →
    ∀ st, plain (l.foldl f st) = l.foldl g (plain st)
  | [], _, _ => rfl
  | x :: l, h, st => by
    simp only [List.foldl_cons]
    rw [foldl_plain f g l (fun y hy => h y (by simp [hy])), h x (by simp)]

theorem foldl_funcs {α : Type} (f : Store → α → Store) (h : ∀ st x, (f st x).funcs = st.funcs) : ∀ (l : List α) (st : Store), (l.foldl f st).funcs = st.funcs
  | [], _ => rfl
  | x :: l, st => by simp only [List.foldl_cons]; rw [foldl_funcs f h l, h]

theorem writeElem_funcs (st : Store) (e : Elem × Nat) : (writeElem inst st e).funcs = st.funcs := by unfold writeElem; split <;> rfl
theorem writeData_funcs (st : Store) (d : Data × Nat) : (writeData inst st d).funcs = st.funcs := by unfold writeData; split <;> rfl

theorem look_some {α : Type} {as : List Nat} {objs : List α} {x : Nat} {r : Nat × α} (h : look as objs x = some r) : (as[x]?).isSome := by
  unfold look at h
  rcases hx : as[x]? with _ | a
  · rw [hx] at h; cases h
  · rfl

theorem elemFits_some {st : Store} {e : Elem × Nat} {x : Bool} (h : elemFits inst st e = some x) :
    (inst.tables[e.1.table.toNat]?).isSome ∧ ∀ x ∈ e.1.init, x.toNat < inst.funcs.length := by
  unfold elemFits at h
  rcases hk : look inst.tables st.tables e.1.table.toNat with _ | r
  · rw [hk] at h; cases h
  · rw [hk] at h
    refine ⟨look_some hk, ?_⟩
    by_cases ha : e.1.init.all (fun x => decide (x.toNat < inst.funcs.length)) = true
    · simpa using ha
    · simp only [ha] at h; cases h

theorem dataFits_some {st : Store} {d : Data × Nat} {x : Bool} (h : dataFits inst st d = some x) : (inst.mems[d.1.mem.toNat]?).isSome := by
  unfold dataFits at h
  rcases hk : look inst.mems st.mems d.1.mem.toNat with _ | r
  · rw [hk] at h; cases h
  · exact look_some hk

theorem runStart_sim (hM : SameMachine M R) (hi : Ident R inst) {st : Store} (h : Alone R st) (m : Module) (fuel : Nat) :
    runStart M m inst fuel st = .stuck ∨
      (Run.runStart R m fuel (plain st) = plainStarted (runStart M m inst fuel st) ∧ (runStart M m inst fuel st).AloneIn R) := by
  unfold runStart Run.runStart
  cases m.start with
  | none => exact .inr ⟨rfl, h, hi⟩
  | some s =>
    simp only
    cases hf : inst.funcs[s.func.toNat]? with
    | none => exact .inl rfl
    | some a =>
      obtain rfl := hi.funcs _ _ hf
      simp only
      rcases invoke_sim hM h fuel s.func.toNat [] with h1 | ⟨h1, h2⟩
      · rw [h1]; exact .inl rfl
      · rw [h1]
        cases ho : invoke M fuel s.func.toNat [] st with
        | values vs st' =>
          rw [ho] at h2
          cases vs with
          | nil => exact .inr ⟨rfl, h2, hi⟩
          | cons v vs => exact .inl rfl
        | trap st' => rw [ho] at h2; exact .inr ⟨rfl, h2⟩
        | timeout => exact .inr ⟨rfl, trivial⟩
        | stuck => exact .inl rfl

theorem instantiate_sim (hM : SameMachine M R) {m : Module} {imports : List Extern} {st : Store} (h : OnlyImports imports st) (ht : R.types = m.types)
    (hr : R.funcs = st.funcs.map plainFunc ++ Run.ownFuncs m) (fuel : Nat) :
    instantiate M m imports fuel st = .stuck ∨
      (Run.instantiate R m (provided st) fuel = plainStarted (instantiate M m imports fuel st) ∧ (instantiate M m imports fuel st).AloneIn R) := by
  have hi := newInst_ident (R := R) h ht
  have hs := newInst_spaces (m := m) h
  unfold instantiate Run.instantiate
  simp only
  rcases hgs : all (fun (g : Global) => evalConst M (auxInst imports) st g.init) m.globals with _ | gs
  · exact .inl rfl
  rcases hfs : all (newFunc m (newInst m imports st)) m.funcs with _ | fs
  · exact .inl rfl
  have hgs' : all (fun (g : Global) => Run.evalConst R (Run.beforeGlobals (provided st)) g.init) m.globals = some gs :=
    all_mono (fun g _ v hv => evalConst_sim (sameMachine false hM) (auxInst_ident h) (alone_imports h hr) hv) hgs
  simp only [hgs', ← plain_allocated (fs := fs) (all_length hgs)]
  have ha : Alone R (allocated m st fs gs) := alone_allocated h ht hr hfs rfl
  have hlen : (newInst m imports st).funcs.length = R.funcs.length := by
    rw [hs.1, hr, ← newFunc_plain hfs]
    simp [all_length hfs]
  generalize allocated m st fs gs = st1 at ha
  have hi' : Ident' R true (newInst m imports st) := ⟨hi, nofun⟩
  rcases heo : all (fun (e : Elem) => evalOffset M (newInst m imports st) st1 e.offset) m.elem with _ | eo
  · exact .inl rfl
  rcases hdo : all (fun (d : Data) => evalOffset M (newInst m imports st) st1 d.offset) m.data with _ | dof
  · exact .inl rfl
  have heo' : all (fun (e : Elem) => Run.evalOffset R (plain st1) e.offset) m.elem = some eo :=
    all_mono (fun g _ v hv => evalOffset_sim (sameMachine true hM) hi' ha hv) heo
  have hdo' : all (fun (d : Data) => Run.evalOffset R (plain st1) d.offset) m.data = some dof :=
    all_mono (fun g _ v hv => evalOffset_sim (sameMachine true hM) hi' ha hv) hdo
  simp only [heo', hdo']
  rcases hbe : all (elemFits (newInst m imports st) st1) (m.elem.zip eo) with _ | be
  · exact .inl rfl
  rcases hbd : all (dataFits (newInst m imports st) st1) (m.data.zip dof) with _ | bd
  · exact .inl rfl
  have hbe' : all (Run.elemFits R (plain st1)) (m.elem.zip eo) = some be := all_mono (fun e _ v hv => elemFits_sim hi hlen hv) hbe
  have hbd' : all (Run.dataFits (plain st1)) (m.data.zip dof) = some bd := all_mono (fun e _ v hv => dataFits_sim hi hv) hbd
  simp only [hbe', hbd']
  by_cases hb : (be.all id && bd.all id) = true
  · simp only [hb, if_true]
    have h1 : ∀ st2, plain ((m.elem.zip eo).foldl (writeElem (newInst m imports st)) st2) = (m.elem.zip eo).foldl Run.writeElem (plain st2) := by
      apply foldl_plain
      intro e he st2
      obtain ⟨y, hy⟩ := all_mem hbe e he
      refine writeElem_plain hi (fun x hx => ?_) (elemFits_some hy).1 (elemFits_some hy).2 st2
      exact range_get hs.1 (by rw [hs.1] at hx; simpa using hx)
    have h2 : ∀ st2, plain ((m.data.zip dof).foldl (writeData (newInst m imports st)) st2) = (m.data.zip dof).foldl Run.writeData (plain st2) := by
      apply foldl_plain
      intro d hd st2
      obtain ⟨y, hy⟩ := all_mem hbd d hd
      exact writeData_plain hi (dataFits_some hy) st2
    rw [← h1, ← h2]
    refine runStart_sim hM hi ?_ m fuel
    intro a fi hfi
    rw [foldl_funcs _ writeData_funcs, foldl_funcs _ writeElem_funcs] at hfi
    exact ha a fi hfi
  · simp only [hb]
    exact .inr ⟨rfl, ha⟩

end Whasm.Link
