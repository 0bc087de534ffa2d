import Verif.Lemmas.Early
import Verif.Lemmas.OnePass
import Verif.Spec.Extent

/-! # The registers of the instructions of a function -/

namespace Whasm.Run
open Spec Spec.Pass

/-- No frame is marked. -/
def Awake (s : St) : Prop := ∀ c ∈ s.ctrls, c.unreachable = false

section
variable {C : Env} {s s' : St}

theorem pop_any_exact {x : Operand} (hs : Awake s) (h : pop_any s = some (x, s')) : s.opds.length = s'.opds.length + 1 := by
  unfold pop_any at h
  split at h
  · cases h
  · rename_i f fs e
    split at h
    · rw [hs f (by rw [e]; exact List.mem_cons_self)] at h
      cases h
    · split at h
      · cases h
      · rename_i e'
        cases h
        rw [e']
        rfl

theorem pop_opd_exact {x y : Operand} (hs : Awake s) (h : pop_opd x s = some (y, s')) : s.opds.length = s'.opds.length + 1 := by
  unfold pop_opd at h
  obtain ⟨⟨z, s1⟩, h1, h2⟩ := Option.bind_eq_some_iff.mp h
  have h3 := pop_any_exact hs h1
  dsimp only at h2
  repeat' split at h2
  all_goals cases h2
  all_goals exact h3

theorem awake_eq (hs : Awake s) (h : s'.ctrls = s.ctrls) : Awake s' := fun f hf => hs f (h ▸ hf)

theorem pops_exact : ∀ {ts : List Val} {s : St}, Awake s → ts.foldlM (fun s t => (pop_opd (.val t) s).map (·.2)) s = some s' → s.opds.length = s'.opds.length + ts.length
  | [], s, _, h => by cases h; rfl
  | t :: ts, s, hs, h => by
    rw [List.foldlM_cons] at h
    obtain ⟨s1, h1, h2⟩ := Option.bind_eq_some_iff.mp h
    obtain ⟨⟨_, s1⟩, h5, rfl⟩ := Option.map_eq_some_iff.mp h1
    have h3 := pop_opd_exact hs h5
    have h4 := pops_exact (awake_eq hs (pop_opd_less h5).1) h2
    rw [List.length_cons]
    omega

theorem pop_opds_exact {ts : List Val} (hs : Awake s) (h : pop_opds ts s = some s') : s.opds.length = s'.opds.length + ts.length := by
  have := pops_exact hs h
  rwa [List.length_reverse] at this

theorem unreachable_outs {s s' : St} (h : unreachable s = some s') : s'.ctrls.map (·.end_types) = s.ctrls.map (·.end_types) := by
  unfold unreachable at h
  split at h
  · cases h
  · rename_i e
    cases h
    rw [e]
    rfl

theorem instr_outs {C : Env} {i : Instr} {s s' : St} (h : Pass.instr C i s = some s') : s'.ctrls.map (·.end_types) = s.ctrls.map (·.end_types) := by
  unfold Pass.instr at h
  split at h
  · exact unreachable_outs h
  · obtain ⟨⟨_, s1⟩, h1, rfl⟩ := Option.map_eq_some_iff.mp h
    exact congrArg _ (pop_any_less h1).1
  · obtain ⟨⟨_, s1⟩, h1, h⟩ := Option.bind_eq_some_iff.mp h
    obtain ⟨⟨_, s2⟩, h2, h⟩ := Option.bind_eq_some_iff.mp h
    obtain ⟨⟨_, s3⟩, h3, rfl⟩ := Option.map_eq_some_iff.mp h
    exact congrArg _ ((pop_opd_less h3).1.trans ((pop_any_less h2).1.trans (pop_opd_less h1).1))
  · obtain ⟨r, _, h⟩ := Option.bind_eq_some_iff.mp h
    obtain ⟨s1, h1, h⟩ := Option.bind_eq_some_iff.mp h
    exact (unreachable_outs h).trans (congrArg _ (pop_opds_less h1).1)
  · obtain ⟨r, hr, h⟩ := Option.bind_eq_some_iff.mp h
    obtain ⟨⟨_, s1⟩, h1, h⟩ := Option.bind_eq_some_iff.mp h
    obtain ⟨s2, h2, rfl⟩ := Option.map_eq_some_iff.mp h
    exact congrArg _ ((push_opds_more r s2).1.trans ((pop_opds_less h2).1.trans (pop_opd_less h1).1))
  · obtain ⟨r, _, h⟩ := Option.bind_eq_some_iff.mp h
    split at h
    · obtain ⟨⟨_, s1⟩, h1, h⟩ := Option.bind_eq_some_iff.mp h
      obtain ⟨s2, h2, h⟩ := Option.bind_eq_some_iff.mp h
      exact (unreachable_outs h).trans (congrArg _ ((pop_opds_less h2).1.trans (pop_opd_less h1).1))
    · cases h
  · obtain ⟨r, _, h⟩ := Option.bind_eq_some_iff.mp h
    obtain ⟨s1, h1, h⟩ := Option.bind_eq_some_iff.mp h
    exact (unreachable_outs h).trans (congrArg _ (pop_opds_less h1).1)
  · obtain ⟨⟨ins, outs⟩, hi, h⟩ := Option.bind_eq_some_iff.mp h
    obtain ⟨s1, h1, rfl⟩ := Option.map_eq_some_iff.mp h
    exact congrArg _ ((push_opds_more outs s1).1.trans (pop_opds_less h1).1)

theorem pop_ctrl_outs {s s' : St} {f : Ctrl} (h : pop_ctrl s = some (f, s')) : s.ctrls.map (·.end_types) = f.end_types :: s'.ctrls.map (·.end_types) := by
  unfold pop_ctrl at h
  split at h
  · cases h
  · rename_i g fs e
    obtain ⟨s1, h1, h⟩ := Option.bind_eq_some_iff.mp h
    split at h
    · cases h
      rw [e]
      rfl
    · cases h
/-- The first frame has the result of the function. -/
def Based (r : List Val) (s : St) : Prop := s.ctrls = [] ∨ (s.ctrls.map (·.end_types)).getLast? = some r

theorem based_open {r : List Val} (hs : s.ctrls ≠ []) (h : Based r s) : (s.ctrls.map (·.end_types)).getLast? = some r := h.resolve_left hs

theorem based_pop {r : List Val} {f : Ctrl} (hs : s.ctrls ≠ []) (h : Based r s) (hp : pop_ctrl s = some (f, s')) : Based r s' := by
  have h1 := based_open hs h
  rw [pop_ctrl_outs hp] at h1
  cases e : s'.ctrls with
  | nil => exact .inl e
  | cons c cs =>
    refine .inr ?_
    rw [e] at h1 ⊢
    rwa [List.map_cons, List.getLast?_cons_cons] at h1

theorem based_push {r : List Val} {k : Kind} {a b : List Val} (h : (s.ctrls.map (·.end_types)).getLast? = some r) : Based r (push_ctrl k a b s) := by
  refine .inr ?_
  show ((_ :: s.ctrls).map _).getLast? = _
  cases e : s.ctrls with
  | nil => rw [e] at h; cases h
  | cons c cs =>
    rw [e] at h
    rwa [List.map_cons, List.map_cons, List.getLast?_cons_cons]

theorem based_next {r : List Val} {op : Op} (hs : Based r s) (h : validate C s op = some s') : Based r s' := by
  have ho := validate_open h
  have h0 := based_open ho hs
  unfold validate at h
  rw [if_neg ho] at h
  split at h
  · exact .inr ((congrArg _ (instr_outs h)).trans h0)
  · cases h; exact based_push h0
  · cases h; exact based_push h0
  · obtain ⟨⟨_, s1⟩, h1, rfl⟩ := Option.map_eq_some_iff.mp h
    exact based_push (by rw [(pop_opd_less h1).1]; exact h0)
  · obtain ⟨⟨f, s1⟩, h1, h⟩ := Option.bind_eq_some_iff.mp h
    dsimp only at h
    split at h
    · cases h
      have h2 := based_pop ho hs h1
      rcases h2 with h2 | h2
      · refine .inr ?_
        show ((_ :: s1.ctrls).map _).getLast? = _
        have h3 := h0
        rw [pop_ctrl_outs h1, h2] at h3
        rw [h2]
        exact h3
      · exact based_push h2
    · cases h
  · obtain ⟨⟨f, s1⟩, h1, h⟩ := Option.bind_eq_some_iff.mp h
    dsimp only at h
    split at h
    · cases h
    · cases h
      have h2 := based_pop ho hs h1
      unfold Based
      rw [(push_opds_more _ _).1]
      exact h2

theorem pop_ctrl_exact {f : Ctrl} (hs : Awake s) (h : pop_ctrl s = some (f, s')) : f.end_types.length ≤ s.opds.length ∧ s.ctrls = f :: s'.ctrls := by
  unfold pop_ctrl at h
  split at h
  · cases h
  · rename_i g fs e
    obtain ⟨s1, h1, h⟩ := Option.bind_eq_some_iff.mp h
    have := pop_opds_exact hs h1
    split at h
    · cases h
      exact ⟨by omega, e⟩
    · cases h

/-! ## Instructions -/

theorem numType_one (op : NumOp) : (numType op).2.length = 1 := by cases op <;> rfl

theorem sig_exact {ins outs : List Val} (hs : Awake s) (h : (pop_opds ins s).map (push_opds outs) = some s') : s'.opds.length + ins.length = s.opds.length + outs.length ∧ ins.length ≤ s.opds.length := by
  obtain ⟨s1, h1, rfl⟩ := Option.map_eq_some_iff.mp h
  have h2 := pop_opds_exact hs h1
  have h3 := (push_opds_more outs s1).2
  omega

theorem falling_get : ∀ {fs : List Ctrl} {k l : Nat} {c : Ctrl}, Falling k fs → fs[l]? = some c → c.height ≤ k
  | _ :: _, _, 0, _, h, e => by cases e; exact h.1
  | _ :: fs, _, l + 1, _, h, e => Nat.le_trans (falling_get (fs := fs) (l := l) h.2 e) h.1

/-- The label that a branch has. -/
theorem label_frame {l : Nat} {r : List Val} (hC : C.labels = []) (h : (labels C s)[l]? = some r) : ∃ c, s.ctrls[l]? = some c ∧ c.label_types = r := by
  unfold labels at h
  rw [hC, List.append_nil, List.getElem?_map] at h
  obtain ⟨c, h1, h2⟩ := Option.map_eq_some_iff.mp h
  refine ⟨c, ?_, h2⟩
  have h3 := (List.getElem?_eq_some_iff.mp h1).1
  rw [List.length_dropLast] at h3
  rwa [List.getElem?_dropLast, if_pos h3] at h1

/-- A branch is from what is there to below it. -/
theorem move_uses {g : Gen} {e : Nat → Nat} {n l h N : Nat} {r : List Val} (hC : C.labels = []) (hl : (labels C g.st)[l]? = some r) (hd : ∀ c ∈ g.st.ctrls[l]?, c.height + r.length ≤ h) (hN : n + h ≤ N) :
    ∀ w ∈ (branch g e n l h).uses, w.1 + w.2 ≤ N := by
  obtain ⟨c, h1, rfl⟩ := label_frame hC hl
  have h2 := hd c h1
  unfold branch Move.uses
  rw [h1]
  simp only [Option.map_some, Option.getD_some, List.mem_cons, List.not_mem_nil, or_false, forall_eq_or_imp, forall_eq]
  omega
end

section
variable {m : Module} {t : FuncTy} {ls : List Val} {g : Gen} {s' : St} {n N : Nat}

theorem rinstr_uses {i : Instr} {e : Nat → Nat} (hn : n = t.params.length + ls.length) (ha : Awake g.st) (ht : Tall g.st) (h : Pass.instr (bodyEnv .code m t ls) i g.st = some s') (h1 : n + g.st.opds.length ≤ N) (h2 : n + s'.opds.length ≤ N) :
    ∀ w ∈ (rinstr n g.st.opds.length (branch g e n) (fun x => ((funcSpace m)[x]?.map fun t => t.params.length).getD 0) (fun x => (m.types[x]?.map fun t => t.params.length).getD 0) t.results.length i).uses m t, w.1 + w.2 ≤ N := by
  have hC : (bodyEnv .code m t ls).labels = [] := rfl
  have one : ∀ {a : Nat}, a + 1 ≤ N → ∀ w ∈ [(a, 1)], w.1 + w.2 ≤ N := by
    intro a ha w hw
    cases List.mem_singleton.mp hw
    exact ha
  have hloc : ∀ {x : Nat} {v : Val}, (bodyEnv .code m t ls).locals[x]? = some v → x < n := by
    intro x v e
    have := (List.getElem?_eq_some_iff.mp e).1
    rwa [show (bodyEnv .code m t ls).locals = t.params ++ ls from rfl, List.length_append, ← hn] at this
  have jump : ∀ {s1 s2 : St} {r : List Val} {l : Nat}, Awake s1 → Tall s1 → s1.ctrls = g.st.ctrls → s1.opds.length ≤ g.st.opds.length → pop_opds r s1 = some s2 → (labels (bodyEnv .code m t ls) g.st)[l]? = some r →
      ∀ w ∈ (branch g e n l s1.opds.length).uses, w.1 + w.2 ≤ N := by
    intro s1 s2 r l a1 a2 a3 a4 a5 a6
    refine move_uses hC a6 (fun c hc => ?_) (by omega)
    have b1 := pop_opds_exact a1 a5
    have b2 := pop_opds_tall a2 a5
    unfold Tall at b2
    rw [(pop_opds_less a5).1, a3] at b2
    have b3 := falling_get b2 hc
    omega
  cases i with
  | br l =>
    obtain ⟨r, e1, h⟩ := Option.bind_eq_some_iff.mp h
    obtain ⟨s1, e2, _⟩ := Option.bind_eq_some_iff.mp h
    exact jump ha ht rfl (Nat.le_refl _) e2 e1
  | brIf l =>
    obtain ⟨r, e1, h⟩ := Option.bind_eq_some_iff.mp h
    obtain ⟨⟨_, s1⟩, e2, h⟩ := Option.bind_eq_some_iff.mp h
    obtain ⟨s2, e3, _⟩ := Option.map_eq_some_iff.mp h
    have d := pop_opd_exact ha e2
    have hl := (pop_opd_less e2).1
    have j := jump (awake_eq ha hl) (pop_opd_tall ht e2) hl (by omega) e3 e1
    intro w hw
    rcases List.mem_cons.mp hw with rfl | hw
    · dsimp only; omega
    · exact j w (by rwa [show s1.opds.length = g.st.opds.length - 1 by omega])
  | brTable xs l =>
    obtain ⟨r, e1, h⟩ := Option.bind_eq_some_iff.mp h
    dsimp only at h
    split at h
    · rename_i hx
      obtain ⟨⟨_, s1⟩, e2, h⟩ := Option.bind_eq_some_iff.mp h
      obtain ⟨s2, e3, _⟩ := Option.bind_eq_some_iff.mp h
      have d := pop_opd_exact ha e2
      have hl := (pop_opd_less e2).1
      have j := fun l => jump (l := l) (awake_eq ha hl) (pop_opd_tall ht e2) hl (by omega) e3
      rw [show s1.opds.length = g.st.opds.length - 1 by omega] at j
      intro w hw
      rcases List.mem_cons.mp hw with rfl | hw
      · dsimp only; omega
      · rcases List.mem_append.mp hw with hw | hw
        · exact j _ e1 w hw
        · obtain ⟨b, hb, hw⟩ := List.mem_flatMap.mp hw
          obtain ⟨x, hx', rfl⟩ := List.mem_map.mp hb
          exact j _ (of_decide_eq_true (List.all_eq_true.mp hx x hx')) w hw
    · cases h
  | ret =>
    replace h : (pop_opds t.results g.st).bind unreachable = some s' := h
    obtain ⟨s1, e2, _⟩ := Option.bind_eq_some_iff.mp h
    have d := pop_opds_exact ha e2
    intro w hw
    cases List.mem_singleton.mp hw
    dsimp only
    omega
  | select =>
    obtain ⟨⟨_, s1⟩, e1, h⟩ := Option.bind_eq_some_iff.mp h
    obtain ⟨⟨_, s2⟩, e2, h⟩ := Option.bind_eq_some_iff.mp h
    obtain ⟨⟨_, s3⟩, e3, rfl⟩ := Option.map_eq_some_iff.mp h
    have d1 := pop_opd_exact ha e1
    have a1 := awake_eq ha (pop_opd_less e1).1
    have d2 := pop_any_exact a1 e2
    have d3 := pop_opd_exact (awake_eq a1 (pop_any_less e2).1) e3
    intro w hw
    cases List.mem_singleton.mp hw
    dsimp only
    omega
  | drop | unreachable | nop | block | loop | ifElse | elseMark | endMark => exact nofun
  | constI32 v | constI64 v | constF32 v | constF64 v =>
    have hs := sig_exact (ins := []) ha h
    exact one (by simp only [List.length_cons, List.length_nil] at hs; omega)
  | num op =>
    have hs := sig_exact (ins := (numType op).1) (outs := (numType op).2) ha h
    have := numType_one op
    intro w hw
    rcases List.mem_cons.mp hw with rfl | hw
    · dsimp only; omega
    · cases List.mem_singleton.mp hw
      dsimp only
      omega
  | localGet x =>
    obtain ⟨⟨ins, outs⟩, hi, h⟩ := Option.bind_eq_some_iff.mp h
    obtain ⟨v, hv, hi⟩ := Option.map_eq_some_iff.mp hi
    cases hi
    have hs := sig_exact ha h
    have := hloc hv
    simp only [List.length_cons, List.length_nil] at hs
    intro w hw
    rcases List.mem_cons.mp hw with rfl | hw
    · dsimp only; omega
    · cases List.mem_singleton.mp hw
      dsimp only
      omega
  | localSet x | localTee x =>
    obtain ⟨⟨ins, outs⟩, hi, h⟩ := Option.bind_eq_some_iff.mp h
    obtain ⟨v, hv, hi⟩ := Option.map_eq_some_iff.mp hi
    cases hi
    have hs := sig_exact ha h
    have := hloc hv
    simp only [List.length_cons, List.length_nil] at hs
    intro w hw
    rcases List.mem_cons.mp hw with rfl | hw
    · dsimp only; omega
    · cases List.mem_singleton.mp hw
      dsimp only
      omega
  | globalGet x | memSize x | memGrow x =>
    obtain ⟨⟨ins, outs⟩, hi, h⟩ := Option.bind_eq_some_iff.mp h
    obtain ⟨v, hv, hi⟩ := Option.map_eq_some_iff.mp hi
    cases hi
    have hs := sig_exact ha h
    exact one (by simp only [List.length_cons, List.length_nil] at hs; omega)
  | globalSet x =>
    obtain ⟨⟨ins, outs⟩, hi, h⟩ := Option.bind_eq_some_iff.mp h
    obtain ⟨v, hv, hi⟩ := Option.bind_eq_some_iff.mp hi
    split at hi
    · cases hi
      have hs := sig_exact ha h
      exact one (by simp only [List.length_cons, List.length_nil] at hs; omega)
    · cases hi
  | load op a o =>
    obtain ⟨⟨ins, outs⟩, hi, h⟩ := Option.bind_eq_some_iff.mp h
    dsimp only [signature] at hi
    split at hi
    · cases hi
    · cases hi
      have hs := sig_exact ha h
      exact one (by simp only [List.length_cons, List.length_nil] at hs; omega)
  | store op a o =>
    obtain ⟨⟨ins, outs⟩, hi, h⟩ := Option.bind_eq_some_iff.mp h
    dsimp only [signature] at hi
    split at hi
    · cases hi
    · cases hi
      have hs := sig_exact ha h
      simp only [List.length_cons, List.length_nil] at hs
      intro w hw
      cases List.mem_singleton.mp hw
      dsimp only
      omega
  | call x =>
    obtain ⟨⟨ins, outs⟩, hi, h⟩ := Option.bind_eq_some_iff.mp h
    obtain ⟨v, hv, hi⟩ := Option.map_eq_some_iff.mp hi
    cases hi
    have hs := sig_exact ha h
    replace hv : (funcSpace m)[x.toNat]? = some v := hv
    intro w hw
    simp only [rinstr, RInstr.uses, hv, Option.map_some, Option.getD_some, List.mem_cons, List.not_mem_nil, or_false] at hw
    rcases hw with rfl | rfl
    all_goals dsimp only
    all_goals omega
  | callIndirect x y =>
    obtain ⟨⟨ins, outs⟩, hi, h⟩ := Option.bind_eq_some_iff.mp h
    obtain ⟨tb, _, hi⟩ := Option.bind_eq_some_iff.mp hi
    split at hi
    · obtain ⟨v, hv, hi⟩ := Option.map_eq_some_iff.mp hi
      cases hi
      have hs := sig_exact ha h
      rw [List.length_append] at hs
      simp only [List.length_cons, List.length_nil] at hs
      replace hv : m.types[x.toNat]? = some v := hv
      intro w hw
      simp only [rinstr, RInstr.uses, hv, Option.map_some, Option.getD_some, List.mem_cons, List.not_mem_nil, or_false] at hw
      rcases hw with rfl | rfl | rfl
      all_goals dsimp only
      all_goals omega
    · cases hi

/-- Of any opcode. -/
theorem emit_uses {op : Op} {e e' : Nat → Nat} (hn : n = t.params.length + ls.length) (hf : Framed g) (hb : Based t.results g.st) (ha : Awake g.st) (ht : Tall g.st) (h : validate (bodyEnv .code m t ls) g.st op = some s')
    (h1 : n + g.st.opds.length ≤ N) (h2 : s'.ctrls ≠ [] → n + s'.opds.length ≤ N) : ∀ w ∈ (emit m t n g op e e').uses m t, w.1 + w.2 ≤ N := by
  have ho := validate_open h
  unfold validate at h
  rw [if_neg ho] at h
  cases op with
  | block | loop | elseOp => exact nofun
  | ifOp r =>
    obtain ⟨⟨_, s1⟩, e1, _⟩ := Option.map_eq_some_iff.mp h
    have := pop_opd_exact ha e1
    intro w hw
    cases List.mem_singleton.mp hw
    dsimp only
    omega
  | endOp =>
    obtain ⟨⟨f, s1⟩, e1, _⟩ := Option.bind_eq_some_iff.mp h
    have ⟨d1, d2⟩ := pop_ctrl_exact ha e1
    unfold emit
    dsimp only
    split
    · rename_i hg
      have hk := hf.resolve_left fun q => ho q.1
      rw [hg, d2] at hk
      have h3 : s1.ctrls = [] := List.map_eq_nil_iff.mp (List.cons.inj hk).2
      have h4 := based_open ho hb
      rw [d2, h3] at h4
      have h5 : f.end_types = t.results := Option.some.inj h4
      rw [h5] at d1
      intro w hw
      cases List.mem_singleton.mp hw
      dsimp only
      omega
    · exact nofun
  | instr i =>
    have hc : s'.ctrls ≠ [] := by
      intro hc
      have := instr_kinds h
      rw [hc] at this
      exact ho (List.map_eq_nil_iff.mp this.symm)
    exact rinstr_uses hn ha ht h h1 (h2 hc)

/-- The pass over code is that over a beginning, then that over the rest. -/
theorem fold_split {C : Env} : ∀ {u v : List Op} {g g' : Gen}, (u ++ v).foldlM (gstep m C t n) g = some g' → ∃ g1, u.foldlM (gstep m C t n) g = some g1 ∧ v.foldlM (gstep m C t n) g1 = some g' := by
  intro u v g g' h
  rw [List.foldlM_append] at h
  exact Option.bind_eq_some_iff.mp h

theorem high_mono {C : Env} : ∀ {v : List Op} {g g' : Gen}, v.foldlM (gstep m C t n) g = some g' → g.high ≤ g'.high ∧ (v ≠ [] → g.st.opds.length ≤ g'.high) ∧ ∃ c, g'.code = g.code ++ c
  | [], _, _, h => by cases h; exact ⟨Nat.le_refl _, fun h => (h rfl).elim, [], (List.append_nil _).symm⟩
  | op :: v, g, g', h => by
    obtain ⟨s, hs, hv⟩ := fold_cons h
    obtain ⟨h1, _, c, h3⟩ := high_mono hv
    have h1 : max g.high g.st.opds.length ≤ g'.high := h1
    refine ⟨by omega, fun _ => by omega, emit m t n g op :: c, ?_⟩
    rw [h3]
    exact List.append_assoc _ _ _

theorem based_run {C : Env} {r : List Val} : ∀ {ops : List Op} {s s' : St}, Based r s → Pass.run C s ops = some s' → Based r s'
  | [], _, _, hs, h => by cases h; exact hs
  | op :: ops, s, _, hs, h => by
    unfold Pass.run at h
    rw [List.foldlM_cons] at h
    obtain ⟨s1, h1, h2⟩ := Option.bind_eq_some_iff.mp h
    exact based_run (based_next hs h1) h2
end

end Whasm.Run
