import Verif.Spec.Frames

/-! # How fast the number of operands grows in the algorithm of the appendix -/

namespace Whasm.Run
open Spec Spec.Pass

/-- No result type of a block has more than one type. -/
def Slim (s : St) : Prop := ∀ f ∈ s.ctrls, f.end_types.length ≤ 1 ∧ f.label_types.length ≤ 1

/-- Nor has one of the environment. -/
structure SlimEnv (C : Env) : Prop where
  labels : ∀ r ∈ C.labels, r.length ≤ 1
  ret : ∀ r, C.ret = some r → r.length ≤ 1
  funcs : ∀ t ∈ C.funcs, t.results.length ≤ 1
  types : ∀ t ∈ C.types, t.results.length ≤ 1

/-- Nor one of the opcode. -/
def SlimOp : Op → Prop
  | .block t | .loop t | .ifOp t => t.length ≤ 1
  | _ => True

variable {C : Env} {s s' : St}

theorem pop_any_less {x : Operand} (h : pop_any s = some (x, s')) : s'.ctrls = s.ctrls ∧ s'.opds.length ≤ s.opds.length := by
  unfold pop_any at h
  split at h
  · cases h
  · split at h
    · split at h
      · cases h
        exact ⟨rfl, Nat.le_refl _⟩
      · cases h
    · split at h
      · cases h
      · rename_i e
        cases h
        exact ⟨rfl, by rw [e]; exact Nat.le_succ _⟩

theorem pop_opd_less {x y : Operand} (h : pop_opd x s = some (y, s')) : s'.ctrls = s.ctrls ∧ s'.opds.length ≤ s.opds.length := by
  unfold pop_opd at h
  obtain ⟨⟨z, s1⟩, h1, h2⟩ := Option.bind_eq_some_iff.mp h
  have h3 := pop_any_less h1
  dsimp only at h2
  repeat' split at h2
  all_goals cases h2
  all_goals exact h3

theorem pops_less : ∀ {ts : List Val} {s : St}, ts.foldlM (fun s t => (pop_opd (.val t) s).map (·.2)) s = some s' → s'.ctrls = s.ctrls ∧ s'.opds.length ≤ s.opds.length
  | [], s, h => by cases h; exact ⟨rfl, Nat.le_refl _⟩
  | t :: ts, s, h => by
    rw [List.foldlM_cons] at h
    obtain ⟨s1, h1, h2⟩ := Option.bind_eq_some_iff.mp h
    obtain ⟨⟨x, s2⟩, h3, rfl⟩ := Option.map_eq_some_iff.mp h1
    have h4 := pop_opd_less h3
    have h5 := pops_less h2
    exact ⟨h5.1.trans h4.1, Nat.le_trans h5.2 h4.2⟩

theorem pop_opds_less {ts : List Val} (h : pop_opds ts s = some s') : s'.ctrls = s.ctrls ∧ s'.opds.length ≤ s.opds.length := pops_less h

theorem push_opds_more : ∀ (ts : List Val) (s : St), (push_opds ts s).ctrls = s.ctrls ∧ (push_opds ts s).opds.length = s.opds.length + ts.length
  | [], _ => ⟨rfl, rfl⟩
  | t :: ts, s => by
    have h := push_opds_more ts (push_opd (.val t) s)
    refine ⟨h.1, h.2.trans ?_⟩
    show s.opds.length + 1 + ts.length = s.opds.length + (ts.length + 1)
    omega

theorem unreachable_less (h : unreachable s = some s') (hs : Slim s) : Slim s' ∧ s'.opds.length ≤ s.opds.length := by
  unfold unreachable at h
  split at h
  · cases h
  · rename_i f fs e
    cases h
    refine ⟨?_, by rw [List.length_drop]; omega⟩
    intro g hg
    rcases List.mem_cons.mp hg with rfl | hg
    · exact hs f (by rw [e]; exact List.mem_cons_self)
    · exact hs g (by rw [e]; exact List.mem_cons_of_mem _ hg)

theorem slim_eq (hs : Slim s) (h : s'.ctrls = s.ctrls) : Slim s' := fun f hf => hs f (h ▸ hf)

theorem labels_slim (hC : SlimEnv C) (hs : Slim s) {l : Nat} {r : List Val} (h : (labels C s)[l]? = some r) : r.length ≤ 1 := by
  rcases List.mem_append.mp (List.mem_of_getElem? h) with h | h
  · obtain ⟨f, hf, rfl⟩ := List.mem_map.mp h
    exact (hs f (List.dropLast_subset _ hf)).2
  · exact hC.labels r h

theorem numType_slim (op : NumOp) : (numType op).2.length ≤ 1 := by cases op <;> exact Nat.le_refl _

theorem signature_slim (hC : SlimEnv C) {i : Instr} {ins outs : List Val} (h : signature C i = some (ins, outs)) : outs.length ≤ 1 := by
  unfold signature at h
  split at h
  case h_6 op => 
    have e : (numType op).2 = outs := congrArg Prod.snd (Option.some.inj h)
    rw [← e]
    exact numType_slim op
  case h_16 x =>
    obtain ⟨t, h1, h2⟩ := Option.map_eq_some_iff.mp h
    cases h2
    exact hC.funcs t (List.mem_of_getElem? h1)
  case h_17 x y =>
    obtain ⟨_, _, h2⟩ := Option.bind_eq_some_iff.mp h
    split at h2
    · obtain ⟨t, h3, h4⟩ := Option.map_eq_some_iff.mp h2
      cases h4
      exact hC.types t (List.mem_of_getElem? h3)
    · cases h2
  case h_18 => cases h
  all_goals first
    | (cases h; first | exact Nat.le_refl _ | exact Nat.zero_le _)
    | (obtain ⟨_, _, h2⟩ := Option.map_eq_some_iff.mp h
       cases h2; first | exact Nat.le_refl _ | exact Nat.zero_le _)
    | (obtain ⟨_, _, h2⟩ := Option.bind_eq_some_iff.mp h
       split at h2 <;> cases h2 <;> first | exact Nat.le_refl _ | exact Nat.zero_le _)
    | (split at h <;> cases h <;> first | exact Nat.le_refl _ | exact Nat.zero_le _)

theorem instr_more (hC : SlimEnv C) (hs : Slim s) {i : Instr} (h : Pass.instr C i s = some s') : Slim s' ∧ s'.opds.length ≤ s.opds.length + 1 := by
  unfold Pass.instr at h
  split at h
  · have := unreachable_less h hs
    exact ⟨this.1, by omega⟩
  · obtain ⟨⟨_, s1⟩, h1, rfl⟩ := Option.map_eq_some_iff.mp h
    have := pop_any_less h1
    exact ⟨slim_eq hs this.1, by dsimp only; omega⟩
  · obtain ⟨⟨_, s1⟩, h1, h⟩ := Option.bind_eq_some_iff.mp h
    obtain ⟨⟨_, s2⟩, h2, h⟩ := Option.bind_eq_some_iff.mp h
    obtain ⟨⟨_, s3⟩, h3, rfl⟩ := Option.map_eq_some_iff.mp h
    have e1 := pop_opd_less h1
    have e2 := pop_any_less h2
    have e3 := pop_opd_less h3
    refine ⟨slim_eq hs (e3.1.trans (e2.1.trans e1.1)), ?_⟩
    show s3.opds.length + 1 ≤ _
    omega
  · obtain ⟨r, _, h⟩ := Option.bind_eq_some_iff.mp h
    obtain ⟨s1, h1, h⟩ := Option.bind_eq_some_iff.mp h
    have e1 := pop_opds_less h1
    have e2 := unreachable_less h (slim_eq hs e1.1)
    exact ⟨e2.1, by omega⟩
  · obtain ⟨r, hr, h⟩ := Option.bind_eq_some_iff.mp h
    obtain ⟨⟨_, s1⟩, h1, h⟩ := Option.bind_eq_some_iff.mp h
    obtain ⟨s2, h2, rfl⟩ := Option.map_eq_some_iff.mp h
    have e1 := pop_opd_less h1
    have e2 := pop_opds_less h2
    have e3 := push_opds_more r s2
    have := labels_slim hC hs hr
    exact ⟨slim_eq hs (e3.1.trans (e2.1.trans e1.1)), by omega⟩
  · obtain ⟨r, _, h⟩ := Option.bind_eq_some_iff.mp h
    split at h
    · obtain ⟨⟨_, s1⟩, h1, h⟩ := Option.bind_eq_some_iff.mp h
      obtain ⟨s2, h2, h⟩ := Option.bind_eq_some_iff.mp h
      have e1 := pop_opd_less h1
      have e2 := pop_opds_less h2
      have e3 := unreachable_less h (slim_eq hs (e2.1.trans e1.1))
      exact ⟨e3.1, by omega⟩
    · cases h
  · obtain ⟨r, _, h⟩ := Option.bind_eq_some_iff.mp h
    obtain ⟨s1, h1, h⟩ := Option.bind_eq_some_iff.mp h
    have e1 := pop_opds_less h1
    have e2 := unreachable_less h (slim_eq hs e1.1)
    exact ⟨e2.1, by omega⟩
  · obtain ⟨⟨ins, outs⟩, hi, h⟩ := Option.bind_eq_some_iff.mp h
    obtain ⟨s1, h1, rfl⟩ := Option.map_eq_some_iff.mp h
    have e1 := pop_opds_less h1
    have e2 := push_opds_more outs s1
    have := signature_slim hC hi
    exact ⟨slim_eq hs (e2.1.trans e1.1), by omega⟩

theorem push_ctrl_slim (hs : Slim s) {k : Kind} {a b : List Val} (ha : a.length ≤ 1) (hb : b.length ≤ 1) : Slim (push_ctrl k a b s) := by
  intro f hf
  rcases List.mem_cons.mp hf with rfl | hf
  · exact ⟨hb, ha⟩
  · exact hs f hf

theorem pop_ctrl_less {f : Ctrl} (h : pop_ctrl s = some (f, s')) (hs : Slim s) : Slim s' ∧ s'.opds.length ≤ s.opds.length ∧ f.end_types.length ≤ 1 := by
  unfold pop_ctrl at h
  split at h
  · cases h
  · rename_i g fs e
    obtain ⟨s1, h1, h⟩ := Option.bind_eq_some_iff.mp h
    split at h
    · cases h
      exact ⟨fun f hf => hs f (by rw [e]; exact List.mem_cons_of_mem _ hf), (pop_opds_less h1).2, (hs f (by rw [e]; exact List.mem_cons_self)).1⟩
    · cases h

/-- One opcode makes one operand at most. -/
theorem validate_more (hC : SlimEnv C) (hs : Slim s) {op : Op} (ho : SlimOp op) (h : validate C s op = some s') : Slim s' ∧ s'.opds.length ≤ s.opds.length + 1 := by
  unfold validate at h
  split at h
  · cases h
  · split at h
    · exact instr_more hC hs h
    · cases h
      exact ⟨push_ctrl_slim hs ho ho, Nat.le_succ _⟩
    · cases h
      exact ⟨push_ctrl_slim hs (Nat.zero_le _) ho, Nat.le_succ _⟩
    · obtain ⟨⟨_, s1⟩, h1, rfl⟩ := Option.map_eq_some_iff.mp h
      have e1 := pop_opd_less h1
      refine ⟨push_ctrl_slim (slim_eq hs e1.1) ho ho, ?_⟩
      show s1.opds.length ≤ _
      omega
    · obtain ⟨⟨f, s1⟩, h1, h⟩ := Option.bind_eq_some_iff.mp h
      have e1 := pop_ctrl_less h1 hs
      dsimp only at h
      split at h
      · cases h
        refine ⟨push_ctrl_slim e1.1 e1.2.2 e1.2.2, ?_⟩
        show s1.opds.length ≤ _
        omega
      · cases h
    · obtain ⟨⟨f, s1⟩, h1, h⟩ := Option.bind_eq_some_iff.mp h
      have e1 := pop_ctrl_less h1 hs
      dsimp only at h
      split at h
      · cases h
      · cases h
        have e2 := push_opds_more f.end_types s1
        exact ⟨slim_eq e1.1 e2.1, by omega⟩

/-- There are never more operands than opcodes. -/
theorem run_more (hC : SlimEnv C) : ∀ {ops : List Op} {s : St}, Slim s → (∀ o ∈ ops, SlimOp o) → Pass.run C s ops = some s' → s'.opds.length ≤ s.opds.length + ops.length
  | [], s, _, _, h => by cases h; exact Nat.le_refl _
  | o :: ops, s, hs, ho, h => by
    unfold Pass.run at h
    rw [List.foldlM_cons] at h
    obtain ⟨s1, h1, h2⟩ := Option.bind_eq_some_iff.mp h
    have e1 := validate_more hC hs (ho o List.mem_cons_self) h1
    have e2 := run_more hC e1.1 (fun o h => ho o (List.mem_cons_of_mem _ h)) h2
    rw [List.length_cons]
    omega

end Whasm.Run
