import Verif.Lemmas.Heights

/-! # Code that has passed so far can be completed -/

namespace Whasm.Run
open Spec Spec.Pass

/-- The heights of the frames: none is more than the number of operands, nor than that of a frame inside. -/
def Falling : Nat → List Ctrl → Prop
  | _, [] => True
  | n, f :: fs => f.height ≤ n ∧ Falling f.height fs

/-- The operands of the frames are there. -/
def Tall (s : St) : Prop := Falling s.opds.length s.ctrls

theorem falling_mono {n k : Nat} (h : n ≤ k) : ∀ {fs : List Ctrl}, Falling n fs → Falling k fs
  | [], _ => trivial
  | _ :: _, ⟨h1, h2⟩ => ⟨Nat.le_trans h1 h, h2⟩

section
variable {C : Env} {s s' : St}

theorem pop_any_tall {x : Operand} (hs : Tall s) (h : pop_any s = some (x, s')) : Tall s' := by
  unfold pop_any at h
  split at h
  · cases h
  · rename_i f fs e
    split at h
    · split at h
      · cases h
        exact hs
      · cases h
    · rename_i hn
      split at h
      · cases h
      · rename_i t ts e'
        cases h
        unfold Tall at hs ⊢
        dsimp only
        rw [e, e'] at hs
        rw [e'] at hn
        rw [e]
        have := hs.1
        rw [List.length_cons] at this hn
        exact ⟨by omega, hs.2⟩

theorem pop_opd_tall {x y : Operand} (hs : Tall s) (h : pop_opd x s = some (y, s')) : Tall s' := by
  unfold pop_opd at h
  obtain ⟨⟨z, s1⟩, h1, h2⟩ := Option.bind_eq_some_iff.mp h
  have h3 := pop_any_tall hs h1
  dsimp only at h2
  repeat' split at h2
  all_goals cases h2
  all_goals exact h3

theorem pops_tall : ∀ {ts : List Val} {s : St}, Tall s → ts.foldlM (fun s t => (pop_opd (.val t) s).map (·.2)) s = some s' → Tall s'
  | [], s, hs, h => by cases h; exact hs
  | t :: ts, s, hs, h => by
    rw [List.foldlM_cons] at h
    obtain ⟨s1, h1, h2⟩ := Option.bind_eq_some_iff.mp h
    obtain ⟨⟨x, s2⟩, h3, rfl⟩ := Option.map_eq_some_iff.mp h1
    exact pops_tall (pop_opd_tall hs h3) h2

theorem pop_opds_tall {ts : List Val} (hs : Tall s) (h : pop_opds ts s = some s') : Tall s' := pops_tall hs h

theorem push_opds_tall {ts : List Val} (hs : Tall s) : Tall (push_opds ts s) := by
  have h := push_opds_more ts s
  unfold Tall
  rw [h.1, h.2]
  exact falling_mono (Nat.le_add_right _ _) hs

theorem unreachable_tall (hs : Tall s) (h : unreachable s = some s') : Tall s' := by
  unfold unreachable at h
  split at h
  · cases h
  · rename_i f fs e
    cases h
    unfold Tall at hs ⊢
    rw [e] at hs
    dsimp only
    rw [List.length_drop]
    have := hs.1
    exact ⟨by dsimp only; omega, hs.2⟩

theorem instr_tall {i : Instr} (hs : Tall s) (h : Pass.instr C i s = some s') : Tall s' := by
  unfold Pass.instr at h
  split at h
  · exact unreachable_tall hs h
  · obtain ⟨⟨_, s1⟩, h1, rfl⟩ := Option.map_eq_some_iff.mp h
    exact pop_any_tall hs h1
  · obtain ⟨⟨_, s1⟩, h1, h⟩ := Option.bind_eq_some_iff.mp h
    obtain ⟨⟨_, s2⟩, h2, h⟩ := Option.bind_eq_some_iff.mp h
    obtain ⟨⟨_, s3⟩, h3, rfl⟩ := Option.map_eq_some_iff.mp h
    exact falling_mono (Nat.le_succ _) (pop_opd_tall (pop_any_tall (pop_opd_tall hs h1) h2) h3)
  · obtain ⟨r, _, h⟩ := Option.bind_eq_some_iff.mp h
    obtain ⟨s1, h1, h⟩ := Option.bind_eq_some_iff.mp h
    exact unreachable_tall (pop_opds_tall hs h1) h
  · obtain ⟨r, hr, h⟩ := Option.bind_eq_some_iff.mp h
    obtain ⟨⟨_, s1⟩, h1, h⟩ := Option.bind_eq_some_iff.mp h
    obtain ⟨s2, h2, rfl⟩ := Option.map_eq_some_iff.mp h
    exact push_opds_tall (pop_opds_tall (pop_opd_tall hs h1) h2)
  · obtain ⟨r, _, h⟩ := Option.bind_eq_some_iff.mp h
    split at h
    · obtain ⟨⟨_, s1⟩, h1, h⟩ := Option.bind_eq_some_iff.mp h
      obtain ⟨s2, h2, h⟩ := Option.bind_eq_some_iff.mp h
      exact unreachable_tall (pop_opds_tall (pop_opd_tall hs h1) h2) h
    · cases h
  · obtain ⟨r, _, h⟩ := Option.bind_eq_some_iff.mp h
    obtain ⟨s1, h1, h⟩ := Option.bind_eq_some_iff.mp h
    exact unreachable_tall (pop_opds_tall hs h1) h
  · obtain ⟨⟨ins, outs⟩, hi, h⟩ := Option.bind_eq_some_iff.mp h
    obtain ⟨s1, h1, rfl⟩ := Option.map_eq_some_iff.mp h
    exact push_opds_tall (pop_opds_tall hs h1)

theorem pop_ctrl_tall {f : Ctrl} (hs : Tall s) (h : pop_ctrl s = some (f, s')) : Tall s' := by
  unfold pop_ctrl at h
  split at h
  · cases h
  · rename_i g fs e
    obtain ⟨s1, h1, h⟩ := Option.bind_eq_some_iff.mp h
    split at h
    · rename_i hl
      cases h
      have h2 := pop_opds_tall hs h1
      unfold Tall at h2 ⊢
      rw [(pop_opds_less h1).1, e] at h2
      rw [hl]
      exact h2.2
    · cases h

theorem push_ctrl_tall {k : Kind} {l r : List Val} (hs : Tall s) : Tall (push_ctrl k l r s) := ⟨Nat.le_refl _, hs⟩

theorem validate_tall {op : Op} (hs : Tall s) (h : validate C s op = some s') : Tall s' := by
  unfold validate at h
  split at h
  · cases h
  · split at h
    · exact instr_tall hs h
    · cases h; exact push_ctrl_tall hs
    · cases h; exact push_ctrl_tall hs
    · obtain ⟨⟨_, s1⟩, h1, rfl⟩ := Option.map_eq_some_iff.mp h
      exact push_ctrl_tall (pop_opd_tall hs h1)
    · obtain ⟨⟨f, s1⟩, h1, h⟩ := Option.bind_eq_some_iff.mp h
      dsimp only at h
      split at h
      · cases h
        exact push_ctrl_tall (pop_ctrl_tall hs h1)
      · cases h
    · obtain ⟨⟨f, s1⟩, h1, h⟩ := Option.bind_eq_some_iff.mp h
      dsimp only at h
      split at h
      · cases h
      · cases h
        exact push_opds_tall (pop_ctrl_tall hs h1)

theorem run_tall : ∀ {ops : List Op} {s : St}, Tall s → Pass.run C s ops = some s' → Tall s'
  | [], _, hs, h => by cases h; exact hs
  | op :: ops, s, hs, h => by
    unfold Pass.run at h
    rw [List.foldlM_cons] at h
    obtain ⟨s1, h1, h2⟩ := Option.bind_eq_some_iff.mp h
    exact run_tall (ops := ops) (validate_tall hs h1) h2

/-! ## Ends -/

/-- What ends a block in any state. -/
def closing (f : Ctrl) : List Op := if f.kind = .ifThen then [.instr .unreachable, .elseOp, .instr .unreachable, .endOp] else [.instr .unreachable, .endOp]

/-- Any operands can be taken where the code is not reached. -/
theorem pops_unreachable {f : Ctrl} {fs : List Ctrl} (hc : s.ctrls = f :: fs) (hl : s.opds.length = f.height) (hu : f.unreachable = true) : ∀ {ts : List Val},
    ts.foldlM (fun s t => (pop_opd (.val t) s).map (·.2)) s = some s
  | [] => rfl
  | t :: ts => by
    rw [List.foldlM_cons]
    have : pop_opd (.val t) s = some (.val t, s) := by
      unfold pop_opd pop_any
      rw [hc]
      dsimp only
      rw [if_pos hl, if_pos hu]
      rfl
    rw [this]
    exact pops_unreachable hc hl hu

theorem pop_ctrl_unreachable {f : Ctrl} {fs : List Ctrl} (hc : s.ctrls = f :: fs) (hl : s.opds.length = f.height) (hu : f.unreachable = true) : pop_ctrl s = some (f, { s with ctrls := fs }) := by
  unfold pop_ctrl
  rw [hc]
  dsimp only
  unfold pop_opds
  rw [pops_unreachable hc hl hu]
  dsimp only [Option.bind_some]
  rw [if_pos hl]

/-- After `unreachable` there are no operands in the block. -/
theorem to_unreachable {f : Ctrl} {fs : List Ctrl} (hs : Tall s) (hc : s.ctrls = f :: fs) :
    ∃ o, o.length = f.height ∧ validate C s (.instr .unreachable) = some ⟨o, { f with unreachable := true } :: fs⟩ := by
  refine ⟨s.opds.drop (s.opds.length - f.height), ?_, ?_⟩
  · unfold Tall at hs
    rw [hc] at hs
    have := hs.1
    rw [List.length_drop]
    omega
  · unfold validate
    rw [if_neg (by rw [hc]; exact List.cons_ne_nil _ _)]
    show unreachable s = _
    unfold unreachable
    rw [hc]

theorem run_cons_some {op : Op} {ops : List Op} {s s1 : St} (h : validate C s op = some s1) : Pass.run C s (op :: ops) = Pass.run C s1 ops := by
  unfold Pass.run
  rw [List.foldlM_cons, h]
  rfl

/-- After these opcodes the block has ended. -/
theorem run_closing {f : Ctrl} {fs : List Ctrl} (hs : Tall s) (hc : s.ctrls = f :: fs) : ∃ s', Pass.run C s (closing f) = some s' ∧ s'.ctrls = fs := by
  obtain ⟨o, ho, h1⟩ := to_unreachable (C := C) hs hc
  unfold closing
  split
  · rename_i hk
    have h2 := pop_ctrl_unreachable (s := ⟨o, { f with unreachable := true } :: fs⟩) rfl ho rfl
    have h3 : validate C ⟨o, { f with unreachable := true } :: fs⟩ .elseOp = some (push_ctrl .ifElse f.end_types f.end_types ⟨o, fs⟩) := by
      unfold validate
      rw [if_neg (List.cons_ne_nil _ _)]
      dsimp only
      rw [h2]
      exact if_pos hk
    obtain ⟨o', ho', h4⟩ := to_unreachable (C := C) (s := push_ctrl .ifElse f.end_types f.end_types ⟨o, fs⟩) (f := ⟨.ifElse, f.end_types, f.end_types, o.length, false⟩) (fs := fs)
      ⟨Nat.le_refl _, by
        unfold Tall at hs
        rw [hc] at hs
        show Falling o.length fs
        rw [ho]
        exact hs.2⟩ rfl
    have h5 := pop_ctrl_unreachable (s := ⟨o', ⟨.ifElse, f.end_types, f.end_types, o.length, true⟩ :: fs⟩) rfl ho' rfl
    have h6 : validate C ⟨o', ⟨.ifElse, f.end_types, f.end_types, o.length, true⟩ :: fs⟩ .endOp = some (push_opds f.end_types ⟨o', fs⟩) := by
      unfold validate
      rw [if_neg (List.cons_ne_nil _ _)]
      dsimp only
      rw [h5]
      dsimp only [Option.bind_some]
      exact if_neg fun h => (by cases h.1)
    exact ⟨_, by rw [run_cons_some h1, run_cons_some h3, run_cons_some h4, run_cons_some h6]; rfl, (push_opds_more _ _).1⟩
  · rename_i hk
    have h2 := pop_ctrl_unreachable (s := ⟨o, { f with unreachable := true } :: fs⟩) rfl ho rfl
    have h3 : validate C ⟨o, { f with unreachable := true } :: fs⟩ .endOp = some (push_opds f.end_types ⟨o, fs⟩) := by
      unfold validate
      rw [if_neg (List.cons_ne_nil _ _)]
      dsimp only
      rw [h2]
      exact if_neg fun h => hk h.1
    exact ⟨_, by rw [run_cons_some h1, run_cons_some h3]; rfl, (push_opds_more _ _).1⟩

theorem run_both {u v : List Op} {s s1 : St} (h : Pass.run C s u = some s1) : Pass.run C s (u ++ v) = Pass.run C s1 v := by
  unfold Pass.run at h ⊢
  rw [List.foldlM_append, h]
  rfl

/-- All blocks and the function can be ended. -/
theorem run_close : ∀ {fs : List Ctrl} {s : St}, Tall s → s.ctrls = fs → ∃ s', Pass.run C s (fs.flatMap closing) = some s' ∧ s'.ctrls = []
  | [], s, _, hc => ⟨s, rfl, hc⟩
  | f :: fs, s, hs, hc => by
    obtain ⟨s1, h1, h2⟩ := run_closing (C := C) hs hc
    obtain ⟨s2, h3, h4⟩ := run_close (run_tall hs h1) h2
    exact ⟨s2, by rw [List.flatMap_cons, run_both h1]; exact h3, h4⟩

end

/-- These opcodes have few bytes. -/
theorem closing_bytes (D : Dialect) : ∀ (fs : List Ctrl), ∃ c, GSeq (GOp D) c (fs.flatMap closing) ∧ c.length ≤ 4 * fs.length
  | [] => ⟨[], .nil, Nat.le_refl _⟩
  | f :: fs => by
    obtain ⟨c, h1, h2⟩ := closing_bytes D fs
    rw [List.flatMap_cons]
    unfold closing
    split
    · exact ⟨[0x00] ++ ([0x05] ++ ([0x00] ++ ([0x0B] ++ c))), .cons (.instr .unreachable trivial) (.cons .elseOp (.cons (.instr .unreachable trivial) (.cons .endOp h1))), by
        simp only [List.length_append, List.length_cons, List.length_nil]; omega⟩
    · exact ⟨[0x00] ++ ([0x0B] ++ c), .cons (.instr .unreachable trivial) (.cons .endOp h1), by
        simp only [List.length_append, List.length_cons, List.length_nil]; omega⟩

end Whasm.Run
