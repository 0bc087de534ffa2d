import Verif.Spec.OnePass
import Verif.Lemmas.Heights
import Verif.Spec.Bounded

/-! # The pass that translates makes the code that `compile` says -/

namespace Whasm.Run
open Spec Spec.Pass

/-! ## Frames of the algorithm -/

theorem unreachable_kinds {s s' : St} (h : unreachable s = some s') : s'.ctrls.map (·.kind) = s.ctrls.map (·.kind) := by
  unfold unreachable at h
  split at h
  · cases h
  · rename_i e
    cases h
    rw [e]
    rfl

theorem instr_kinds {C : Env} {i : Instr} {s s' : St} (h : Pass.instr C i s = some s') : s'.ctrls.map (·.kind) = s.ctrls.map (·.kind) := by
  unfold Pass.instr at h
  split at h
  · exact unreachable_kinds h
  · obtain ⟨⟨_, s1⟩, h1, rfl⟩ := Option.map_eq_some_iff.mp h
    exact congrArg _ (pop_any_less h1).1
  · obtain ⟨⟨_, s1⟩, h1, h⟩ := Option.bind_eq_some_iff.mp h
    obtain ⟨⟨_, s2⟩, h2, h⟩ := Option.bind_eq_some_iff.mp h
    obtain ⟨⟨_, s3⟩, h3, rfl⟩ := Option.map_eq_some_iff.mp h
    exact congrArg _ ((pop_opd_less h3).1.trans ((pop_any_less h2).1.trans (pop_opd_less h1).1))
  · obtain ⟨r, _, h⟩ := Option.bind_eq_some_iff.mp h
    obtain ⟨s1, h1, h⟩ := Option.bind_eq_some_iff.mp h
    exact (unreachable_kinds h).trans (congrArg _ (pop_opds_less h1).1)
  · obtain ⟨r, hr, h⟩ := Option.bind_eq_some_iff.mp h
    obtain ⟨⟨_, s1⟩, h1, h⟩ := Option.bind_eq_some_iff.mp h
    obtain ⟨s2, h2, rfl⟩ := Option.map_eq_some_iff.mp h
    exact congrArg _ ((push_opds_more r s2).1.trans ((pop_opds_less h2).1.trans (pop_opd_less h1).1))
  · obtain ⟨r, _, h⟩ := Option.bind_eq_some_iff.mp h
    split at h
    · obtain ⟨⟨_, s1⟩, h1, h⟩ := Option.bind_eq_some_iff.mp h
      obtain ⟨s2, h2, h⟩ := Option.bind_eq_some_iff.mp h
      exact (unreachable_kinds h).trans (congrArg _ ((pop_opds_less h2).1.trans (pop_opd_less h1).1))
    · cases h
  · obtain ⟨r, _, h⟩ := Option.bind_eq_some_iff.mp h
    obtain ⟨s1, h1, h⟩ := Option.bind_eq_some_iff.mp h
    exact (unreachable_kinds h).trans (congrArg _ (pop_opds_less h1).1)
  · obtain ⟨⟨ins, outs⟩, hi, h⟩ := Option.bind_eq_some_iff.mp h
    obtain ⟨s1, h1, rfl⟩ := Option.map_eq_some_iff.mp h
    exact congrArg _ ((push_opds_more outs s1).1.trans (pop_opds_less h1).1)

theorem pop_ctrl_kinds {s s' : St} {f : Ctrl} (h : pop_ctrl s = some (f, s')) : s.ctrls.map (·.kind) = f.kind :: s'.ctrls.map (·.kind) := by
  unfold pop_ctrl at h
  split at h
  · cases h
  · rename_i g fs e
    obtain ⟨s1, h1, h⟩ := Option.bind_eq_some_iff.mp h
    split at h
    · cases h
      rw [e]
      rfl
    · cases h

/-- The frames are the blocks that are open, and that of the function. -/
def Framed (g : Gen) : Prop := g.st.ctrls = [] ∧ g.blocks = [] ∨ g.st.ctrls.map (·.kind) = g.blocks.map (·.2) ++ [.func]

section
variable {m : Module} {C : Env} {t : FuncTy} {n : Nat}

/-- The state after an opcode. -/
def Gen.next (m : Module) (t : FuncTy) (n : Nat) (g : Gen) (op : Op) (s : St) : Gen :=
  ⟨s, g.pc + 1, blocksAfter g op, endsAfter g op, elsesAfter g op, g.code ++ [emit m t n g op], max g.high g.st.opds.length⟩

theorem fold_cons {g g' : Gen} {op : Op} {v : List Op} (h : (op :: v).foldlM (gstep m C t n) g = some g') :
    ∃ s, validate C g.st op = some s ∧ v.foldlM (gstep m C t n) (g.next m t n op s) = some g' := by
  rw [List.foldlM_cons] at h
  obtain ⟨g1, h1, h2⟩ := Option.bind_eq_some_iff.mp h
  obtain ⟨s, h3, rfl⟩ := Option.map_eq_some_iff.mp h1
  exact ⟨s, h3, h2⟩

theorem validate_open {s s' : St} {op : Op} (h : validate C s op = some s') : s.ctrls ≠ [] := by
  intro e
  unfold validate at h
  rw [if_pos e] at h
  cases h

theorem framed_next {g : Gen} {op : Op} {s : St} (hf : Framed g) (h : validate C g.st op = some s) : Framed (g.next m t n op s) ∧ (op = .elseOp → ∃ p bs, g.blocks = (p, .ifThen) :: bs) := by
  have hn := validate_open h
  have hk := hf.resolve_left fun e => hn e.1
  unfold validate at h
  rw [if_neg hn] at h
  cases op with
  | instr i => exact ⟨.inr ((instr_kinds h).trans hk), nofun⟩
  | block b =>
    cases h
    exact ⟨.inr (congrArg (Kind.block :: ·) hk), nofun⟩
  | loop b =>
    cases h
    exact ⟨.inr (congrArg (Kind.loop :: ·) hk), nofun⟩
  | ifOp b =>
    obtain ⟨⟨_, s1⟩, h1, rfl⟩ := Option.map_eq_some_iff.mp h
    exact ⟨.inr (congrArg (Kind.ifThen :: ·) ((congrArg (List.map _) (pop_opd_less h1).1).trans hk)), nofun⟩
  | elseOp =>
    obtain ⟨⟨f, s1⟩, h1, h⟩ := Option.bind_eq_some_iff.mp h
    have h2 := pop_ctrl_kinds h1
    dsimp only at h
    split at h
    · rename_i e
      cases h
      rw [hk, e] at h2
      cases hb : g.blocks with
      | nil => rw [hb] at h2; cases h2
      | cons b bs =>
        obtain ⟨p, k⟩ := b
        rw [hb] at h2
        injection h2 with e1 e2
        dsimp only at e1
        subst e1
        refine ⟨.inr ?_, fun _ => ⟨p, bs, rfl⟩⟩
        unfold Gen.next blocksAfter
        dsimp only
        rw [hb]
        exact congrArg (Kind.ifElse :: ·) e2.symm
    · cases h
  | endOp =>
    obtain ⟨⟨f, s1⟩, h1, h⟩ := Option.bind_eq_some_iff.mp h
    have h2 := pop_ctrl_kinds h1
    dsimp only at h
    split at h
    · cases h
    · cases h
      refine ⟨?_, nofun⟩
      have e := (push_opds_more f.end_types s1).1
      rw [hk] at h2
      unfold Framed Gen.next blocksAfter
      dsimp only
      rw [e]
      cases hb : g.blocks with
      | nil =>
        rw [hb] at h2
        injection h2 with _ e2
        exact .inl ⟨List.map_eq_nil_iff.mp e2.symm, rfl⟩
      | cons b bs =>
        rw [hb] at h2
        injection h2 with _ e2
        exact .inr e2.symm

/-! ## Places of blocks -/

/-- The blocks began one after the other, before `n`. -/
def Below : Nat → List (Nat × Kind) → Prop
  | _, [] => True
  | n, b :: bs => b.1 < n ∧ Below b.1 bs

theorem below_mono {k k' : Nat} (h : k ≤ k') : ∀ {bs : List (Nat × Kind)}, Below k bs → Below k' bs
  | [], _ => trivial
  | _ :: _, ⟨h1, h2⟩ => ⟨by omega, h2⟩

theorem below_lt {k : Nat} : ∀ {bs : List (Nat × Kind)}, Below k bs → ∀ b ∈ bs, b.1 < k
  | c :: bs, ⟨h1, h2⟩, b, hb => by
    rcases List.mem_cons.mp hb with rfl | hb
    · exact h1
    · have := below_lt h2 b hb
      omega

theorem below_next {g : Gen} {op : Op} {s : St} (h : Below g.pc g.blocks) : Below (g.next m t n op s).pc (g.next m t n op s).blocks := by
  unfold Gen.next blocksAfter
  dsimp only
  cases op with
  | instr => exact below_mono (Nat.le_succ _) h
  | block | loop | ifOp => exact ⟨Nat.lt_succ_self _, h⟩
  | elseOp =>
    cases hb : g.blocks with
    | nil => trivial
    | cons b bs =>
      rw [hb] at h
      exact ⟨Nat.lt_succ_of_lt h.1, h.2⟩
  | endOp =>
    cases hb : g.blocks with
    | nil => trivial
    | cons b bs =>
      rw [hb] at h
      exact below_mono (by have := h.1; omega) h.2

/-! ## The tables -/

theorem enter_ne {e : Nat → Nat} {p q k : Nat} (h : q ≠ p) : enter e p k q = e q := if_neg h

theorem enter_eq {e : Nat → Nat} {p k : Nat} : enter e p k p = k := if_pos rfl

theorem blocks_next {g : Gen} {op : Op} {s : St} {b : Nat × Kind} (h : b ∈ (g.next m t n op s).blocks) : b.1 = g.pc ∨ ∃ c ∈ g.blocks, c.1 = b.1 ∧ (c = b ∨ b.2 = .ifElse) := by
  unfold Gen.next blocksAfter at h
  dsimp only at h
  cases op with
  | instr => exact .inr ⟨b, h, rfl, .inl rfl⟩
  | block | loop | ifOp =>
    rcases List.mem_cons.mp h with rfl | h
    · exact .inl rfl
    · exact .inr ⟨b, h, rfl, .inl rfl⟩
  | elseOp =>
    cases hb : g.blocks with
    | nil => rw [hb] at h; cases h
    | cons c bs =>
      rw [hb] at h
      rcases List.mem_cons.mp h with rfl | h
      · exact .inr ⟨c, List.mem_cons_self, rfl, .inr rfl⟩
      · exact .inr ⟨b, List.mem_cons_of_mem _ h, rfl, .inl rfl⟩
  | endOp => exact .inr ⟨b, List.mem_of_mem_tail h, rfl, .inl rfl⟩

theorem endsAfter_ne {g : Gen} {op : Op} {p : Nat} (hb : ∀ b ∈ g.blocks, b.1 ≠ p) : endsAfter g op p = g.ends p := by
  cases op with
  | endOp =>
    unfold endsAfter
    cases e : g.blocks with
    | nil => rfl
    | cons b bs => exact enter_ne fun e' => hb b (by rw [e]; exact List.mem_cons_self) e'.symm
  | _ => rfl

theorem elsesAfter_ne {g : Gen} {op : Op} {p : Nat} (hb : ∀ b ∈ g.blocks, b ≠ (p, .ifThen)) : elsesAfter g op p = g.elses p := by
  cases op with
  | endOp | elseOp =>
    unfold elsesAfter
    cases e : g.blocks with
    | nil => rfl
    | cons b bs =>
      obtain ⟨q, k⟩ := b
      cases k with
      | ifThen => exact enter_ne fun e' => hb (q, .ifThen) (by rw [e]; exact List.mem_cons_self) (by rw [e'])
      | _ => rfl
  | _ => rfl

/-- An entry is not changed when its block has ended. -/
theorem ends_keep : ∀ {v : List Op} {g g' : Gen} {p : Nat}, v.foldlM (gstep m C t n) g = some g' → p < g.pc → (∀ b ∈ g.blocks, b.1 ≠ p) → g'.ends p = g.ends p
  | [], _, _, _, h, _, _ => by cases h; rfl
  | op :: v, g, g', p, h, hp, hb => by
    obtain ⟨s, _, h⟩ := fold_cons h
    rw [ends_keep h (Nat.lt_succ_of_lt hp) fun b hb' => ?_]
    · exact endsAfter_ne hb
    · rcases blocks_next hb' with e | ⟨c, hc, e, _⟩
      · omega
      · rw [← e]
        exact hb c hc

theorem elses_keep : ∀ {v : List Op} {g g' : Gen} {p : Nat}, v.foldlM (gstep m C t n) g = some g' → p < g.pc → (∀ b ∈ g.blocks, b ≠ (p, .ifThen)) → g'.elses p = g.elses p
  | [], _, _, _, h, _, _ => by cases h; rfl
  | op :: v, g, g', p, h, hp, hb => by
    obtain ⟨s, _, h⟩ := fold_cons h
    rw [elses_keep h (Nat.lt_succ_of_lt hp) fun b hb' => ?_]
    · exact elsesAfter_ne hb
    · rintro rfl
      rcases blocks_next hb' with e | ⟨c, hc, e, rfl | e'⟩
      · dsimp only at e
        omega
      · exact hb _ hc rfl
      · cases e'

/-- In the end there is in the table where the block ends. -/
theorem ends_final : ∀ {v : List Op} {g g' : Gen} {i : Nat} {b : Nat × Kind}, v.foldlM (gstep m C t n) g = some g' → g'.blocks = [] → Below g.pc g.blocks → g.blocks[i]? = some b → g'.ends b.1 = g.pc + scan i v
  | [], _, _, _, _, h, h0, _, hb => by
    cases h
    rw [h0] at hb
    cases hb
  | op :: v, g, g', i, b, h, h0, hl, hb => by
    obtain ⟨s, _, h⟩ := fold_cons h
    have hl' := below_next (m := m) (t := t) (n := n) (op := op) (s := s) hl
    cases op with
    | instr x =>
      rw [ends_final (i := i) h h0 hl' hb, scan]
      show g.pc + 1 + _ = _
      omega
    | block x | loop x | ifOp x =>
      rw [ends_final (i := i + 1) h h0 hl' hb, scan]
      show g.pc + 1 + _ = _
      omega
    | elseOp =>
      have e : ∃ k, (g.next m t n .elseOp s).blocks[i]? = some (b.1, k) := by
        unfold Gen.next blocksAfter
        dsimp only
        cases hg : g.blocks with
        | nil => rw [hg] at hb; cases hb
        | cons c bs =>
          rw [hg] at hb
          cases i with
          | zero => cases hb; exact ⟨_, rfl⟩
          | succ i => exact ⟨b.2, hb⟩
      obtain ⟨k, e⟩ := e
      have := ends_final (i := i) h h0 hl' e
      dsimp only at this
      rw [this, scan]
      show g.pc + 1 + _ = _
      omega
    | endOp =>
      cases hg : g.blocks with
      | nil => rw [hg] at hb; cases hb
      | cons c bs =>
        rw [hg] at hb hl
        cases i with
        | zero =>
          cases hb
          rw [ends_keep h (Nat.lt_succ_of_lt hl.1) fun x hx => ?_]
          · unfold Gen.next endsAfter
            dsimp only
            rw [hg]
            exact enter_eq
          · unfold Gen.next blocksAfter at hx
            dsimp only at hx
            rw [hg] at hx
            have := below_lt hl.2 x hx
            omega
        | succ i =>
          rw [ends_final (i := i) (b := b) h h0 hl' (by unfold Gen.next blocksAfter; dsimp only; rw [hg]; exact hb), scan]
          show g.pc + 1 + _ = _
          omega

/-- In the end there is in the table where the `if` goes on. -/
theorem elses_final : ∀ {v : List Op} {g g' : Gen} {i : Nat} {p : Nat}, v.foldlM (gstep m C t n) g = some g' → g'.blocks = [] → Below g.pc g.blocks → g.blocks[i]? = some (p, .ifThen) →
    g'.elses p = g.pc + scanElse i v
  | [], _, _, _, _, h, h0, _, hb => by
    cases h
    rw [h0] at hb
    cases hb
  | op :: v, g, g', i, p, h, h0, hl, hb => by
    obtain ⟨s, _, h⟩ := fold_cons h
    have hl' := below_next (m := m) (t := t) (n := n) (op := op) (s := s) hl
    cases op with
    | instr x =>
      rw [elses_final (i := i) h h0 hl' hb, scanElse]
      show g.pc + 1 + _ = _
      omega
    | block x | loop x | ifOp x =>
      rw [elses_final (i := i + 1) h h0 hl' hb, scanElse]
      show g.pc + 1 + _ = _
      omega
    | elseOp =>
      cases hg : g.blocks with
      | nil => rw [hg] at hb; cases hb
      | cons c bs =>
        rw [hg] at hb hl
        cases i with
        | zero =>
          cases hb
          rw [elses_keep h (Nat.lt_succ_of_lt hl.1) fun x hx => ?_]
          · unfold Gen.next elsesAfter
            dsimp only
            rw [hg]
            exact enter_eq
          · unfold Gen.next blocksAfter at hx
            dsimp only at hx
            rw [hg] at hx
            rintro rfl
            rcases List.mem_cons.mp hx with e | hx
            · cases e
            · exact absurd (below_lt hl.2 _ hx) (Nat.lt_irrefl _)
        | succ i =>
          rw [elses_final (i := i + 1) (p := p) h h0 hl' (by unfold Gen.next blocksAfter; dsimp only; rw [hg]; exact hb), scanElse]
          show g.pc + 1 + _ = _
          omega
    | endOp =>
      cases hg : g.blocks with
      | nil => rw [hg] at hb; cases hb
      | cons c bs =>
        rw [hg] at hb hl
        cases i with
        | zero =>
          cases hb
          rw [elses_keep h (Nat.lt_succ_of_lt hl.1) fun x hx => ?_]
          · unfold Gen.next elsesAfter
            dsimp only
            rw [hg]
            exact enter_eq
          · unfold Gen.next blocksAfter at hx
            dsimp only at hx
            rw [hg] at hx
            rintro rfl
            exact absurd (below_lt hl.2 _ hx) (Nat.lt_irrefl _)
        | succ i =>
          rw [elses_final (i := i) (p := p) h h0 hl' (by unfold Gen.next blocksAfter; dsimp only; rw [hg]; exact hb), scanElse]
          show g.pc + 1 + _ = _
          omega

end

/-! ## The code -/

theorem openAt_snoc {op : Op} : ∀ {u : List Op} {n : Nat} {s : List Nat}, openAt n s (u ++ [op]) = openAt (n + u.length) (openAt n s u) [op]
  | [], _, _ => rfl
  | o :: u, n, s => by
    have e : n + (o :: u).length = n + 1 + u.length := by rw [List.length_cons]; omega
    rw [e, List.cons_append]
    cases o <;> (rw [openAt]; exact openAt_snoc)

/-- What is known after `u`. -/
structure Inv (m : Module) (K : Codes) (f : Func) (t : FuncTy) (u : List Op) (g : Gen) : Prop where
  pc : g.pc = u.length
  run : Pass.run (bodyEnv .code m t f.locals) (start t.results) u = some g.st
  framed : Framed g
  below : Below g.pc g.blocks
  places : g.blocks.map (·.1) = openAt 0 [] u
  loops : ∀ b ∈ g.blocks, b.2 = .loop ↔ ∃ r, u[b.1]? = some (.loop r)
  high : g.high = ((List.range u.length).map (heightAt m K f)).foldl max 0

section
variable {m : Module} {K : Codes} {f : Func} {t : FuncTy} {u v : List Op} {op : Op} {g g' : Gen} {s : St} {n : Nat}

theorem run_snoc {C : Env} {s0 s s' : St} (h : Pass.run C s0 u = some s) (h' : validate C s op = some s') : Pass.run C s0 (u ++ [op]) = some s' := by
  unfold Pass.run at h ⊢
  rw [List.foldlM_append, h]
  show ([op].foldlM (validate C) s) = _
  rw [List.foldlM_cons, h']
  rfl

theorem height_here (ht : m.types[f.ty.toNat]? = some t) (hk : K f = u ++ v) (hi : Inv m K f t u g) : heightAt m K f u.length = g.st.opds.length := by
  unfold heightAt
  rw [ht, hk, List.take_left, Option.bind_some, hi.run]
  rfl

theorem inv_next (ht : m.types[f.ty.toNat]? = some t) (hk : K f = u ++ op :: v) (hi : Inv m K f t u g) (h : validate (bodyEnv .code m t f.locals) g.st op = some s) :
    Inv m K f t (u ++ [op]) (g.next m t n op s) := by
  obtain ⟨hf, he⟩ := framed_next (m := m) (t := t) (n := n) hi.framed h
  refine ⟨?_, run_snoc hi.run h, hf, below_next hi.below, ?_, ?_, ?_⟩
  · show g.pc + 1 = _
    rw [hi.pc, List.length_append]
    rfl
  · rw [openAt_snoc, ← hi.places]
    unfold Gen.next blocksAfter
    dsimp only
    have hp := hi.pc
    cases op with
    | block | loop | ifOp => rw [List.map_cons, hp]; simp [openAt]
    | instr => rfl
    | elseOp =>
      obtain ⟨p, bs, e⟩ := he rfl
      rw [e]
      rfl
    | endOp => rw [List.map_tail]; rfl
  · intro b hb
    have old : ∀ {c : Nat × Kind}, c ∈ g.blocks → ((u ++ [op])[c.1]? = u[c.1]?) := fun hc => List.getElem?_append_left (by rw [← hi.pc]; exact below_lt hi.below _ hc)
    have new : (u ++ [op])[g.pc]? = some op := by
      rw [hi.pc, List.getElem?_append_right (Nat.le_refl _), Nat.sub_self]
      rfl
    unfold Gen.next blocksAfter at hb
    dsimp only at hb
    cases op with
    | instr => rw [old hb]; exact hi.loops b hb
    | endOp =>
      have hb := List.mem_of_mem_tail hb
      rw [old hb]
      exact hi.loops b hb
    | block | loop | ifOp =>
      rcases List.mem_cons.mp hb with rfl | hb
      · dsimp only
        rw [new]
        simp
      · rw [old hb]; exact hi.loops b hb
    | elseOp =>
      obtain ⟨p, bs, e⟩ := he rfl
      rw [e] at hb
      rcases List.mem_cons.mp hb with rfl | hb
      · have hm : (p, Kind.ifThen) ∈ g.blocks := by rw [e]; exact List.mem_cons_self
        have h1 := hi.loops _ hm
        have h2 := old hm
        dsimp only at h1 h2 ⊢
        rw [h2, ← h1]
        simp
      · have hm : b ∈ g.blocks := by rw [e]; exact List.mem_cons_of_mem _ hb
        rw [old hm]
        exact hi.loops b hm
  · rw [List.length_append]
    show max g.high g.st.opds.length = ((List.range (u.length + 1)).map _).foldl max 0
    rw [List.range_succ, List.map_append, List.foldl_append, ← hi.high]
    show _ = max g.high (heightAt m K f u.length)
    rw [height_here ht hk hi]

/-- Branches to labels that exist are those of `compile`. -/
theorem branch_here (ht : m.types[f.ty.toNat]? = some t) (hk : K f = u ++ v) (hi : Inv m K f t u g) (hv : v.foldlM (gstep m (bodyEnv .code m t f.locals) t n) g = some g') (h0 : g'.blocks = []) {l : Nat}
    (hl : l < g.blocks.length) (h : Nat) : branch g g'.ends n l h = moveAt m K f n u.length l h := by
  obtain ⟨b, hb⟩ : ∃ b, g.blocks[l]? = some b := ⟨_, List.getElem?_eq_getElem hl⟩
  have hm := List.mem_of_getElem? hb
  have h1 : (openAt 0 [] u).getD l 0 = b.1 := by
    rw [← hi.places, List.getD_eq_getElem?_getD, List.getElem?_map, hb]
    rfl
  have h2 : u[b.1]? = (K f)[b.1]? := by
    rw [hk, List.getElem?_append_left]
    rw [← hi.pc]
    exact below_lt hi.below _ hm
  have h3 : goal (K f) u.length l = if b.2 = .loop then b.1 else g'.ends b.1 := by
    unfold goal
    have e : (K f).take u.length = u := by rw [hk, List.take_left]
    have e' : (K f).drop u.length = v := by rw [hk, List.drop_left]
    rw [e, e', h1]
    have hlp := hi.loops b hm
    rw [h2] at hlp
    split
    · rename_i r hr
      rw [if_pos (hlp.mpr ⟨r, hr⟩)]
    · rename_i hr
      rw [if_neg fun e => (hlp.mp e).elim fun r e => hr r e, ends_final hv h0 hi.below hb, hi.pc]
  have h4 : passTable m K f u.length l = g.st.ctrls[l]?.map fun c => (c.label_types.length, c.height) := by
    unfold passTable
    rw [ht, hk, List.take_left, Option.bind_some, hi.run]
    rfl
  unfold branch moveAt
  rw [h3, h4, List.getD_eq_getElem?_getD, hb]
  rfl

/-- Only branches to labels that exist matter. -/
theorem rinstr_congr {C : Env} {i : Instr} {B B' : Nat → Nat → Move} {h k : Nat} {P Q : Nat → Nat} {j : Nat} (hc : C.labels = []) (hj : s.ctrls.length ≤ j + 1) (hs : Pass.instr C i s = some s')
    (hB : ∀ l h, l < j → B l h = B' l h) : rinstr n h B P Q k i = rinstr n h B' P Q k i := by
  have hl : ∀ {l : Nat} {r : List Val}, (labels C s)[l]? = some r → l < j := by
    intro l r e
    have := (List.getElem?_eq_some_iff.mp e).1
    unfold labels at this
    rw [hc, List.append_nil, List.length_map, List.length_dropLast] at this
    omega
  cases i with
  | br l =>
    obtain ⟨r, h1, _⟩ := Option.bind_eq_some_iff.mp hs
    exact congrArg RInstr.jump (hB _ _ (hl h1))
  | brIf l =>
    obtain ⟨r, h1, _⟩ := Option.bind_eq_some_iff.mp hs
    exact congrArg (RInstr.jumpIf _) (hB _ _ (hl h1))
  | brTable ls l =>
    obtain ⟨r, h1, h2⟩ := Option.bind_eq_some_iff.mp hs
    dsimp only at h2
    split at h2
    · rename_i ha
      exact congr (f₁ := RInstr.jumpTable _ _) (congrArg (RInstr.jumpTable _) (List.map_congr_left fun x hx => hB _ _ (hl (of_decide_eq_true (List.all_eq_true.mp ha x hx))))) (hB _ _ (hl h1))
    · cases h2
  | _ => rfl

theorem end_kinds {C : Env} {g : Gen} {s : St} (hf : g.st.ctrls.map (·.kind) = g.blocks.map (·.2) ++ [.func]) (h : validate C g.st .endOp = some s) : s.ctrls.map (·.kind) = (g.blocks.map (fun b => b.2) ++ [Kind.func]).tail := by
  have hn := validate_open h
  unfold validate at h
  rw [if_neg hn] at h
  obtain ⟨⟨f, s1⟩, h1, h⟩ := Option.bind_eq_some_iff.mp h
  have h2 := pop_ctrl_kinds h1
  dsimp only at h
  split at h
  · cases h
  · cases h
    rw [(push_opds_more f.end_types s1).1, ← hf, h2]
    rfl

/-- The instruction for an opcode is that of `compile`. -/
theorem emit_here (ht : m.types[f.ty.toNat]? = some t) (hn : n = t.params.length + f.locals.length) (hk : K f = u ++ op :: v) (hi : Inv m K f t u g)
    (hv : (op :: v).foldlM (gstep m (bodyEnv .code m t f.locals) t n) g = some g') (h0 : g'.blocks = []) (hc : g'.st.ctrls = []) : emit m t n g op g'.ends g'.elses = compileAt m K f t u.length := by
  obtain ⟨s, hs, hv'⟩ := fold_cons hv
  obtain ⟨hf, he⟩ := framed_next (m := m) (t := t) (n := n) hi.framed hs
  have hl := below_next (m := m) (t := t) (n := n) (op := op) (s := s) hi.below
  have hfr := hi.framed.resolve_left fun e => validate_open hs e.1
  have hd : (K f).drop u.length = op :: v := by rw [hk, List.drop_left]
  unfold compileAt
  rw [hd, height_here ht hk hi, ← hn]
  cases op with
  | block | loop => rfl
  | ifOp b =>
    unfold emit
    dsimp only
    rw [elses_final (i := 0) (p := g.pc) hv' h0 hl rfl]
    show RInstr.goUnless _ (g.pc + 1 + _) = _
    rw [hi.pc]
  | elseOp =>
    obtain ⟨p, bs, e⟩ := he rfl
    unfold emit
    dsimp only
    have := ends_final (i := 0) (b := (p, .ifThen)) hv h0 hi.below (by rw [e]; rfl)
    dsimp only at this
    rw [e]
    show RInstr.go (g'.ends p) = _
    rw [this, hi.pc, scan]
    congr 1
    omega
  | endOp =>
    unfold emit
    dsimp only
    cases v with
    | nil =>
      cases hv'
      have hz := end_kinds hfr hs
      rw [show s.ctrls = [] from hc] at hz
      rw [if_pos (by cases hb : g.blocks with | nil => rfl | cons b bs => rw [hb] at hz; simp at hz)]
    | cons o v =>
      obtain ⟨s', hs', _⟩ := fold_cons hv'
      rw [if_neg fun e => ?_]
      have hz := end_kinds hfr hs
      rw [e] at hz
      exact validate_open hs' (List.map_eq_nil_iff.mp hz)
  | instr i =>
    unfold validate at hs
    rw [if_neg (validate_open (C := bodyEnv .code m t f.locals) (s' := s) (op := .instr i) (by unfold validate; exact hs))] at hs
    unfold emit
    dsimp only
    refine rinstr_congr (C := bodyEnv .code m t f.locals) (j := g.blocks.length) rfl ?_ hs fun l h hl => branch_here ht hk hi hv h0 hl h
    have := congrArg List.length hfr
    simp only [List.length_map, List.length_append, List.length_cons, List.length_nil] at this
    omega

/-- The instructions for the rest. -/
theorem code_here (ht : m.types[f.ty.toNat]? = some t) (hn : n = t.params.length + f.locals.length) : ∀ {v u : List Op} {g : Gen}, K f = u ++ v → Inv m K f t u g →
    v.foldlM (gstep m (bodyEnv .code m t f.locals) t n) g = some g' → g'.blocks = [] → g'.st.ctrls = [] →
    g'.code.map (fun i => i g'.ends g'.elses) = g.code.map (fun i => i g'.ends g'.elses) ++ (List.range' u.length v.length).map (compileAt m K f t) ∧ Inv m K f t (K f) g'
  | [], u, g, hk, hi, hv, _, _ => by
    cases hv
    rw [List.append_nil] at hk
    exact ⟨(List.append_nil _).symm, hk ▸ hi⟩
  | op :: v, u, g, hk, hi, hv, h0, hc => by
    obtain ⟨s, hs, hv'⟩ := fold_cons hv
    have hi' := inv_next (n := n) ht hk hi hs
    obtain ⟨h1, h2⟩ := code_here ht hn (by rw [hk, List.append_assoc]; rfl) hi' hv' h0 hc
    refine ⟨h1.trans ?_, h2⟩
    show (g.code ++ [emit m t n g op]).map _ ++ _ = _
    rw [List.map_append, List.append_assoc, List.length_cons, List.range'_succ, List.map_cons, List.map_cons, ← emit_here ht hn hk hi hv h0 hc, List.length_append]
    rfl

theorem inv_start : Inv m K f t [] (gstart t.results) := ⟨rfl, rfl, .inr rfl, trivial, rfl, nofun, rfl⟩

theorem framed_end : ∀ {v : List Op} {g : Gen} {C : Env}, Framed g → v.foldlM (gstep m C t n) g = some g' → Framed g'
  | [], _, _, hf, hv => by cases hv; exact hf
  | _ :: _, _, _, hf, hv => by
    obtain ⟨s, hs, hv'⟩ := fold_cons hv
    exact framed_end (framed_next hf hs).1 hv'

/-- The pass does not fail before the algorithm does. -/
theorem fold_run {C : Env} : ∀ {v : List Op} {g : Gen}, (v.foldlM (gstep m C t n) g).map (·.st) = Pass.run C g.st v
  | [], _ => rfl
  | op :: v, g => by
    rw [List.foldlM_cons]
    unfold Pass.run
    rw [List.foldlM_cons]
    show ((gstep m C t n g op).bind _).map _ = (validate C g.st op).bind _
    unfold gstep
    cases h : validate C g.st op with
    | none => rfl
    | some s => exact fold_run (v := v)

end

/-! ## Only the code of the functions of the machine matters -/

section
variable {M : Machine} {R R' : RCodes} {N N' : Func → Nat} {W : Nat}

theorem rexec_call {st : Store} {g : Regs} {i : RInstr} {fi : FuncInst} {d : Nat} (h : rexec M st g i = .call fi d) : fi ∈ M.all := by
  cases i with
  | call x d =>
    unfold rexec at h
    dsimp only at h
    split at h
    · rename_i e
      cases h
      exact List.mem_append_left _ (List.mem_of_getElem? e)
    · cases h
  | callIndirect x y r d =>
    unfold rexec at h
    dsimp only at h
    split at h
    · rename_i e
      split at h
      · cases h
        obtain ⟨k, _, e⟩ := Option.bind_eq_some_iff.mp e
        exact List.mem_of_getElem? e
      · cases h
    · cases h
  | _ =>
    unfold rexec at h
    first | (cases h; done) | (dsimp only at h; repeat' (split at h)) <;> cases h

/-- All calls are of functions of the machine. -/
def Mine (M : Machine) : BState → Prop
  | .running _ _ a as => ∀ b ∈ a :: as, ∃ t, FuncInst.own t b.func ∈ M.all
  | _ => True

/-- The calls after a step. -/
theorem qstep_mine {st st' : Store} {mem mem' : Nat → Cell} {a b : QAct} {as bs : List QAct} (h : qstep M R (.running st mem a as) = .running st' mem' b bs) (ha : ∀ b ∈ a :: as, ∃ t, FuncInst.own t b.func ∈ M.all) :
    ∀ c ∈ b :: bs, ∃ t, FuncInst.own t c.func ∈ M.all := by
  have h1 := ha a List.mem_cons_self
  have h2 := fun c hc => ha c (List.mem_cons_of_mem _ hc)
  have cons : ∀ {b : QAct} {bs : List QAct}, (∃ t, FuncInst.own t b.func ∈ M.all) → (∀ c ∈ bs, ∃ t, FuncInst.own t c.func ∈ M.all) → ∀ c ∈ b :: bs, ∃ t, FuncInst.own t c.func ∈ M.all := by
    intro b bs hb hbs c hc
    rcases List.mem_cons.mp hc with rfl | hc
    · exact hb
    · exact hbs c hc
  unfold qstep at h
  dsimp only at h
  split at h
  · cases h
  · split at h
    · cases h; exact cons h1 h2
    · cases h
    · cases h; exact cons h1 h2
    · rename_i e
      have hm := rexec_call e
      unfold qinvoke at h
      split at h
      · cases h; exact cons ⟨_, hm⟩ ha
      · split at h
        · cases h; exact cons h1 h2
        · cases h
    · cases as with
      | nil => cases h
      | cons c cs => cases h; exact cons (h2 c List.mem_cons_self) fun d hd => h2 d (List.mem_cons_of_mem _ hd)

theorem fit_mine {q : QState} {d : Nat} (h : ∀ {st mem a as}, q = .running st mem a as → ∀ b ∈ a :: as, ∃ t, FuncInst.own t b.func ∈ M.all) (hR : ∀ t f, .own t f ∈ M.all → R f = R' f ∧ N f = N' f) :
    fit N W d q = fit N' W d q ∧ Mine M (fit N W d q) := by
  cases q with
  | finished | trapped => exact ⟨rfl, trivial⟩
  | running st mem a as =>
    have h := h rfl
    obtain ⟨t, ht⟩ := h a List.mem_cons_self
    unfold fit
    dsimp only
    refine ⟨by rw [(hR t _ ht).2], ?_⟩
    split
    · exact h
    · trivial

theorem bstep_mine (hR : ∀ t f, .own t f ∈ M.all → R f = R' f ∧ N f = N' f) {s : BState} (h : Mine M s) : bstep M R N W s = bstep M R' N' W s ∧ Mine M (bstep M R N W s) := by
  cases s with
  | finished | trapped | exhausted => exact ⟨rfl, trivial⟩
  | running st row a as =>
    obtain ⟨t, ht⟩ := h a List.mem_cons_self
    have e : qstep M R' (.running st (wide row) a as) = qstep M R (.running st (wide row) a as) := by
      unfold qstep
      dsimp only
      rw [(hR t _ ht).1]
    unfold bstep
    dsimp only
    rw [e]
    exact fit_mine (fun e => qstep_mine e h) hR

/-- Code and numbers of registers may be replaced by those that are the same for the functions of the machine. -/
theorem bsteps_mine (hR : ∀ t f, .own t f ∈ M.all → R f = R' f ∧ N f = N' f) {t : FuncTy} {f : Func} (hf : .own t f ∈ M.all) {args : List Cell} {st : Store} :
    ∀ n, bsteps M R N W (bentered N W t f args st) n = bsteps M R' N' W (bentered N' W t f args st) n ∧ Mine M (bsteps M R N W (bentered N W t f args st) n)
  | 0 => by
    show fit N W 0 (qentered t f args st) = fit N' W 0 (qentered t f args st) ∧ Mine M (fit N W 0 (qentered t f args st))
    refine fit_mine (R := R) (R' := R') (fun e => ?_) hR
    cases e
    intro b hb
    obtain rfl := List.mem_singleton.mp hb
    exact ⟨t, hf⟩
  | n + 1 => by
    obtain ⟨h1, h2⟩ := bsteps_mine hR hf n
    have := bstep_mine (W := W) hR h2
    exact ⟨this.1.trans (congrArg _ h1), this.2⟩

end

end Whasm.Run
