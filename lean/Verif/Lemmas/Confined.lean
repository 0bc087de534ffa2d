import Verif.Spec.Confined
import Verif.Lemmas.OnePass

/-!
# Lemmas for C114
-/

namespace Whasm.Run
open Spec Spec.Pass

section
variable {m : Module} {C : Env} {t : FuncTy} {n : Nat}

/-- The branches of an instruction are those of its labels. -/
theorem rinstr_targets {h k L : Nat} {B : Nat → Nat → Move} {P Q : Nat → Nat} (hB : ∀ l h, (B l h).pc < L) (i : Instr) : ∀ p ∈ (rinstr n h B P Q k i).targets, p < L := by
  intro p hp
  cases i with
  | br l =>
    obtain rfl := List.mem_singleton.mp hp
    exact hB _ _
  | brIf l =>
    obtain rfl := List.mem_singleton.mp hp
    exact hB _ _
  | brTable ls l =>
    rcases List.mem_cons.mp hp with rfl | hp
    · exact hB _ _
    · rw [List.map_map] at hp
      obtain ⟨l, _, rfl⟩ := List.mem_map.mp hp
      exact hB _ _
  | _ => cases hp

/-- The branches of the instruction for an opcode are to a block that has begun or are in the tables. -/
theorem emit_targets {g : Gen} {op : Op} {e e' : Nat → Nat} {L : Nat} (hb : Below g.pc g.blocks) (he : ∀ i, e i < L) (he' : ∀ i, e' i < L) (hL : g.pc < L) : ∀ p ∈ (emit m t n g op e e').targets, p < L := by
  cases op with
  | instr i =>
    unfold emit
    dsimp only
    refine rinstr_targets (fun l h => ?_) i
    unfold branch
    dsimp only
    split
    · cases hl : g.blocks[l]? with
      | none =>
        rw [List.getD_eq_getElem?_getD, hl]
        exact Nat.lt_of_le_of_lt (Nat.zero_le _) hL
      | some b =>
        rw [List.getD_eq_getElem?_getD, hl]
        exact Nat.lt_trans (below_lt hb b (List.mem_of_getElem? hl)) hL
    · exact he _
  | ifOp b =>
    intro p hp
    obtain rfl := List.mem_singleton.mp hp
    exact he' _
  | elseOp =>
    intro p hp
    obtain rfl := List.mem_singleton.mp hp
    exact he _
  | endOp =>
    intro p hp
    unfold emit at hp
    dsimp only at hp
    split at hp <;> cases hp
  | block | loop => exact fun _ hp => nomatch hp

/-- What is so in the middle of the code: the tables lead to places no later than the next, and earlier if the code is at its end, which is a return. -/
structure Held (g : Gen) : Prop where
  framed : Framed g
  below : Below g.pc g.blocks
  tables : ∀ i, g.ends i ≤ g.pc ∧ g.elses i ≤ g.pc
  length : g.code.length = g.pc
  code : ∀ c ∈ g.code, ∀ e e' L, (∀ i, e i < L) → (∀ i, e' i < L) → g.pc ≤ L → ∀ p ∈ (c e e').targets, p < L
  last : g.st.ctrls = [] → (∀ i, g.ends i < g.pc ∧ g.elses i < g.pc) ∧ ∃ c d s, g.code = c ++ [d] ∧ ∀ e e', d e e' = .leave s

theorem enter_le {e : Nat → Nat} {p k L : Nat} (he : ∀ i, e i ≤ L) (hk : k ≤ L) (i : Nat) : enter e p k i ≤ L := by
  unfold enter
  split
  · exact hk
  · exact he i

theorem held_next {g : Gen} {op : Op} {s : St} (hg : Held g) (h : validate C g.st op = some s) : Held (g.next m t n op s) := by
  have hn := validate_open h
  have hk := hg.framed.resolve_left fun e => hn e.1
  refine ⟨(framed_next hg.framed h).1, below_next hg.below, fun i => ⟨?_, ?_⟩, ?_, ?_, ?_⟩
  · show endsAfter g op i ≤ g.pc + 1
    have h0 : ∀ i, g.ends i ≤ g.pc + 1 := fun i => Nat.le_succ_of_le (hg.tables i).1
    cases op with
    | endOp =>
      unfold endsAfter
      rcases g.blocks with _ | ⟨⟨p, k⟩, bs⟩
      · exact h0 i
      · exact enter_le h0 (Nat.le_refl _) i
    | _ => exact h0 i
  · show elsesAfter g op i ≤ g.pc + 1
    have h0 : ∀ i, g.elses i ≤ g.pc + 1 := fun i => Nat.le_succ_of_le (hg.tables i).2
    cases op with
    | endOp =>
      unfold elsesAfter
      rcases g.blocks with _ | ⟨⟨p, k⟩, bs⟩
      · exact h0 i
      · cases k
        case ifThen => exact enter_le h0 (Nat.le_succ _) i
        all_goals exact h0 i
    | elseOp =>
      unfold elsesAfter
      rcases g.blocks with _ | ⟨⟨p, k⟩, bs⟩
      · exact h0 i
      · cases k
        case ifThen => exact enter_le h0 (Nat.le_refl _) i
        all_goals exact h0 i
    | _ => exact h0 i
  · show (g.code ++ [emit m t n g op]).length = g.pc + 1
    rw [List.length_append, hg.length]
    rfl
  · intro c hc e e' L he he' hL
    have hL : g.pc + 1 ≤ L := hL
    rcases List.mem_append.mp hc with hc | hc
    · exact hg.code c hc e e' L he he' (Nat.le_of_succ_le hL)
    · obtain rfl := List.mem_singleton.mp hc
      exact emit_targets hg.below he he' hL
  · intro hc
    replace hc : s.ctrls = [] := hc
    have hop : op = .endOp ∧ g.blocks = [] := by
      cases op with
      | endOp =>
        refine ⟨rfl, ?_⟩
        have := end_kinds hk h
        rw [hc] at this
        cases hb : g.blocks with
        | nil => rfl
        | cons b bs =>
          rw [hb] at this
          simp at this
      | instr i =>
        unfold validate at h
        rw [if_neg hn] at h
        have := instr_kinds h
        rw [hc] at this
        exact absurd (List.map_eq_nil_iff.mp this.symm) hn
      | block b => unfold validate at h; rw [if_neg hn] at h; cases h; cases hc
      | loop b => unfold validate at h; rw [if_neg hn] at h; cases h; cases hc
      | ifOp b =>
        unfold validate at h
        rw [if_neg hn] at h
        obtain ⟨⟨_, s1⟩, _, rfl⟩ := Option.map_eq_some_iff.mp h
        cases hc
      | elseOp =>
        unfold validate at h
        rw [if_neg hn] at h
        obtain ⟨⟨f, s1⟩, _, h⟩ := Option.bind_eq_some_iff.mp h
        dsimp only at h
        split at h
        · cases h; cases hc
        · cases h
    obtain ⟨rfl, hb⟩ := hop
    refine ⟨fun i => ⟨?_, ?_⟩, g.code, emit m t n g .endOp, n + g.st.opds.length - t.results.length, rfl, fun e e' => ?_⟩
    · show endsAfter g .endOp i < g.pc + 1
      unfold endsAfter
      rw [hb]
      exact Nat.lt_succ_of_le (hg.tables i).1
    · show elsesAfter g .endOp i < g.pc + 1
      unfold elsesAfter
      rw [hb]
      exact Nat.lt_succ_of_le (hg.tables i).2
    · unfold emit
      exact if_pos hb

theorem held_start {r : List Val} : Held (gstart r) := ⟨.inr rfl, trivial, fun _ => ⟨Nat.le_refl _, Nat.le_refl _⟩, rfl, (fun _ h => nomatch h), fun h => nomatch h⟩

theorem held_end : ∀ {v : List Op} {g g' : Gen}, Held g → v.foldlM (gstep m C t n) g = some g' → Held g' ∧ g'.pc = g.pc + v.length
  | [], _, _, hg, h => by cases h; exact ⟨hg, rfl⟩
  | op :: v, g, g', hg, h => by
    obtain ⟨s, h1, h2⟩ := fold_cons h
    obtain ⟨h3, h4⟩ := held_end (held_next hg h1) h2
    refine ⟨h3, h4.trans ?_⟩
    show g.pc + 1 + v.length = g.pc + (v.length + 1)
    omega

end

/-- What an instruction does tells what it is. -/
theorem rexec_goto {M : Machine} {st : Store} {g g' : Regs} {i : RInstr} {pc : Nat} (h : rexec M st g i = .goto pc g') : pc ∈ i.targets := by
  cases i with
  | go p => cases h; exact List.mem_singleton.mpr rfl
  | goUnless r p =>
    unfold rexec at h
    dsimp only at h
    split at h
    · cases h; exact List.mem_singleton.mpr rfl
    · cases h
  | jump b => cases h; exact List.mem_singleton.mpr rfl
  | jumpIf r b =>
    unfold rexec at h
    dsimp only at h
    split at h
    · cases h
    · cases h; exact List.mem_singleton.mpr rfl
  | jumpTable r bs b =>
    unfold rexec at h
    injection h with h1 h2
    subst h1
    show (bs.getD _ b).pc ∈ b.pc :: bs.map (·.pc)
    rw [List.getD_eq_getElem?_getD]
    cases e : bs[(low32 (g r)).toNat]? with
    | none => exact List.mem_cons_self
    | some c => exact List.mem_cons_of_mem _ (List.mem_map.mpr ⟨c, List.mem_of_getElem? e, rfl⟩)
  | _ =>
    unfold rexec at h
    first | (cases h; done) | (dsimp only at h; repeat' (split at h)) <;> cases h

end Whasm.Run
