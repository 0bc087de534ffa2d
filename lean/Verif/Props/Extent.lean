import Verif.Lemmas.Extent
import Verif.Props.Confined
import Verif.Props.Marked

/-!
# C115: the registers of translated code are those of the function

C109 and C113 say how many registers a function needs, of what is executed. Here it is seen from the code alone: every register that an instruction names, except where validation has marked it as unreachable, is among those that the
pass has counted. Where it is marked this is not so.
-/

namespace Whasm
open Spec Run

/-- **C115, registers.** Of a translated function each instruction that is not marked uses none but those that were counted. -/
theorem C115_registers {m : Module} {f : Func} {t : FuncTy} {ops : List Pass.Op} {code : List RInstr} {k : Nat} (ht : m.types[f.ty.toNat]? = some t) (h : translate m f ops = some (code, k)) {pc : Nat} {i : RInstr}
    (hi : code[pc]? = some i) {s : Pass.St} (hs : Pass.run (bodyEnv .code m t f.locals) (Pass.start t.results) (ops.take pc) = some s) (hm : ∀ c ∈ s.ctrls, c.unreachable = false) :
    ∀ w ∈ i.uses m t, w.1 + w.2 ≤ k := by
  unfold translate at h
  rw [ht, Option.bind_some] at h
  obtain ⟨g, hg, h⟩ := Option.bind_eq_some_iff.mp h
  split at h
  · rename_i hc
    cases h
    have hl := held_end held_start hg
    have hpc : pc < ops.length := by
      have h1 := (List.getElem?_eq_some_iff.mp hi).1
      rw [List.length_map, hl.1.length, hl.2] at h1
      rw [show (gstart t.results).pc = 0 from rfl] at h1
      omega
    obtain ⟨op, hop⟩ : ∃ op, ops[pc]? = some op := ⟨_, List.getElem?_eq_getElem hpc⟩
    have hd : ops.drop pc = op :: ops.drop (pc + 1) := by
      rw [List.drop_eq_getElem_cons hpc]
      rw [List.getElem?_eq_getElem hpc] at hop
      rw [Option.some.inj hop]
    have hg' := hg
    rw [← List.take_append_drop pc ops, hd] at hg'
    obtain ⟨g1, hg1, hg2⟩ := fold_split hg'
    obtain ⟨s', hv, hg3⟩ := fold_cons hg2
    have hst : g1.st = s := by
      have := fold_run (m := m) (t := t) (n := t.params.length + f.locals.length) (C := bodyEnv .code m t f.locals) (v := ops.take pc) (g := gstart t.results)
      rw [hg1] at this
      exact Option.some.inj (this.trans hs)
    subst hst
    have hl1 := held_end held_start hg1
    have hpc1 : g1.code.length = pc := by
      rw [hl1.1.length, hl1.2, List.length_take, Nat.min_eq_left (Nat.le_of_lt hpc)]
      exact Nat.zero_add _
    obtain ⟨c, hcode⟩ := (high_mono hg3).2.2
    have hcode : g.code = (g1.code ++ [emit m t (t.params.length + f.locals.length) g1 op]) ++ c := hcode
    have hii : i = emit m t (t.params.length + f.locals.length) g1 op g.ends g.elses := by
      rw [hcode, List.getElem?_map, List.append_assoc, List.getElem?_append_right (Nat.le_of_eq hpc1), hpc1, Nat.sub_self] at hi
      exact (Option.some.inj hi).symm
    subst hii
    have hh := (high_mono hg2).2.1 (by simp)
    refine emit_uses rfl hl1.1.framed (based_run (.inr rfl) hs) hm (run_tall (s := Pass.start t.results) ⟨Nat.le_refl _, trivial⟩ hs) hv (by omega) fun hne => ?_
    have hv2 : ops.drop (pc + 1) ≠ [] := by
      intro e
      rw [e] at hg3
      cases hg3
      exact hne hc
    have : s'.opds.length ≤ g.high := (high_mono hg3).2.1 hv2
    omega
  · cases h

section
variable {g g' : Regs}

theorem put_within {U : Nat → Bool} (h : ∀ r, U r = true → g r = g' r) {d : Nat} {w : Cell} (hd : U d = true) : put g' d w = fun r => if U r then put g d w r else g' r := by
  funext r
  unfold put
  by_cases e : r = d
  · rw [if_pos e, if_pos e, if_pos (e ▸ hd)]
  · rw [if_neg e, if_neg e]
    split
    · exact (h r (by assumption)).symm
    · rfl

theorem window_within {d k : Nat} (h : ∀ r, d ≤ r → r < d + k → g r = g' r) : window g d k = window g' d k :=
  List.map_congr_left fun i hi => h _ (by omega) (by have := List.mem_range.mp hi; omega)

theorem shift_within {U : Nat → Bool} (h : ∀ r, U r = true → g r = g' r) {b : Move} (hs : ∀ r, b.src ≤ r → r < b.src + b.count → U r = true) (hd : ∀ r, b.dst ≤ r → r < b.dst + b.count → U r = true) :
    shift g' b = fun r => if U r then shift g b r else g' r := by
  funext r
  unfold shift putAll
  rw [window_within fun r h1 h2 => h r (hs r h1 h2)]
  by_cases e : b.dst ≤ r
  · rw [if_pos e, if_pos e]
    by_cases e' : r < b.dst + b.count
    · rw [if_pos (hd r e e'), h r (hd r e e')]
    · have hw : (window g' b.src b.count)[r - b.dst]? = none := by
        rw [List.getElem?_eq_none_iff, window, List.length_map, List.length_range]
        omega
      rw [List.getD_eq_getElem?_getD, List.getD_eq_getElem?_getD, hw, Option.getD_none, Option.getD_none]
      split
      · exact (h r (by assumption)).symm
      · rfl
  · rw [if_neg e, if_neg e]
    split
    · exact (h r (by assumption)).symm
    · rfl

end

/-- **C115, what an instruction uses.** What an instruction does depends on no other register, and changes no other. -/
theorem C115_uses (m : Module) (t : FuncTy) (M : Machine) (st : Store) (i : RInstr) {g g' : Regs} (h : ∀ r, i.touches m t r = true → g r = g' r) : rexec M st g' i = (rexec M st g i).within (i.touches m t) g' := by
  have mem : ∀ w ∈ i.uses m t, ∀ r, w.1 ≤ r → r < w.1 + w.2 → i.touches m t r = true := fun w hw r h1 h2 =>
    List.any_eq_true.mpr ⟨w, hw, by rw [decide_eq_true h1, decide_eq_true h2]; rfl⟩
  have one : ∀ {a k : Nat}, (a, k + 1) ∈ i.uses m t → i.touches m t a = true := fun hw => mem _ hw _ (Nat.le_refl _) (by dsimp only; omega)
  have same : (g' = fun r => if i.touches m t r then g r else g' r) := by
    funext r
    split
    · exact (h r (by assumption)).symm
    · rfl
  have jump : ∀ {b : Move}, (∀ w ∈ b.uses, w ∈ i.uses m t) → shift g' b = fun r => if i.touches m t r then shift g b r else g' r := fun hb =>
    shift_within h (mem _ (hb _ List.mem_cons_self)) (mem _ (hb _ (List.mem_cons_of_mem _ List.mem_cons_self)))
  cases i with
  | skip | go => exact congrArg _ same
  | trap | call | leave => first | rfl | (dsimp only [rexec]; split <;> rfl)
  | goUnless r pc =>
    dsimp only [rexec]
    rw [h r (one (k := 0) List.mem_cons_self)]
    split
    · exact congrArg _ same
    · exact congrArg _ same
  | jump b => exact congrArg _ (jump fun _ hw => hw)
  | jumpIf r b =>
    dsimp only [rexec]
    rw [h r (one (k := 0) List.mem_cons_self)]
    split
    · exact congrArg _ same
    · exact congrArg _ (jump fun _ hw => List.mem_cons_of_mem _ hw)
  | jumpTable r bs b =>
    dsimp only [rexec]
    rw [h r (one (k := 0) List.mem_cons_self)]
    refine congrArg _ (jump fun w hw => List.mem_cons_of_mem _ ?_)
    rw [List.getD_eq_getElem?_getD] at hw
    cases e : bs[(low32 (g' r)).toNat]? with
    | none => rw [e] at hw; exact List.mem_append_left _ hw
    | some b' => rw [e] at hw; exact List.mem_append_right _ (List.mem_flatMap.mpr ⟨b', List.mem_of_getElem? e, hw⟩)
  | const d w => exact congrArg _ (put_within h (one (k := 0) List.mem_cons_self))
  | copy d s =>
    dsimp only [rexec]
    rw [h s (one (k := 0) (List.mem_cons_of_mem _ List.mem_cons_self))]
    exact congrArg _ (put_within h (one (k := 0) List.mem_cons_self))
  | pick d =>
    dsimp only [rexec]
    have hw : (d, 3) ∈ (RInstr.pick d).uses m t := List.mem_cons_self
    rw [h d (one (k := 2) hw), h (d + 1) (mem _ hw _ (by dsimp only; omega) (by dsimp only; omega)), h (d + 2) (mem _ hw _ (by dsimp only; omega) (by dsimp only; omega))]
    exact congrArg _ (put_within h (one (k := 2) hw))
  | num op d =>
    dsimp only [rexec]
    have hw : window g d (numType op).1.length = window g' d (numType op).1.length := window_within fun r h1 h2 => h r (mem _ List.mem_cons_self r h1 h2)
    rw [hw]
    split
    · exact congrArg _ (put_within h (one (k := 0) (List.mem_cons_of_mem _ List.mem_cons_self)))
    · rfl
  | globalGet x d => exact congrArg _ (put_within h (one (k := 0) List.mem_cons_self))
  | globalSet x s =>
    dsimp only [rexec]
    rw [h s (one (k := 0) List.mem_cons_self)]
    exact congrArg _ same
  | load op o d =>
    dsimp only [rexec]
    rw [h d (one (k := 0) List.mem_cons_self)]
    split
    · split
      · exact congrArg _ (put_within h (one (k := 0) List.mem_cons_self))
      · rfl
    · rfl
  | store op o d =>
    dsimp only [rexec]
    have hw : (d, 2) ∈ (RInstr.store op o d).uses m t := List.mem_cons_self
    rw [h d (one (k := 1) hw), h (d + 1) (mem _ hw _ (by dsimp only; omega) (by dsimp only; omega))]
    split
    · split
      · exact congrArg _ same
      · rfl
    · rfl
  | memSize x d =>
    dsimp only [rexec]
    split
    · exact congrArg _ (put_within h (one (k := 0) List.mem_cons_self))
    · rfl
  | memGrow x d =>
    dsimp only [rexec]
    rw [h d (one (k := 0) List.mem_cons_self)]
    split
    · split
      · exact congrArg _ (put_within h (one (k := 0) List.mem_cons_self))
      · exact congrArg _ (put_within h (one (k := 0) List.mem_cons_self))
    · rfl
  | callIndirect x y r d =>
    dsimp only [rexec]
    rw [h r (one (k := 0) List.mem_cons_self)]
    split
    · split <;> rfl
    · rfl

/-- **C115, a module.** Of a function of a module that is accepted, each instruction that is not marked uses none but the registers of its frame. -/
theorem C115_module {m : Module} {r : ModuleResult} (h : validateModule m = .ok r) (he : NoElse m) {K : Codes} (hK : WrittenAs m K) {f : Func} (hf : f ∈ m.funcs) {t : FuncTy} (ht : m.types[f.ty.toNat]? = some t) {pc : Nat} {i : RInstr}
    (hi : (compile m K f)[pc]? = some i) (hm : marked m K f pc = false) : ∀ w ∈ i.uses m t, w.1 + w.2 ≤ frame m K f := by
  have hp := C111_pass h he hK hf
  have hl := (C114_code hp).1
  have hpc : pc < (K f).length := hl ▸ (List.getElem?_eq_some_iff.mp hi).1
  have hr : ∃ s, Pass.run (bodyEnv .code m t f.locals) (Pass.start t.results) ((K f).take pc) = some s := by
    have hp := hp
    unfold translate at hp
    rw [ht, Option.bind_some] at hp
    obtain ⟨g, hg, _⟩ := Option.bind_eq_some_iff.mp hp
    rw [← List.take_append_drop pc (K f)] at hg
    obtain ⟨g1, hg1, _⟩ := fold_split hg
    have := fold_run (m := m) (t := t) (n := t.params.length + f.locals.length) (C := bodyEnv .code m t f.locals) (v := (K f).take pc) (g := gstart t.results)
    rw [hg1] at this
    exact ⟨_, this.symm⟩
  obtain ⟨s, hs⟩ := hr
  unfold marked at hm
  rw [ht, Option.bind_some, hs] at hm
  rcases Bool.and_eq_false_iff.mp hm with hm | hm
  · have hii : i = compileAt m K f t pc := by
      unfold compile at hi
      rw [ht] at hi
      simp only [List.getElem?_map, List.getElem?_range hpc] at hi
      exact (Option.some.inj hi).symm
    subst hii
    unfold goesOn at hm
    unfold compileAt
    split at hm
    · rename_i e
      have := congrArg List.length e
      rw [List.length_drop] at this
      simp at this
      omega
    · cases hm
    · rename_i ops hne e
      dsimp only
      cases ops with
      | nil => exact (hne rfl).elim
      | cons o os =>
        rw [e]
        exact fun _ hw => nomatch hw
    · cases hm
  · refine C115_registers ht hp hi hs fun c hc => ?_
    cases e : c.unreachable with
    | false => rfl
    | true => exact absurd hm (by rw [Option.map_some, Option.getD_some, List.any_eq_true.mpr ⟨c, hc, e⟩]; exact nofun)

/-! ## Examples -/

-- a function that calls itself: it has four registers, and the instructions use these, each time the first and how many
example : ((translate selfModule selfModule.funcs[0] (inLine selfModule.funcs[0])).map fun p => (p.1.map (RInstr.uses selfModule ⟨[.i32], [.i32]⟩), p.2)) =
    some ([[(1, 1), (0, 1)], [(1, 1)], [(1, 1), (0, 1)], [(2, 1), (0, 1)], [(3, 1)], [(2, 2), (2, 1)], [(2, 1), (2, 1)], [(1, 2), (1, 1)], [], [(1, 1)], [], [(1, 1)]], 4) := by decide +kernel

-- a subtraction of the registers 2 and 3 into 2 does the same whatever is in the others, and leaves it there
example (M : Machine) (st : Store) (g : Regs) (w : Cell) : rexec M st (put g 1 w) (.num .i32Sub 2) = (rexec M st g (.num .i32Sub 2)).within (fun r => decide (r = 2) || decide (r = 3)) (put g 1 w) := by
  have h : RInstr.touches {} ⟨[], []⟩ (.num .i32Sub 2) = fun r => decide (r = 2) || decide (r = 3) := by
    funext r
    have : RInstr.uses {} ⟨[], []⟩ (.num .i32Sub 2) = [(2, 2), (2, 1)] := by decide +kernel
    unfold RInstr.touches
    rw [this, Bool.eq_iff_iff]
    simp
    omega
  rw [← h]
  refine C115_uses {} ⟨[], []⟩ M st _ fun r hr => ?_
  rw [h] at hr
  unfold put
  rw [if_neg]
  rintro rfl
  cases hr

/-- `unreachable i32.add drop`. -/
def lateFunc : Func := ⟨0, [], []⟩

-- the addition is marked: it names two registers, but one is all that was counted
example : (translate { types := [⟨[], []⟩], funcs := [lateFunc] } lateFunc [.instr .unreachable, .instr (.num .i32Add), .instr .drop, .endOp]).map (fun p => (p.1.map (RInstr.uses {} ⟨[], []⟩), p.2)) =
    some ([[], [(0, 2), (0, 1)], [], [(0, 0)]], 1) := by decide +kernel

end Whasm
