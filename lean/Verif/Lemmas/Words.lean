import Verif.Spec.Words
import Verif.Lemmas.Reduce

/-! # Values and words -/

namespace Whasm.Run
open Spec

theorem setWidth_small (v : BitVec 32) : (v.setWidth 64).setWidth 32 = v := by
  apply BitVec.eq_of_toNat_eq
  rw [BitVec.toNat_setWidth, BitVec.toNat_setWidth]
  have h := v.isLt
  omega

theorem asValue_cell (v : Value) : asValue v.type v.cell = v := by
  cases v with
  | i32 v => exact congrArg _ (setWidth_small v)
  | i64 v => rfl
  | f32 v => exact congrArg _ (setWidth_small v)
  | f64 v => rfl

theorem cell_zero (t : Val) : (zero t).cell = 0 := by cases t <;> rfl

theorem cell_bits (v : Value) : v.cell.toNat = v.bits := by
  cases v with
  | i32 v =>
    show (v.setWidth 64).toNat = v.toNat
    rw [BitVec.toNat_setWidth]
    have h := v.isLt
    omega
  | i64 v => rfl
  | f32 v =>
    show (v.setWidth 64).toNat = v.toNat
    rw [BitVec.toNat_setWidth]
    have h := v.isLt
    omega
  | f64 v => rfl

theorem top32_cell (k : BitVec 32) (S : List Cell) : top32 ((Value.i32 k).cell :: S) = k := setWidth_small k

theorem asValues_map : ∀ vs : List Value, List.zipWith asValue (vs.map Value.type) (vs.map Value.cell) = vs
  | [] => rfl
  | v :: vs => by
    rw [List.map_cons, List.map_cons, List.zipWith_cons_cons, asValue_cell, asValues_map vs]

/-- Taking operands off. -/
theorem popArgs_cells {ts : List Val} {vs args rest : List Value} (h : popArgs ts vs = some (args, rest)) :
    asValues ts (vs.map Value.cell) = args ∧ (vs.map Value.cell).drop ts.length = rest.map Value.cell ∧ ((vs.map Value.cell).take ts.length).reverse = args.map Value.cell := by
  unfold popArgs at h
  dsimp only at h
  split at h
  · rename_i e
    cases h
    refine ⟨?_, by rw [List.map_drop], by rw [List.map_reverse, List.map_take]⟩
    rw [asValues, ← List.map_take, ← List.map_reverse]
    conv => lhs; arg 2; rw [← e]
    exact asValues_map _
  · cases h

theorem getD_some {α : Type} {xs : List α} {i : Nat} {x d : α} (h : xs[i]? = some x) : xs.getD i d = x := by
  rw [List.getD_eq_getElem?_getD, h]
  rfl

theorem getD_none {α : Type} {xs : List α} {i : Nat} {d : α} (h : xs.length ≤ i) : xs.getD i d = d := by
  rw [List.getD_eq_getElem?_getD, List.getElem?_eq_none h]
  rfl

theorem getD_cells {vs : List Value} {i : Nat} {v : Value} (h : vs[i]? = some v) : (vs.map Value.cell).getD i 0 = v.cell :=
  getD_some (by rw [List.getElem?_map, h]; rfl)

/-- A global of the type that it had. -/
theorem set_global : ∀ {gs : List Value} {x : Nat} {v : Value}, (gs.set x v).map Value.type = gs.map Value.type → (gs.modify x fun old => asValue old.type v.cell) = gs.set x v
  | [], x, _, _ => by cases x <;> rfl
  | g :: gs, 0, v, h => by
    rw [List.set_cons_zero, List.map_cons, List.map_cons] at h
    rw [List.modify_zero_cons, List.set_cons_zero, ← (List.cons.inj h).1, asValue_cell]
  | g :: gs, x + 1, v, h => by
    rw [List.set_cons_succ, List.map_cons, List.map_cons] at h
    rw [List.modify_succ_cons, List.set_cons_succ, set_global (List.cons.inj h).2]

theorem mems_head {ms : List MemInst} {m : MemInst} (h : ms[0]? = some m) : ∃ ms', ms = m :: ms' := by
  cases ms with
  | nil => cases h
  | cons x xs => cases h; exact ⟨xs, rfl⟩

variable {M : Machine} {st st' : Store} {ls ls' S S' : List Value} {i : Instr}

/-- An instruction that goes on. -/
theorem effect_next (h : Step M ⟨st, ls, S⟩ [.plain i] ⟨st', ls', S'⟩ []) (hg : st'.globals.map Value.type = st.globals.map Value.type) :
    effect M st (ls.map Value.cell) (S.map Value.cell) i = .next st' (ls'.map Value.cell) (S'.map Value.cell) := by
  cases h with
  | constI32 => rfl
  | constI64 => rfl
  | constF32 => rfl
  | constF64 => rfl
  | num hp hv =>
    obtain ⟨h1, h2, _⟩ := popArgs_cells hp
    rw [effect, h1, hv, h2]
    rfl
  | drop => rfl
  | selectFirst _ hb =>
    simp only [List.map_cons, effect, top32_cell, if_neg hb]
    rfl
  | selectSecond _ hb =>
    simp only [List.map_cons, effect, top32_cell, if_pos hb]
    rfl
  | localGet hx =>
    rw [effect, getD_cells hx]
    rfl
  | localSet hx =>
    rw [effect, List.map_set]
    rfl
  | localTee hx =>
    rw [effect, List.map_set]
    rfl
  | globalGet hx =>
    rw [effect, getD_cells hx]
    rfl
  | globalSet hx =>
    rw [effect, List.map_cons, List.headD_cons, set_global hg]
    rfl
  | load hm hb =>
    obtain ⟨ms, e⟩ := mems_head hm
    rw [effect, e]
    simp only [List.map_cons, top32_cell, if_pos hb]
    rfl
  | store hm ht hb =>
    obtain ⟨ms, e⟩ := mems_head hm
    rw [effect, e]
    simp only [List.map_cons, List.tail_cons, top32_cell, if_pos hb, List.headD_cons, cell_bits, List.set_cons_zero]
    rfl
  | memSize hm =>
    rw [effect, hm]
    rfl
  | memGrow hm hl hgr =>
    rw [effect, hm]
    simp only [List.map_cons, top32_cell, if_pos (And.intro hl hgr)]
    rfl
  | memGrowFail hm hf =>
    rw [effect, hm]
    simp only [List.map_cons, top32_cell]
    rw [if_neg]
    · rfl
    · rintro ⟨h1, h2⟩
      rcases hf with hf | hf
      · omega
      · rw [hf] at h2
        cases h2
  | nop => rfl
  | brIfNot hk =>
    simp only [List.map_cons, effect, top32_cell, if_pos hk]
    rfl

/-- An instruction that traps. -/
theorem effect_trap (h : Step M ⟨st, ls, S⟩ [.plain i] ⟨st', ls', S'⟩ [.trap]) : effect M st (ls.map Value.cell) (S.map Value.cell) i = .trap st' := by
  cases h with
  | numTrap hp hv =>
    obtain ⟨h1, h2, _⟩ := popArgs_cells hp
    rw [effect, h1, hv]
  | loadTrap hm hb =>
    obtain ⟨ms, e⟩ := mems_head hm
    rw [effect, e]
    simp only [List.map_cons, top32_cell]
    rw [if_neg (by omega)]
  | storeTrap hm ht hb =>
    obtain ⟨ms, e⟩ := mems_head hm
    rw [effect, e]
    simp only [List.map_cons, List.tail_cons, top32_cell]
    rw [if_neg (by omega)]
  | unreachable => rfl
  | callOther hy hx hk ha ht =>
    rw [effect, List.map_cons, top32_cell, getD_some hy, getD_some hk]
    simp only [Option.bind_some, ha]
    rw [if_neg]
    rw [hx]
    exact fun e => ht (Option.some.inj e)
  | callEmpty hy hx hk =>
    rw [effect, List.map_cons, top32_cell, getD_some hy, getD_some hk]
    rfl
  | callOutside hy hx hk =>
    rw [effect, List.map_cons, top32_cell, getD_some hy, getD_none hk]
    rfl

/-- An instruction that calls. -/
theorem effect_call {fi : FuncInst} (h : Step M ⟨st, ls, S⟩ [.plain i] ⟨st', ls', S'⟩ [.invoke fi]) : effect M st (ls.map Value.cell) (S.map Value.cell) i = .call fi (S'.map Value.cell) := by
  cases h with
  | call hf =>
    rw [effect, hf]
  | callIndirect hy hx hk ha ht =>
    rw [effect, List.map_cons, top32_cell, getD_some hy, getD_some hk]
    simp only [Option.bind_some, ha]
    rw [if_pos (by rw [hx, ht])]
    rfl

/-- A branch. -/
theorem effect_jump {l : Nat} (h : Jumps (some i) l S' S) : effect M st (ls.map Value.cell) (S.map Value.cell) i = .jump l (S'.map Value.cell) := by
  cases h with
  | br => rfl
  | brIf hk =>
    simp only [List.map_cons, effect, top32_cell, if_neg hk]
    rfl
  | brTable hx =>
    rw [effect, List.map_cons, top32_cell, getD_some hx]
    rfl
  | brTableElse hx =>
    rw [effect, List.map_cons, top32_cell, getD_none hx]
    rfl

/-- A call without the types of its values. -/
def Act.words (a : Act) : WAct := ⟨a.type, a.func, a.place, a.locals.map Value.cell, a.stack.map Value.cell⟩

/-- A state without the types of its values. -/
def FState.words : FState → WState
  | .running st a as => .running st a.words (as.map Act.words)
  | .finished st vs => .finished st vs
  | .trapped st => .trapped st

def FState.store : FState → Store
  | .running st _ _ => st
  | .finished st _ => st
  | .trapped st => st

theorem leave_words {a a' : Act} {st : Store} {as : List Act} {us rest : List Value} (hp : popArgs a.type.results a.stack = some (us, rest)) :
    wleave st a.type (a.stack.map Value.cell) ((a' :: as).map Act.words) = FState.words (.running st { a' with place := a'.place.next, stack := us.reverse ++ a'.stack } as) ∧
      wleave st a.type (a.stack.map Value.cell) ([].map Act.words) = .finished st us := by
  obtain ⟨h1, _, h3⟩ := popArgs_cells hp
  refine ⟨?_, ?_⟩
  · have h4 : (a.stack.map Value.cell).take a.type.results.length = us.reverse.map Value.cell := by
      rw [List.map_reverse, ← h3, List.reverse_reverse]
    rw [List.map_cons, wleave, h4]
    simp only [FState.words, Act.words, List.map_append]
  · rw [List.map_nil, wleave, h1]

/-- A step of the machine of `Spec/Flat.lean` is a step without types. -/
theorem wstep_words {T : Landings} {s s' : FState} (h : FStep M T s s') (hg : s'.store.globals.map Value.type = s.store.globals.map Value.type) :
    wstep M T s.words = s'.words := by
  cases h with
  | instr hi h => simp only [FState.words, wstep, Act.words, hi, effect_next h hg]
  | trap hi h => simp only [FState.words, wstep, Act.words, hi, effect_trap h]
  | block hi => simp only [FState.words, wstep, Act.words, hi, effect]
  | loop hi => simp only [FState.words, wstep, Act.words, hi, effect]
  | ifThen hi hs hk => simp only [FState.words, wstep, Act.words, hi, effect, hs, List.map_cons, top32_cell, if_neg hk, List.tail_cons]
  | ifElse hi hs hk => simp only [FState.words, wstep, Act.words, hi, effect, hs, List.map_cons, top32_cell, if_pos hk, List.tail_cons]
  | fall hi hq => simp only [FState.words, wstep, Act.words, hi, hq]
  | @branch st a as l S k n q hj ht hq =>
    cases hi : a.place.instr a.func.body with
    | none =>
      rw [hi] at hj
      cases hj
    | some i =>
      rw [hi] at hj
      simp only [FState.words, wstep, Act.words, hi, effect_jump hj, ht, hq, Option.getD_some, lowest, List.map_append, List.map_take, List.map_drop, List.length_map]
  | call hi h hp =>
    obtain ⟨_, h2, h3⟩ := popArgs_cells hp
    simp only [FState.words, wstep, Act.words, hi, effect_call h, winvoke, h2, h3, List.map_append, List.map_map, List.map_cons, List.map_nil]
    congr 5
    funext t
    exact (cell_zero t).symm
  | host hi h hp hh =>
    obtain ⟨h1, h2, _⟩ := popArgs_cells hp
    simp only [FState.words, wstep, Act.words, hi, effect_call h, winvoke, h1, h2, hh, List.map_append, List.map_reverse]
  | hostTrap hi h hp hh =>
    obtain ⟨h1, h2, _⟩ := popArgs_cells hp
    simp only [FState.words, wstep, Act.words, hi, effect_call h, winvoke, h1, hh]
  | @back st a a' as us rest hi hp =>
    have h1 := (leave_words (a' := a') (st := st) (as := as) hp).1
    rcases hi with hi | ⟨hi, ho⟩
    · simp only [FState.words, wstep, Act.words, hi, effect]
      exact h1
    · simp only [FState.words, wstep, Act.words, hi, ho]
      exact h1
  | @last st a us rest hi hp =>
    have h1 := (leave_words (a' := a) (st := st) (as := []) hp).2
    rcases hi with hi | ⟨hi, ho⟩
    · simp only [FState.words, wstep, Act.words, hi, effect]
      exact h1
    · simp only [FState.words, wstep, Act.words, hi, ho]
      exact h1

end Whasm.Run
