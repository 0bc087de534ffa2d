import Verif.Lemmas.Confined
import Verif.Props.OnePass

/-!
# C114: translated code is never left, whatever is in memory

C111 and C109 say what translated code does if the memory is as it should be. Here nothing is said of the memory: the store and all words may change before each step in any way. Still the machine is always at an instruction of
the function that it executes, and so are the calls that wait for it.
-/

namespace Whasm
open Spec Run

/-- **C114, code.** One instruction is made for each opcode, every branch is to one of them, and the last returns. -/
theorem C114_code {m : Module} {f : Func} {ops : List Pass.Op} {code : List RInstr} {k : Nat} (h : translate m f ops = some (code, k)) :
    code.length = ops.length ∧ (∀ i ∈ code, ∀ pc ∈ i.targets, pc < code.length) ∧ ∃ c s, code = c ++ [.leave s] := by
  unfold translate at h
  obtain ⟨t, _, h⟩ := Option.bind_eq_some_iff.mp h
  obtain ⟨g, hg, h⟩ := Option.bind_eq_some_iff.mp h
  split at h
  · rename_i hc
    cases h
    obtain ⟨h1, h2⟩ := held_end held_start hg
    have hl : (g.code.map fun i => i g.ends g.elses).length = g.pc := by rw [List.length_map, h1.length]
    obtain ⟨h3, c, d, s, h4, h5⟩ := h1.last hc
    refine ⟨?_, ?_, c.map (fun i => i g.ends g.elses), s, ?_⟩
    · rw [hl, h2]
      exact Nat.zero_add _
    · intro i hi
      rw [hl]
      obtain ⟨j, hj, rfl⟩ := List.mem_map.mp hi
      exact h1.code j hj _ _ _ (fun i => (h3 i).1) (fun i => (h3 i).2) (Nat.le_refl _)
    · rw [h4, List.map_append]
      exact congrArg _ (congrArg (· :: []) (h5 _ _))
  · cases h

/-- Each call is at an instruction of its function; after that of a call that waits there is one more. -/
def Inside (M : Machine) (R : RCodes) (ps : List (Func × Nat)) : Prop :=
  (∀ p ∈ ps, ∃ t, FuncInst.own t p.1 ∈ M.all) ∧ (∀ p ∈ ps.head?, p.2 < (R p.1).length) ∧ ∀ p ∈ ps.tail, p.2 + 1 < (R p.1).length

section
variable {M : Machine} {R : RCodes} (hR : ∀ t f, .own t f ∈ M.all → ∃ m ops k, translate m f ops = some (R f, k))
include hR

/-- **C114, one step.** From any store and any words. -/
theorem C114_step {q : QState} (hq : Inside M R q.places) : Inside M R (qstep M R q).places := by
  cases q with
  | finished | trapped => exact hq
  | running st mem a as =>
    obtain ⟨h1, h2, h3⟩ := hq
    have h2 : a.pc < (R a.func).length := h2 _ rfl
    have h1a : ∃ t, FuncInst.own t a.func ∈ M.all := h1 _ List.mem_cons_self
    obtain ⟨t, ht⟩ := h1a
    obtain ⟨m, ops, k, hm⟩ := hR t _ ht
    obtain ⟨_, h4, c, s, h5⟩ := C114_code hm
    have next : ∀ i, (R a.func)[a.pc]? = some i → (∀ s, i ≠ .leave s) → a.pc + 1 < (R a.func).length := by
      intro i hi hs
      rw [h5] at hi h2 ⊢
      simp only [List.length_append, List.length_cons, List.length_nil] at h2 ⊢
      rcases Nat.lt_or_ge a.pc c.length with hc | hc
      · omega
      · rw [List.getElem?_append_right hc, show a.pc - c.length = 0 by omega] at hi
        cases hi
        exact absurd rfl (hs s)
    have stay : ∀ {st' mem'} {p : Nat}, p < (R a.func).length → Inside M R (QState.running st' mem' { a with pc := p } as).places := by
      intro st' mem' p hp
      refine ⟨fun p' hp' => ?_, fun p' hp' => ?_, h3⟩
      · rcases List.mem_cons.mp hp' with rfl | hp'
        · exact ⟨t, ht⟩
        · exact h1 _ (List.mem_cons_of_mem _ hp')
      · cases hp'
        exact hp
    have off : ∀ st', Inside M R (QState.trapped st').places := fun _ => ⟨(fun _ h => nomatch h), (fun _ h => nomatch h), fun _ h => nomatch h⟩
    unfold qstep
    dsimp only
    split
    · exact off _
    · rename_i i hi
      split
      · rename_i e
        exact stay (next i hi (by rintro s rfl; cases e))
      · exact off _
      · rename_i e
        exact stay (h4 i (List.mem_of_getElem? hi) _ (rexec_goto e))
      · rename_i fi d e
        have hn := next i hi (by rintro s rfl; cases e)
        have hfi := rexec_call e
        cases fi with
        | own t' f' =>
          obtain ⟨m', ops', k', hm'⟩ := hR t' f' hfi
          obtain ⟨_, _, c', s', h5'⟩ := C114_code hm'
          refine ⟨fun p' hp' => ?_, fun p' hp' => ?_, fun p' hp' => ?_⟩
          · rcases List.mem_cons.mp hp' with rfl | hp'
            · exact ⟨t', hfi⟩
            · exact h1 _ hp'
          · cases hp'
            show 0 < (R f').length
            rw [h5', List.length_append]
            exact Nat.succ_pos _
          · rcases List.mem_cons.mp hp' with rfl | hp'
            · exact hn
            · exact h3 _ hp'
        | host t' id =>
          unfold qinvoke
          dsimp only
          split
          · exact stay hn
          · exact off _
      · cases as with
        | nil => exact ⟨(fun _ h => nomatch h), (fun _ h => nomatch h), fun _ h => nomatch h⟩
        | cons b bs =>
          refine ⟨fun p' hp' => ?_, fun p' hp' => ?_, fun p' hp' => h3 _ (List.mem_cons_of_mem _ hp')⟩
          · rcases List.mem_cons.mp hp' with rfl | hp'
            · exact h1 (b.func, b.pc) (List.mem_cons_of_mem _ List.mem_cons_self)
            · exact h1 _ (List.mem_cons_of_mem _ (List.mem_cons_of_mem _ hp'))
          · cases hp'
            exact h3 (b.func, b.pc) List.mem_cons_self

/-- **C114.** Let the store, all words and the places of the registers change before each step in any way: the machine is always at an instruction of the function that it executes, and when a call returns there is one to go on
with. -/
theorem C114_inside {t : FuncTy} {f : Func} (hf : .own t f ∈ M.all) {q : Nat → QState} (h0 : (q 0).places = [(f, 0)]) (hq : ∀ n, (q (n + 1)).places = (qstep M R (q n)).places) (n : Nat) :
    (∀ p ∈ (q n).places.head?, ∃ i, (R p.1)[p.2]? = some i) ∧ ∀ p ∈ (q n).places.tail, ∃ i, (R p.1)[p.2 + 1]? = some i := by
  have key : ∀ n, Inside M R (q n).places := by
    intro n
    induction n with
    | zero =>
      rw [h0]
      refine ⟨fun p hp => ?_, fun p hp => ?_, fun p hp => nomatch hp⟩
      · obtain rfl := List.mem_singleton.mp hp
        exact ⟨t, hf⟩
      · cases hp
        obtain ⟨m, ops, k, hm⟩ := hR t f hf
        obtain ⟨_, _, c, s, h5⟩ := C114_code hm
        show 0 < (R f).length
        rw [h5, List.length_append]
        exact Nat.succ_pos _
    | succ n ih =>
      rw [hq]
      exact C114_step hR ih
  obtain ⟨_, h1, h2⟩ := key n
  exact ⟨fun p hp => ⟨_, List.getElem?_eq_getElem (h1 p hp)⟩, fun p hp => ⟨_, List.getElem?_eq_getElem (h2 p hp)⟩⟩

end

/-- **C114, modules.** So it is with the code of every module that the crate accepts. -/
theorem C114_module {m : Module} {r : ModuleResult} (h : validateModule m = .ok r) (he : NoElse m) {K : Codes} (hK : WrittenAs m K) {M : Machine} (hM : Instance m M) {t : FuncTy} {f : Func} (hf : .own t f ∈ M.all)
    {q : Nat → QState} (h0 : (q 0).places = [(f, 0)]) (hq : ∀ n, (q (n + 1)).places = (qstep M (compile m K) (q n)).places) (n : Nat) :
    (∀ p ∈ (q n).places.head?, ∃ i, (compile m K p.1)[p.2]? = some i) ∧ ∀ p ∈ (q n).places.tail, ∃ i, (compile m K p.1)[p.2 + 1]? = some i :=
  C114_inside (fun _ f hf => ⟨m, K f, frame m K f, C111_pass h he hK (own_mem hM hf).1⟩) hf h0 hq n

-- the branches of the factorial with a loop, and those of the one that calls itself
example : (compile factModule inLine factModule.funcs[0]).map RInstr.targets = [[], [], [], [], [], [], [18], [], [], [], [], [], [], [], [], [3], [], [], [], []] ∧
    (compile selfModule inLine selfModule.funcs[0]).map RInstr.targets = [[], [9], [], [], [], [], [], [], [11], [], [], []] ∧ (compile selfModule inLine selfModule.funcs[0]).length = 12 := by decide +kernel

-- a factorial in whose memory anything may be written before each step is always at one of its instructions
example (q : Nat → QState) (h0 : (q 0).places = [(factModule.funcs[0], 0)]) (hq : ∀ n, (q (n + 1)).places = (qstep factMachine (compile factModule inLine) (q n)).places) (n : Nat) :
    ∀ p ∈ (q n).places.head?, ∃ i, (compile factModule inLine p.1)[p.2]? = some i :=
  (C114_module factModule_ok factModule_noElse (inLine_written factModule_ok factModule_noElse) factMachine_instance (List.mem_append_left _ (List.mem_of_getElem? (i := 1) rfl)) h0 hq n).1

-- it may go another way: with 77 in all words beyond the first register before each step, the factorial of 1 returns 77 after nine steps, though it is 1 after 22
example : rowOf factMachine (compile factModule inLine) (fun _ => 1) 77 (qentered ⟨[.i32], [.i32]⟩ factModule.funcs[0] [1] factStore) 9 = some [.i32 77] ∧
    rowOf factMachine (compile factModule inLine) (fun _ => 4) 77 (qentered ⟨[.i32], [.i32]⟩ factModule.funcs[0] [1] factStore) 22 = some [.i32 1] := by decide +kernel

-- code that no pass has made may be left
example : (qstep factMachine (fun _ => [.go 5, .leave 0]) (.running factStore (fun _ => 0) ⟨⟨[.i32], [.i32]⟩, factModule.funcs[0], 0, 0⟩ [])).places.map (·.2) = [5] := by decide +kernel

end Whasm
