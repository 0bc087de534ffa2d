import Verif.Lemmas.Words
import Verif.Props.Flat

/-!
# C106: accepted code can be executed on words without types, without checking anything

`Spec/Words.lean` is a machine whose operands are words of 64 bits that do not tell their type, and which checks nothing that validation has checked. By C105 the machine of `Spec/Flat.lean`, which gets stuck where
something is not as it should be, never gets stuck; so what the machine without checks does instead does not matter.
-/

namespace Whasm
open Spec Run

section
variable {m : Module} {r : ModuleResult} (h : validateModule m = .ok r) (he : NoElse m) {M : Machine} (hM : Instance m M) (hn : NumOk M) (hh : HostOk m M)
  {st : Store} (hst : StoreOk m M.all.length st) {x : Nat} {t : FuncTy} (ht : (funcSpace m)[x]? = some t) {f : Func} (hx : M.funcs[x]? = some (.own t f)) {args : List Value}
  (hargs : args.map Value.type = t.params)
include h he hM hn hh hst ht hx hargs

/-- The globals keep their types. -/
theorem flat_globals {n : Nat} {s : FState} (hs : FSteps M (sideTable m) n (entered t f args st) s) : s.store.globals.map Value.type = (globalSpace m).map (·.val) := by
  obtain ⟨k, c, es, _, h1, h2⟩ := flat_run h he hM hn hh hst ht hx hargs hs
  have h3 := (C83_store h he hM hn hh hst ht hx hargs h1).1.globals
  cases h2 <;> exact h3

omit h he hM hn hh hst ht hx hargs in
theorem wsteps_snoc {T : Landings} : ∀ (n : Nat) (s : WState), wsteps M T (n + 1) s = wstep M T (wsteps M T n s)
  | 0, _ => rfl
  | n + 1, s => by
    rw [wsteps, wsteps_snoc n]
    rfl

/-- **C106, step by step.** The machine without checks is, after every number of steps, where the one that gets stuck without operands of the right types is (C105), as long as that has not come to its end; then it
stays there. -/
theorem C106_steps (n : Nat) : ∃ j s, j ≤ n ∧ FSteps M (sideTable m) j (entered t f args st) s ∧ wsteps M (sideTable m) n (wentered t f (args.map Value.cell) st) = s.words ∧
    (j = n ∨ (∃ st' vs, s = .finished st' vs) ∨ ∃ st', s = .trapped st') := by
  induction n with
  | zero =>
    refine ⟨0, _, Nat.le_refl _, .zero, ?_, .inl rfl⟩
    simp only [wsteps, wentered, entered, FState.words, Act.words, List.map_append, List.map_map, List.map_nil]
    congr 3
    exact congrArg (fun g => List.map g f.locals) (funext fun t => (cell_zero t).symm)
  | succ n ih =>
    obtain ⟨j, s, h1, h2, h3, h4⟩ := ih
    rw [wsteps_snoc, h3]
    rcases C105_progress h he hM hn hh hst ht hx hargs h2 with ⟨st', vs, rfl⟩ | ⟨st', rfl⟩ | ⟨s', h5, _⟩
    · exact ⟨j, _, by omega, h2, rfl, .inr (.inl ⟨_, _, rfl⟩)⟩
    · exact ⟨j, _, by omega, h2, rfl, .inr (.inr ⟨_, rfl⟩)⟩
    · have h6 := fsteps_snoc h2 h5
      rcases h4 with rfl | h4
      · refine ⟨j + 1, s', Nat.le_refl _, h6, wstep_words h5 ?_, .inl rfl⟩
        rw [flat_globals h he hM hn hh hst ht hx hargs h2, flat_globals h he hM hn hh hst ht hx hargs h6]
      · rcases h4 with ⟨_, _, rfl⟩ | ⟨_, rfl⟩ <;> cases h5

/-- **C106, places of operands.** The number of words that a call has as operands and as local variables is known from validation at every place of its code. -/
theorem C106_slots {n : Nat} {st' : Store} {a : WAct} {as : List WAct} (hs : wsteps M (sideTable m) n (wentered t f (args.map Value.cell) st) = .running st' a as) :
    (∃ x, arriveFunc a.func a.place (spaces m) = .ok ((), x) ∧ a.stack.length = x.operands.length ∧ a.locals.length = x.locals.length) ∧
    ∀ b ∈ as, ∃ y, arriveFunc b.func b.place (spaces m) = .ok ((), y) ∧ b.stack.length ≤ y.operands.length := by
  obtain ⟨j, s, _, h2, h3, _⟩ := C106_steps h he hM hn hh hst ht hx hargs n
  rw [hs] at h3
  cases s with
  | running st2 a2 as2 =>
    cases h3
    obtain ⟨⟨x, g1, g2, g3, _⟩, g4⟩ := C105_slots h he hM hn hh hst ht hx hargs h2
    refine ⟨⟨x, g1, by rw [g2, List.length_map, Act.words, List.length_map], by rw [g3, List.length_map, Act.words, List.length_map]⟩, ?_⟩
    intro b hb
    obtain ⟨b2, hb2, rfl⟩ := List.mem_map.mp hb
    obtain ⟨y, g5, g6⟩ := g4 b2 hb2
    refine ⟨y, g5, ?_⟩
    rw [Act.words, List.length_map]
    exact g6
  | finished => cases h3
  | trapped => cases h3

/-- **C106.** A call of a function of an accepted module has the same results by the rules of the document and on a machine that works on words without types and checks nothing that validation has checked: it returns
the same values with the same store, or traps with the same store, or goes on forever. -/
theorem C106_words :
    (∀ vs st', (∃ n, wsteps M (sideTable m) n (wentered t f (args.map Value.cell) st) = .finished st' vs) ↔
      ∃ k c, Steps M k (called args st) [.invoke (.own t f)] c [] ∧ c.stack.reverse = vs ∧ c.store = st') ∧
    (∀ st', (∃ n, wsteps M (sideTable m) n (wentered t f (args.map Value.cell) st) = .trapped st') ↔ ∃ k c es, Steps M k (called args st) [.invoke (.own t f)] c (.trap :: es) ∧ c.store = st') ∧
    ((∀ n, ∃ st' a as, wsteps M (sideTable m) n (wentered t f (args.map Value.cell) st) = .running st' a as) ↔ ∀ k, ∃ c es, Steps M k (called args st) [.invoke (.own t f)] c es) := by
  obtain ⟨f1, f2, f3⟩ := C105_flat h he hM hn hh hst ht hx hargs
  have back : ∀ {n s}, FSteps M (sideTable m) n (entered t f args st) s → wsteps M (sideTable m) n (wentered t f (args.map Value.cell) st) = s.words := by
    intro n s hs
    obtain ⟨j, s2, h1, h2, h3, h4⟩ := C106_steps h he hM hn hh hst ht hx hargs n
    have det : ∀ {a b : Nat} {s s1 s2 : FState}, FSteps M (sideTable m) a s s1 → FSteps M (sideTable m) (a + b) s s2 → FSteps M (sideTable m) b s1 s2 := by
      intro a b s s1 s2 g1
      induction g1 with
      | zero => exact fun g2 => by rw [Nat.zero_add] at g2; exact g2
      | succ g1 _ ih =>
        intro g2
        rw [Nat.succ_add] at g2
        cases g2 with
        | succ g3 g4 =>
          cases flat_det g1 g3
          exact ih g4
    rw [h3]
    rw [show n = j + (n - j) by omega] at hs
    have h5 := det h2 hs
    cases e : n - j with
    | zero =>
      rw [e] at h5
      cases h5
      rfl
    | succ d =>
      rw [e] at h5
      rcases h4 with h4 | ⟨_, _, rfl⟩ | ⟨_, rfl⟩
      · omega
      · cases h5 with | succ g _ => cases g
      · cases h5 with | succ g _ => cases g
  refine ⟨fun vs st' => ⟨?_, ?_⟩, fun st' => ⟨?_, ?_⟩, ?_, ?_⟩
  · rintro ⟨n, hn'⟩
    obtain ⟨j, s, _, h2, h3, _⟩ := C106_steps h he hM hn hh hst ht hx hargs n
    rw [hn'] at h3
    cases s with
    | running => cases h3
    | finished => cases h3; exact (f1 _ _).mp ⟨_, h2⟩
    | trapped => cases h3
  · intro hr
    obtain ⟨n, hs⟩ := (f1 vs st').mpr hr
    exact ⟨n, back hs⟩
  · rintro ⟨n, hn'⟩
    obtain ⟨j, s, _, h2, h3, _⟩ := C106_steps h he hM hn hh hst ht hx hargs n
    rw [hn'] at h3
    cases s with
    | running => cases h3
    | finished => cases h3
    | trapped => cases h3; exact (f2 _).mp ⟨_, h2⟩
  · intro hr
    obtain ⟨n, hs⟩ := (f2 st').mpr hr
    exact ⟨n, back hs⟩
  · intro hw
    refine f3.mp fun n => ?_
    obtain ⟨st', a, as, h1⟩ := hw n
    obtain ⟨j, s, _, h2, h3, h4⟩ := C106_steps h he hM hn hh hst ht hx hargs n
    rw [h1] at h3
    rcases h4 with rfl | ⟨_, _, rfl⟩ | ⟨_, rfl⟩
    · exact ⟨s, h2⟩
    · cases h3
    · cases h3
  · intro hr n
    obtain ⟨s, h1⟩ := f3.mpr hr (n + 1)
    have h2 : ∃ s1, FSteps M (sideTable m) n (entered t f args st) s1 ∧ FStep M (sideTable m) s1 s := by
      have last : ∀ {n : Nat} {s s2 : FState}, FSteps M (sideTable m) (n + 1) s s2 → ∃ s1, FSteps M (sideTable m) n s s1 ∧ FStep M (sideTable m) s1 s2 := by
        intro n
        induction n with
        | zero => intro s s2 g; cases g with | succ g1 g2 => cases g2; exact ⟨_, .zero, g1⟩
        | succ n ih =>
          intro s s2 g
          cases g with
          | succ g1 g2 =>
            obtain ⟨s1, g3, g4⟩ := ih g2
            exact ⟨s1, .succ g1 g3, g4⟩
      exact last h1
    obtain ⟨s1, h3, h4⟩ := h2
    have h5 := back h3
    cases h4 <;> exact ⟨_, _, _, h5⟩

end

/-- The values that the machine without checks has returned after so many steps. -/
def wordsOf (M : Machine) (T : Landings) (n : Nat) (s : WState) : Option (List Value) :=
  match wsteps M T n s with
  | .finished _ vs => some vs
  | _ => none

def wordsTrap (M : Machine) (T : Landings) (n : Nat) (s : WState) : Bool :=
  match wsteps M T n s with
  | .trapped _ => true
  | _ => false

-- 5! through the table; the function of the host through the table; beyond the table
example : wordsOf factMachine (sideTable factModule) 79 (wentered ⟨[.i32], [.i32]⟩ factModule.funcs[1] [0] factStore) = some [.i32 120] ∧
    wordsOf factMachine (sideTable factModule) 78 (wentered ⟨[.i32], [.i32]⟩ factModule.funcs[1] [0] factStore) = none ∧
    wordsOf factMachine (sideTable factModule) 5 (wentered ⟨[.i32], [.i32]⟩ factModule.funcs[1] [1] factStore) = some [.i32 6] ∧
    wordsTrap factMachine (sideTable factModule) 4 (wentered ⟨[.i32], [.i32]⟩ factModule.funcs[1] [2] factStore) = true := by decide +kernel

-- the entry of the table for its branch decides what the function of C105 returns
example : wordsOf landMachine (sideTable landModule) 7 (wentered ⟨[], [.i32]⟩ landFunc [] ⟨[], [], [], 0⟩) = some [.i32 1] ∧
    wordsOf landMachine (fun _ _ _ => some (1, 2)) 7 (wentered ⟨[], [.i32]⟩ landFunc [] ⟨[], [], [], 0⟩) = some [.i32 2] ∧
    wordsOf landMachine (fun _ _ _ => none) 7 (wentered ⟨[], [.i32]⟩ landFunc [] ⟨[], [], [], 0⟩) = some [] := by decide +kernel

-- for the factorial of every number, from every store
example (st : Store) (hst : StoreOk factModule factMachine.all.length st) (a : BitVec 32) (vs : List Value) (st' : Store) :
    (∃ n, wsteps factMachine (sideTable factModule) n (wentered ⟨[.i32], [.i32]⟩ factModule.funcs[0] [(Value.i32 a).cell] st) = .finished st' vs) ↔
      ∃ k c, Steps factMachine k (called [.i32 a] st) [.invoke (.own ⟨[.i32], [.i32]⟩ factModule.funcs[0])] c [] ∧ c.stack.reverse = vs ∧ c.store = st' :=
  (C106_words factModule_ok factModule_noElse factMachine_instance factMachine_num factMachine_host hst (x := 1) (args := [.i32 a]) rfl rfl rfl).1 vs st'

-- before the multiplication there are two words of operands and two of local variables, in every round of the loop
example (st : Store) (hst : StoreOk factModule factMachine.all.length st) (k : BitVec 32) (n : Nat) (st' : Store) (a : WAct) (as : List WAct)
    (hs : wsteps factMachine (sideTable factModule) n (wentered ⟨[.i32], [.i32]⟩ factModule.funcs[0] [(Value.i32 k).cell] st) = .running st' a as)
    (hf : a.func = factModule.funcs[0]) (hp : a.place = .inside 2 (.inside 0 (.here 5))) : a.stack.length = 2 ∧ a.locals.length = 2 := by
  obtain ⟨⟨x, h1, h2, h3⟩, _⟩ := C106_slots factModule_ok factModule_noElse factMachine_instance factMachine_num factMachine_host hst (x := 1) (args := [.i32 k]) rfl rfl rfl hs
  have e : (match arriveFunc factModule.funcs[0] (.inside 2 (.inside 0 (.here 5))) (spaces factModule) with
      | .ok (_, x) => some (x.operands.length, x.locals.length)
      | .error _ => none) = some (2, 2) := by decide +kernel
  rw [hf, hp] at h1
  rw [h1] at e
  obtain ⟨e1, e2⟩ := Prod.mk.inj (Option.some.inj e)
  exact ⟨h2.trans e1, h3.trans e2⟩

/-- (func (result i32)  f32.const 1  i32.const 1  i32.add) -/
def mixedFunc : Func := ⟨0, [], [.constF32 0x3f800000, .constI32 1, .num .i32Add]⟩

def mixedModule : Module := { types := [⟨[], [.i32]⟩], funcs := [mixedFunc] }

def mixedMachine : Machine := { factMachine with types := [⟨[], [.i32]⟩], funcs := [.own ⟨[], [.i32]⟩ mixedFunc] }

-- in a module that is not accepted the machine without checks takes the bits of a float for an integer, where the rules do not go on
example (st : Store) : validateModule mixedModule = .error .invalid ∧ wordsOf mixedMachine (sideTable mixedModule) 4 (wentered ⟨[], [.i32]⟩ mixedFunc [] st) = some [.i32 0x3f800001] ∧
    ∃ c es, Steps mixedMachine 3 (called [] st) [.invoke (.own ⟨[], [.i32]⟩ mixedFunc)] c es ∧ ¬ Final es ∧ ∀ c' es', ¬ Step mixedMachine c es c' es' := by
  refine ⟨by decide +kernel, rfl, _, _, .succ (.invokeOwn (args := []) (rest := []) rfl) (.succ (.inFrame (.inLabel .constF32)) (.succ (.inFrame (.inLabel .constI32)) .zero)), (fun h => nomatch h), ?_⟩
  intro c' es' hs
  cases hs with
  | inFrame hs =>
    cases hs with
    | inLabel hs =>
      cases hs with
      | num hp _ => cases hp
      | numTrap hp _ => cases hp

end Whasm
