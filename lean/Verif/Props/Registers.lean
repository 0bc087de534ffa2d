import Verif.Lemmas.Registers
import Verif.Props.Stream

/-!
# C108: accepted code can be translated in one pass to code on registers

`Spec/Registers.lean` translates each opcode to an instruction that names the registers that it reads and writes, by what the algorithm of the appendix has on its stacks when it comes by; the crate has the same (C100).
There is no stack when the code is executed, no check, no type and no label. Every call has the results of the rules. This is what a compiler that translates a body while it validates it relies on.
-/

namespace Whasm
open Spec Run

section
variable {M : Machine} {T : Landings}

theorem step_locals {st st' : Store} {ls ls' S S' : List Value} {i : Instr} (h : Step M ⟨st, ls, S⟩ [.plain i] ⟨st', ls', S'⟩ []) : ls'.length = ls.length := by
  cases h with
  | localSet => exact List.length_set
  | localTee => exact List.length_set
  | _ => rfl

/-- Each call has as many local variables as its function and its type say. -/
def Sized (s : FState) : Prop := ∀ st a as, s = .running st a as → ∀ b ∈ a :: as, b.locals.length = b.type.params.length + b.func.locals.length

theorem sized_step {s s' : FState} (h : FStep M T s s') (hs : Sized s) : Sized s' := by
  cases h with
  | @instr st a as i st' ls' S' hi h =>
    have h1 := hs _ _ _ rfl
    rintro _ _ _ e b hb
    cases e
    rcases List.mem_cons.mp hb with rfl | hb
    · exact (step_locals h).trans (h1 a List.mem_cons_self)
    · exact h1 b (List.mem_cons_of_mem _ hb)
  | @call st a as i ls' S t f args rest hi h hp =>
    have h1 := hs _ _ _ rfl
    rintro _ _ _ e b hb
    cases e
    rcases List.mem_cons.mp hb with rfl | hb
    · show (args ++ f.locals.map zero).length = _
      rw [List.length_append, List.length_map, (popArgs_len hp).1]
    · rcases List.mem_cons.mp hb with rfl | hb
      · exact h1 a List.mem_cons_self
      · exact h1 b (List.mem_cons_of_mem _ hb)
  | @back st a a' as us rest hi hp =>
    have h1 := hs _ _ _ rfl
    rintro _ _ _ e b hb
    cases e
    rcases List.mem_cons.mp hb with rfl | hb
    · exact h1 a' (List.mem_cons_of_mem _ List.mem_cons_self)
    · exact h1 b (List.mem_cons_of_mem _ (List.mem_cons_of_mem _ hb))
  | trap | hostTrap | last => rintro _ _ _ e; cases e
  | @block st a as | @loop st a as | @ifThen st a as | @ifElse st a as | @fall st a as | @branch st a as | @host st a as =>
    have h1 := hs _ _ _ rfl
    rintro _ _ _ e b hb
    cases e
    rcases List.mem_cons.mp hb with rfl | hb
    · exact h1 a List.mem_cons_self
    · exact h1 b (List.mem_cons_of_mem _ hb)

theorem sized_steps {n : Nat} {s s' : FState} (h : FSteps M T n s s') : Sized s → Sized s' := by
  induction h with
  | zero => exact id
  | succ h _ ih => exact fun hs => ih (sized_step h hs)

end

theorem rsteps_snoc {M : Machine} {R : RCodes} : ∀ (n : Nat) (s : RState), rsteps M R (n + 1) s = rstep M R (rsteps M R n s)
  | 0, _ => rfl
  | n + 1, s => by
    rw [rsteps, rsteps_snoc n]
    rfl

section
variable {m : Module} {r : ModuleResult} (h : validateModule m = .ok r) (he : NoElse m) {K : Codes} (hK : WrittenAs m K) {M : Machine} (hM : Instance m M) (hn : NumOk M) (hh : HostOk m M)
  {st : Store} (hst : StoreOk m M.all.length st) {x : Nat} {t : FuncTy} (ht : (funcSpace m)[x]? = some t) {f : Func} (hx : M.funcs[x]? = some (.own t f)) {args : List Value}
  (hargs : args.map Value.type = t.params)

include h he hM hn hh hst ht hx hargs

/-- What the translation knows is so whenever the call is there. -/
theorem known_at {j : Nat} {st' : Store} {a : Act} {as : List Act} (hs : FSteps M (sideTable m) j (entered t f args st) (.running st' a as)) : Known m K (sideTable m) a := by
  obtain ⟨_, _, _, _, _, hr⟩ := flat_run h he hM hn hh hst ht hx hargs hs
  obtain ⟨⟨x, g1, g2, _⟩, _⟩ := C105_slots h he hM hn hh hst ht hx hargs hs
  cases hr with
  | running g =>
    have hp := accepted_noMarks h he _ g.func
    refine ⟨g.type, ?_, ?_, fun hu hk hi l => passTable_eq (accepted_noMarks h he) g.func g.type hu hk hi l⟩
    · refine sized_steps hs ?_ _ _ _ rfl _ List.mem_cons_self
      rintro _ _ _ e b hb
      cases e
      cases List.mem_singleton.mp hb
      show (args ++ f.locals.map zero).length = _
      rw [List.length_append, List.length_map, ← hargs, List.length_map]
    · intro u v hu hk hi
      obtain ⟨w, hw, hr⟩ : ∃ w, Pass.upTo a.place a.func.body = some w ∧
          ∀ {s : Spec.Pass.St}, Pass.Framed s → Pass.run (bodyEnv .code m a.type a.func.locals) s u = Pass.run (bodyEnv .code m a.type a.func.locals) s w := by
        by_cases hin : a.place.instr a.func.body = none
        · have ho := hi.resolve_left (fun e => e hin)
          obtain ⟨k, hpl⟩ := outer_here ho
          have hf := (splits_end hu hin ho).2
          rw [hpl] at hin ⊢
          refine ⟨_, rfl, fun hs => (run_same (C := bodyEnv .code m a.type a.func.locals) rfl hf ?_ hs).1⟩
          rw [List.take_of_length_le (List.getElem?_eq_none_iff.mp hin)]
          exact Pass.lineL_spec _ (plain_iff.mpr hp)
        · exact splits_run (C := bodyEnv .code m a.type a.func.locals) rfl hu (plain_iff.mpr hp) (.inl hin)
      obtain ⟨s, h4, h5⟩ := (C100_step g.type hp hw).1 x g1
      unfold heightAt
      rw [g.type, Option.bind_some, take_at hk, hr (s := Spec.Pass.start a.type.results) (Pass.framed_push _ _ _), h4]
      show s.opds.length = _
      rw [h5.opds, g2, List.length_map]

include hK

/-- **C108, step by step.** After every number of steps the machine on registers is where the machine is that gets stuck if something is not as it should be: at the same place, with the local variables in the first registers
and the operands in those after them. -/
theorem C108_steps (n : Nat) : ∃ j s, j ≤ n ∧ FSteps M (sideTable m) j (entered t f args st) s ∧ wsteps M (sideTable m) n (wentered t f (args.map Value.cell) st) = s.words ∧
    RRel K s (rsteps M (compile m K) n (rentered t f (args.map Value.cell) st)) ∧ (j = n ∨ (∃ st' vs, s = .finished st' vs) ∨ ∃ st', s = .trapped st') := by
  have written : ∀ {j s}, FSteps M (sideTable m) j (entered t f args st) s → ∀ {st' a as}, s = .running st' a as → a.func ∈ m.funcs := by
    rintro j s hs st' a as rfl
    obtain ⟨_, _, _, _, _, hr⟩ := flat_run h he hM hn hh hst ht hx hargs hs
    cases hr with
    | running g => exact g.func
  induction n with
  | zero =>
    obtain ⟨ops, hk, hf⟩ := hK f (written .zero rfl)
    refine ⟨0, _, Nat.le_refl _, .zero, ?_, ?_, .inl rfl⟩
    · rw [wsteps, wentered, entered, FState.words, Act.words, List.map_append, cells_zero]
      rfl
    · refine .running (kept_at (splits_start hf) hk rfl ?_) .nil
      rw [file_nil, List.map_append, cells_zero]
      exact agree_fresh _ _
  | succ n ih =>
    obtain ⟨j, s, h1, h2, h3, h3', h4⟩ := ih
    rw [wsteps_snoc, h3, rsteps_snoc]
    rcases C105_progress h he hM hn hh hst ht hx hargs h2 with ⟨st', vs, rfl⟩ | ⟨st', rfl⟩ | ⟨s', h5, _⟩
    · refine ⟨j, _, by omega, h2, rfl, ?_, .inr (.inl ⟨_, _, rfl⟩)⟩
      cases e : rsteps M (compile m K) n (rentered t f (args.map Value.cell) st) with
      | running => rw [e] at h3'; cases h3'
      | _ => rw [e] at h3'; exact h3'
    · refine ⟨j, _, by omega, h2, rfl, ?_, .inr (.inr ⟨_, rfl⟩)⟩
      cases e : rsteps M (compile m K) n (rentered t f (args.map Value.cell) st) with
      | running => rw [e] at h3'; cases h3'
      | _ => rw [e] at h3'; exact h3'
    · have h6 := fsteps_snoc h2 h5
      rcases h4 with rfl | h4
      · have hg : s'.store.globals.map Value.type = s.store.globals.map Value.type := by
          rw [flat_globals h he hM hn hh hst ht hx hargs h2, flat_globals h he hM hn hh hst ht hx hargs h6]
        refine ⟨j + 1, s', Nat.le_refl _, h6, wstep_words h5 hg, rstep_low h5 hg h3' ?_ ?_ ?_ hM.types, .inl rfl⟩
        · rintro st' a as rfl
          exact known_at h he hM hn hh hst ht hx hargs h2
        · exact fun e => hK _ (written h6 e)
        · intro y fi hy
          obtain ⟨_, imp, hfs, hi, _⟩ := hM
          have e : M.funcs.map FuncInst.type = funcSpace m := by rw [hfs, List.map_append, hi, ownFuncs_types]; rfl
          rw [← e, List.getElem?_map, hy]
          rfl
      · rcases h4 with ⟨_, _, rfl⟩ | ⟨_, rfl⟩ <;> cases h5

/-- **C108.** A call of a function of an accepted module has the same results by the rules of the document and by the code on registers that one pass over the opcodes makes: it returns the same values with the same store,
or traps with the same store, or goes on forever. -/
theorem C108_registers :
    (∀ vs st', (∃ n, rsteps M (compile m K) n (rentered t f (args.map Value.cell) st) = .finished st' vs) ↔
      ∃ k c, Steps M k (called args st) [.invoke (.own t f)] c [] ∧ c.stack.reverse = vs ∧ c.store = st') ∧
    (∀ st', (∃ n, rsteps M (compile m K) n (rentered t f (args.map Value.cell) st) = .trapped st') ↔ ∃ k c es, Steps M k (called args st) [.invoke (.own t f)] c (.trap :: es) ∧ c.store = st') ∧
    ((∀ n, ∃ st' a as, rsteps M (compile m K) n (rentered t f (args.map Value.cell) st) = .running st' a as) ↔ ∀ k, ∃ c es, Steps M k (called args st) [.invoke (.own t f)] c es) := by
  obtain ⟨f1, f2, f3⟩ := C106_words h he hM hn hh hst ht hx hargs
  have key := C108_steps h he hK hM hn hh hst ht hx hargs
  have k1 : ∀ n vs st', rsteps M (compile m K) n (rentered t f (args.map Value.cell) st) = .finished st' vs ↔ wsteps M (sideTable m) n (wentered t f (args.map Value.cell) st) = .finished st' vs := by
    intro n vs st'
    obtain ⟨j, s, _, _, h1, h2, _⟩ := key n
    rw [h1]
    generalize rsteps M (compile m K) n (rentered t f (args.map Value.cell) st) = l at h2 ⊢
    cases h2 with
    | finished => exact ⟨fun e => (by cases e; rfl), fun e => (by cases e; rfl)⟩
    | _ => exact ⟨fun e => (by cases e), fun e => (by cases e)⟩
  have k2 : ∀ n st', rsteps M (compile m K) n (rentered t f (args.map Value.cell) st) = .trapped st' ↔ wsteps M (sideTable m) n (wentered t f (args.map Value.cell) st) = .trapped st' := by
    intro n st'
    obtain ⟨j, s, _, _, h1, h2, _⟩ := key n
    rw [h1]
    generalize rsteps M (compile m K) n (rentered t f (args.map Value.cell) st) = l at h2 ⊢
    cases h2 with
    | trapped => exact ⟨fun e => (by cases e; rfl), fun e => (by cases e; rfl)⟩
    | _ => exact ⟨fun e => (by cases e), fun e => (by cases e)⟩
  have k3 : ∀ n, (∃ st' a as, rsteps M (compile m K) n (rentered t f (args.map Value.cell) st) = .running st' a as) ↔
      ∃ st' a as, wsteps M (sideTable m) n (wentered t f (args.map Value.cell) st) = .running st' a as := by
    intro n
    obtain ⟨j, s, _, _, h1, h2, _⟩ := key n
    rw [h1]
    generalize rsteps M (compile m K) n (rentered t f (args.map Value.cell) st) = l at h2 ⊢
    cases h2 with
    | running => exact ⟨fun _ => ⟨_, _, _, rfl⟩, fun _ => ⟨_, _, _, rfl⟩⟩
    | _ => exact ⟨fun ⟨_, _, _, e⟩ => (by cases e), fun ⟨_, _, _, e⟩ => (by cases e)⟩
  refine ⟨fun vs st' => ?_, fun st' => ?_, ?_⟩
  · rw [← f1]
    exact exists_congr fun n => k1 n vs st'
  · rw [← f2]
    exact exists_congr fun n => k2 n st'
  · rw [← f3]
    exact forall_congr' k3

end

/-! ## Files -/

theorem compile_bare (m : Module) (K : Codes) : compile (bare m) K = compile m K := by
  have e : heightAt (bare m) K = heightAt m K := by
    funext f n
    unfold heightAt
    simp only [bare_bodyEnv]
    rfl
  have e2 : moveAt (bare m) K = moveAt m K := by
    funext f n pc l k
    unfold moveAt
    rw [passTable_bare]
  have e3 : compileAt (bare m) K = compileAt m K := by
    funext f t pc
    unfold compileAt
    simp only [e, e2, bare_funcSpace]
    rfl
  funext f
  unfold compile
  rw [e3]
  rfl

/-- **C108, files.** A file that passes in one pass, which never builds the tree of a body (C100), is read and accepted by the crate. Translate the opcodes that the pass has seen, by what is on its stacks: every call has
the results that the rules of the document give it. `K` only says which of the bodies of the file belongs to which function. -/
theorem C108_file {s : List Byte} {m0 : Module} {codes : List (List Pass.Op)} (hs : Pass.GFile .code s m0 codes) (hv : Pass.Verdict .code m0 codes) :
    ∃ m, parseModule s = (.ok m, []) ∧ validateModule m = .ok (externals m) ∧ m0 = bare m ∧ m.funcs.length = codes.length ∧
      ∀ {K : Codes}, (∀ f ∈ m.funcs, (f, K f) ∈ m.funcs.zip codes) → ∀ {M : Machine}, Instance m M → NumOk M → HostOk m M → ∀ {st : Store}, StoreOk m M.all.length st →
      ∀ {x : Nat} {t : FuncTy}, (funcSpace m)[x]? = some t → ∀ {f : Func}, M.funcs[x]? = some (.own t f) → ∀ {args : List Value}, args.map Value.type = t.params →
      (∀ vs st', (∃ n, rsteps M (compile m0 K) n (rentered t f (args.map Value.cell) st) = .finished st' vs) ↔
        ∃ k c, Steps M k (called args st) [.invoke (.own t f)] c [] ∧ c.stack.reverse = vs ∧ c.store = st') ∧
      (∀ st', (∃ n, rsteps M (compile m0 K) n (rentered t f (args.map Value.cell) st) = .trapped st') ↔ ∃ k c es, Steps M k (called args st) [.invoke (.own t f)] c (.trap :: es) ∧ c.store = st') ∧
      ((∀ n, ∃ st' a as, rsteps M (compile m0 K) n (rentered t f (args.map Value.cell) st) = .running st' a as) ↔ ∀ k, ∃ c es, Steps M k (called args st) [.invoke (.own t f)] c es) := by
  obtain ⟨m, h1, h2, rfl, h3⟩ := file_module (.inr rfl) hs hv
  have hp : parseModule s = (.ok m, []) := (C23_module _ _ _).mpr ⟨rfl, h1⟩
  refine ⟨m, hp, ok_of_valid h2, rfl, h3.length.symm, fun hK _ hM hn hh _ hst _ _ ht _ hx _ hargs => ?_⟩
  rw [compile_bare]
  exact C108_registers (ok_of_valid h2) (parsed_noElse hp) (fun f hf => related_zip h3 (hK f hf)) hM hn hh hst ht hx hargs

/-- The values that the machine on registers has returned after so many steps. -/
def regsOf (M : Machine) (R : RCodes) (n : Nat) (s : RState) : Option (List Value) :=
  match rsteps M R n s with
  | .finished _ vs => some vs
  | _ => none

def regsTrap (M : Machine) (R : RCodes) (n : Nat) (s : RState) : Bool :=
  match rsteps M R n s with
  | .trapped _ => true
  | _ => false

-- 5! through the table; the function of the host through the table; beyond the table
example : regsOf factMachine (compile factModule inLine) 79 (rentered ⟨[.i32], [.i32]⟩ factModule.funcs[1] [0] factStore) = some [.i32 120] ∧
    regsOf factMachine (compile factModule inLine) 78 (rentered ⟨[.i32], [.i32]⟩ factModule.funcs[1] [0] factStore) = none ∧
    regsOf factMachine (compile factModule inLine) 5 (rentered ⟨[.i32], [.i32]⟩ factModule.funcs[1] [1] factStore) = some [.i32 6] ∧
    regsTrap factMachine (compile factModule inLine) 4 (rentered ⟨[.i32], [.i32]⟩ factModule.funcs[1] [2] factStore) = true := by decide +kernel

-- the code for a branch out of a block: its one value goes from the third register to the second, over the one that the block left behind; register 0 stays
example : compile landModule inLine landFunc = [.const 0 1, .skip, .const 1 2, .const 2 3, .jump ⟨6, 2, 1, 1⟩, .skip, .skip, .leave 0] := by decide +kernel

example : regsOf landMachine (compile landModule inLine) 7 (rentered ⟨[], [.i32]⟩ landFunc [] ⟨[], [], [], 0⟩) = some [.i32 1] ∧
    regsOf landMachine (fun _ => [.const 0 1, .skip, .const 1 2, .const 2 3, .jump ⟨6, 2, 0, 1⟩, .skip, .skip, .leave 0]) 7 (rentered ⟨[], [.i32]⟩ landFunc [] ⟨[], [], [], 0⟩) = some [.i32 3] := by decide +kernel

-- an `if` with both branches: they leave their result in the same register
example : compile passModule inLine passModule.funcs[0] = [.copy 1 0, .goUnless 1 4, .const 1 1, .go 6, .const 1 2, .skip, .leave 1] ∧
    regsOf passMachine (compile passModule inLine) 5 (rentered ⟨[.i32], [.i32]⟩ passModule.funcs[0] [7] ⟨[], [], [], 0⟩) = some [.i32 1] ∧
    regsOf passMachine (compile passModule inLine) 5 (rentered ⟨[.i32], [.i32]⟩ passModule.funcs[0] [0] ⟨[], [], [], 0⟩) = some [.i32 2] := by decide +kernel

-- an `else` that is left out
example : compile cutModule (fun _ => cutOps ++ [.endOp]) cutFunc = [.copy 1 0, .goUnless 1 4, .const 1 9, .copy 0 1, .skip, .copy 1 0, .leave 1] ∧
    regsOf cutMachine (compile cutModule fun _ => cutOps ++ [.endOp]) 7 (rentered ⟨[.i32], [.i32]⟩ cutFunc [7] ⟨[], [], [], 0⟩) = some [.i32 9] ∧
    regsOf cutMachine (compile cutModule fun _ => cutOps ++ [.endOp]) 5 (rentered ⟨[.i32], [.i32]⟩ cutFunc [0] ⟨[], [], [], 0⟩) = some [.i32 0] := by decide +kernel

-- for the factorial of every number, from every store
example (st : Store) (hst : StoreOk factModule factMachine.all.length st) (a : BitVec 32) (vs : List Value) (st' : Store) :
    (∃ n, rsteps factMachine (compile factModule inLine) n (rentered ⟨[.i32], [.i32]⟩ factModule.funcs[0] [(Value.i32 a).cell] st) = .finished st' vs) ↔
      ∃ k c, Steps factMachine k (called [.i32 a] st) [.invoke (.own ⟨[.i32], [.i32]⟩ factModule.funcs[0])] c [] ∧ c.stack.reverse = vs ∧ c.store = st' :=
  (C108_registers factModule_ok factModule_noElse (inLine_written factModule_ok factModule_noElse) factMachine_instance factMachine_num factMachine_host hst (x := 1) (args := [.i32 a]) rfl rfl rfl).1 vs st'

-- the file of C100, translated as it was read
example : ∃ m, parseModule passFile = (.ok m, []) ∧ ∀ (K : Codes), (∀ f ∈ m.funcs, (f, K f) ∈ m.funcs.zip [passOps]) → ∀ (M : Machine), Instance m M → NumOk M → HostOk m M →
    ∀ (st : Store), StoreOk m M.all.length st → ∀ (f : Func), M.funcs[0]? = some (.own ⟨[.i32], [.i32]⟩ f) → ∀ (a : BitVec 32) (vs : List Value) (st' : Store),
    (∃ n, rsteps M (compile { types := [⟨[.i32], [.i32]⟩], funcs := [⟨0, [.i64], []⟩] } K) n (rentered ⟨[.i32], [.i32]⟩ f [(Value.i32 a).cell] st) = .finished st' vs) ↔
      ∃ k c, Steps M k (called [.i32 a] st) [.invoke (.own ⟨[.i32], [.i32]⟩ f)] c [] ∧ c.stack.reverse = vs ∧ c.store = st' := by
  obtain ⟨m, h1, _, h2, _, h3⟩ := C108_file (m0 := { types := [⟨[.i32], [.i32]⟩], funcs := [⟨0, [.i64], []⟩] }) (codes := [passOps]) (gfile_mono w3c_le_code passFile_read)
    ⟨⟨by simp, by simp, by simp, by simp, by simp, by simp, by simp, by simp, by simp [importedTables], by simp [importedMems], by simp, by decide +kernel, by decide +kernel, by simp⟩, by
      simp only [List.zip_cons_cons, List.zip_nil_right, List.mem_singleton]
      rintro p rfl
      exact ⟨⟨[.i32], [.i32]⟩, rfl, _, rfl, rfl⟩⟩
  have ht : (funcSpace m)[0]? = some ⟨[.i32], [.i32]⟩ := by
    rw [← bare_funcSpace, ← h2]
    rfl
  exact ⟨m, h1, fun K hK M hM hn hh st hst f hx a vs st' => (h3 hK hM hn hh hst ht hx (args := [.i32 a]) rfl).1 vs st'⟩

end Whasm
