import Verif.Lemmas.Stream
import Verif.Props.PassFile
import Verif.Props.Words

/-!
# C107: accepted code can be executed as the opcodes of the file, with what one pass over them finds

`Spec/Stream.lean` is a machine that has no tree of instructions, no labels, no types of values and no checks: only the opcodes in their sequence and a number that says where it is. What it knows about branches is what the
algorithm of the appendix has on its two stacks when it comes by (C100); the crate has the same. So an engine that validates and executes in place, without translating the code, gives the results of the rules.
-/

namespace Whasm
open Spec Run

theorem accepted_noMarks {m : Module} {r : ModuleResult} (h : validateModule m = .ok r) (he : NoElse m) : NoMarks m := by
  intro f hf
  obtain ⟨t, _, hb⟩ := (valid_of_ok h he).funcs f hf
  exact plain_iff.mp (hasTypes_plain hb)

/-- The table of the appendix is that of the crate, before every instruction. -/
theorem passTable_eq {m : Module} (he : NoMarks m) {K : Codes} {f : Func} (hf : f ∈ m.funcs) {t : FuncTy} (ht : m.types[f.ty.toNat]? = some t) {p : Place} {u v : List Pass.Op} (h : Splits p f.body u v)
    (hk : K f = u ++ v ++ [.endOp]) (hi : p.instr f.body ≠ none) (l : Nat) : passTable m K f u.length l = sideTable m f p l := by
  obtain ⟨w, hw, hr⟩ := splits_run (C := bodyEnv .code m t f.locals) rfl h (plain_iff.mpr (he f hf)) (.inl hi)
  obtain ⟨h1, h2⟩ := C100_step ht (he f hf) hw
  have e := hr (s := Spec.Pass.start t.results) (Pass.framed_push _ _ _)
  unfold passTable sideTable
  rw [ht, Option.bind_some, take_at hk, e]
  cases ha : arriveFunc f p (spaces m) with
  | ok r =>
    obtain ⟨⟨⟩, x⟩ := r
    obtain ⟨s, h3, h4⟩ := h1 x ha
    rw [h3, Option.bind_some]
    simp only
    rw [← h4.ctrls, List.getElem?_map, Option.map_map]
    rfl
  | error e =>
    cases hr : Spec.Pass.run (bodyEnv .code m t f.locals) (Spec.Pass.start t.results) w with
    | none => rfl
    | some s =>
      obtain ⟨x, h3, _⟩ := h2 s hr
      rw [h3] at ha
      cases ha

section
variable {m : Module} {r : ModuleResult} (h : validateModule m = .ok r) (he : NoElse m) {K : Codes} (hK : WrittenAs m K) {M : Machine} (hM : Instance m M) (hn : NumOk M) (hh : HostOk m M)
  {st : Store} (hst : StoreOk m M.all.length st) {x : Nat} {t : FuncTy} (ht : (funcSpace m)[x]? = some t) {f : Func} (hx : M.funcs[x]? = some (.own t f)) {args : List Value}
  (hargs : args.map Value.type = t.params)

theorem lsteps_snoc {T : LTable} : ∀ (n : Nat) (s : LState), lsteps M K T (n + 1) s = lstep M K T (lsteps M K T n s)
  | 0, _ => rfl
  | n + 1, s => by
    rw [lsteps, lsteps_snoc n]
    rfl

include h he hK hM hn hh hst ht hx hargs

/-- **C107, step by step.** After every number of steps the machine on opcodes is where the one on the tree of instructions is (C106): both are at the same state of the machine that gets stuck if something is not as it
should be, and the number of the place is the number of opcodes before it. -/
theorem C107_steps (n : Nat) : ∃ j s, j ≤ n ∧ FSteps M (sideTable m) j (entered t f args st) s ∧ wsteps M (sideTable m) n (wentered t f (args.map Value.cell) st) = s.words ∧
    LRel K s (lsteps M K (passTable m K) n (lentered t f (args.map Value.cell) st)) ∧ (j = n ∨ (∃ st' vs, s = .finished st' vs) ∨ ∃ st', s = .trapped st') := by
  have written : ∀ {j s}, FSteps M (sideTable m) j (entered t f args st) s → ∀ {st' a as}, s = .running st' a as → a.func ∈ m.funcs ∧ m.types[a.func.ty.toNat]? = some a.type := by
    rintro j s hs st' a as rfl
    obtain ⟨_, _, _, _, _, hr⟩ := flat_run h he hM hn hh hst ht hx hargs hs
    cases hr with
    | running g => exact ⟨g.func, g.type⟩
  induction n with
  | zero =>
    obtain ⟨ops, hk, hf⟩ := hK f (written .zero rfl).1
    refine ⟨0, _, Nat.le_refl _, .zero, ?_, ?_, .inl rfl⟩
    · rw [wsteps, wentered, entered, FState.words, Act.words, List.map_append, cells_zero]
      rfl
    · exact .running (lies_at (splits_start hf) hk rfl (by rw [List.map_append, cells_zero]) rfl) .nil
  | succ n ih =>
    obtain ⟨j, s, h1, h2, h3, h3', h4⟩ := ih
    rw [wsteps_snoc, h3, lsteps_snoc]
    rcases C105_progress h he hM hn hh hst ht hx hargs h2 with ⟨st', vs, rfl⟩ | ⟨st', rfl⟩ | ⟨s', h5, _⟩
    · refine ⟨j, _, by omega, h2, rfl, ?_, .inr (.inl ⟨_, _, rfl⟩)⟩
      cases e : lsteps M K (passTable m K) n (lentered t f (args.map Value.cell) st) with
      | running => rw [e] at h3'; cases h3'
      | _ => rw [e] at h3'; exact h3'
    · refine ⟨j, _, by omega, h2, rfl, ?_, .inr (.inr ⟨_, rfl⟩)⟩
      cases e : lsteps M K (passTable m K) n (lentered t f (args.map Value.cell) st) with
      | running => rw [e] at h3'; cases h3'
      | _ => rw [e] at h3'; exact h3'
    · have h6 := fsteps_snoc h2 h5
      rcases h4 with rfl | h4
      · have hg : s'.store.globals.map Value.type = s.store.globals.map Value.type := by
          rw [flat_globals h he hM hn hh hst ht hx hargs h2, flat_globals h he hM hn hh hst ht hx hargs h6]
        refine ⟨j + 1, s', Nat.le_refl _, h6, wstep_words h5 hg, lstep_low h5 hg h3' ?_ ?_, .inl rfl⟩
        · intro st' a as u v e hs hk hi l
          exact passTable_eq (accepted_noMarks h he) (written h2 e).1 (written h2 e).2 hs hk hi l
        · exact fun e => hK _ (written h6 e).1
      · rcases h4 with ⟨_, _, rfl⟩ | ⟨_, rfl⟩ <;> cases h5

/-- **C107, places.** The machine on opcodes is always at an opcode of the code of its function. If that is an instruction, the algorithm of the appendix has as many operands after the opcodes before it. -/
theorem C107_slots {n : Nat} {st' : Store} {a : LAct} {as : List LAct} (hs : lsteps M K (passTable m K) n (lentered t f (args.map Value.cell) st) = .running st' a as) :
    ∃ op, (K a.func)[a.pc]? = some op ∧ ∀ i, op = .instr i → ∃ t' s, m.types[a.func.ty.toNat]? = some t' ∧
      Spec.Pass.run (bodyEnv .code m t' a.func.locals) (Spec.Pass.start t'.results) ((K a.func).take a.pc) = some s ∧ a.stack.length = s.opds.length := by
  obtain ⟨j, s, _, h2, _, h3, _⟩ := C107_steps h he hK hM hn hh hst ht hx hargs n
  rw [hs] at h3
  cases h3 with
  | @running _ a2 as2 _ _ hl hb =>
    obtain ⟨u, v, hu, hk, rfl⟩ := hl
    obtain ⟨_, _, _, _, _, hr⟩ := flat_run h he hM hn hh hst ht hx hargs h2
    obtain ⟨⟨x, g1, g2, _⟩, _⟩ := C105_slots h he hM hn hh hst ht hx hargs h2
    have e1 : (K a2.func)[u.length]? = (v ++ [.endOp])[0]? := by
      rw [hk, List.append_assoc, List.getElem?_append_right (Nat.le_refl _), Nat.sub_self]
    obtain ⟨op, hop⟩ : ∃ op, (v ++ [.endOp])[0]? = some op := by cases v <;> exact ⟨_, rfl⟩
    refine ⟨op, e1.trans hop, ?_⟩
    rintro i rfl
    have hin : a2.place.instr a2.func.body ≠ none := by
      intro e
      cases ho : a2.place.outer with
      | none =>
        cases (splits_end hu e ho).1
        cases hop
      | some q =>
        rcases splits_fall hu e ho with ⟨w, rfl, _⟩ | ⟨b, z, w, _, rfl, _⟩ <;> cases hop
    cases hr with
    | running g =>
      have hp := accepted_noMarks h he _ g.func
      obtain ⟨w, hw, hr⟩ := splits_run (C := bodyEnv .code m a2.type a2.func.locals) rfl hu (plain_iff.mpr hp) (.inl hin)
      obtain ⟨s, h4, h5⟩ := (C100_step g.type hp hw).1 x g1
      refine ⟨_, s, g.type, ?_, ?_⟩
      · simp only [take_at hk]
        exact (hr (s := Spec.Pass.start a2.type.results) (Pass.framed_push _ _ _)).trans h4
      · show (a2.stack.map Value.cell).length = _
        rw [h5.opds, g2, List.length_map, List.length_map]

/-- **C107.** A call of a function of an accepted module has the same results by the rules of the document and on a machine that executes the opcodes in their sequence, on words without types, with nothing checked
and with the table of the algorithm of the appendix: it returns the same values with the same store, or traps with the same store, or goes on forever. -/
theorem C107_stream :
    (∀ vs st', (∃ n, lsteps M K (passTable m K) n (lentered t f (args.map Value.cell) st) = .finished st' vs) ↔
      ∃ k c, Steps M k (called args st) [.invoke (.own t f)] c [] ∧ c.stack.reverse = vs ∧ c.store = st') ∧
    (∀ st', (∃ n, lsteps M K (passTable m K) n (lentered t f (args.map Value.cell) st) = .trapped st') ↔ ∃ k c es, Steps M k (called args st) [.invoke (.own t f)] c (.trap :: es) ∧ c.store = st') ∧
    ((∀ n, ∃ st' a as, lsteps M K (passTable m K) n (lentered t f (args.map Value.cell) st) = .running st' a as) ↔ ∀ k, ∃ c es, Steps M k (called args st) [.invoke (.own t f)] c es) := by
  obtain ⟨f1, f2, f3⟩ := C106_words h he hM hn hh hst ht hx hargs
  have key := C107_steps h he hK hM hn hh hst ht hx hargs
  have k1 : ∀ n vs st', lsteps M K (passTable m K) n (lentered t f (args.map Value.cell) st) = .finished st' vs ↔ wsteps M (sideTable m) n (wentered t f (args.map Value.cell) st) = .finished st' vs := by
    intro n vs st'
    obtain ⟨j, s, _, _, h1, h2, _⟩ := key n
    rw [h1]
    generalize lsteps M K (passTable m K) n (lentered t f (args.map Value.cell) st) = l at h2 ⊢
    cases h2 with
    | finished => exact ⟨fun e => (by cases e; rfl), fun e => (by cases e; rfl)⟩
    | _ => exact ⟨fun e => (by cases e), fun e => (by cases e)⟩
  have k2 : ∀ n st', lsteps M K (passTable m K) n (lentered t f (args.map Value.cell) st) = .trapped st' ↔ wsteps M (sideTable m) n (wentered t f (args.map Value.cell) st) = .trapped st' := by
    intro n st'
    obtain ⟨j, s, _, _, h1, h2, _⟩ := key n
    rw [h1]
    generalize lsteps M K (passTable m K) n (lentered t f (args.map Value.cell) st) = l at h2 ⊢
    cases h2 with
    | trapped => exact ⟨fun e => (by cases e; rfl), fun e => (by cases e; rfl)⟩
    | _ => exact ⟨fun e => (by cases e), fun e => (by cases e)⟩
  have k3 : ∀ n, (∃ st' a as, lsteps M K (passTable m K) n (lentered t f (args.map Value.cell) st) = .running st' a as) ↔
      ∃ st' a as, wsteps M (sideTable m) n (wentered t f (args.map Value.cell) st) = .running st' a as := by
    intro n
    obtain ⟨j, s, _, _, h1, h2, _⟩ := key n
    rw [h1]
    generalize lsteps M K (passTable m K) n (lentered t f (args.map Value.cell) st) = l at h2 ⊢
    cases h2 with
    | running => exact ⟨fun _ => ⟨_, _, _, rfl⟩, fun _ => ⟨_, _, _, rfl⟩⟩
    | _ => exact ⟨fun ⟨_, _, _, e⟩ => (by cases e), fun ⟨_, _, _, e⟩ => (by cases e)⟩
  refine ⟨fun vs st' => ?_, fun st' => ?_, ?_⟩
  · rw [← f1]
    exact exists_congr fun n => k1 n vs st'
  · rw [← f2]
    exact exists_congr fun n => k2 n st'
  · rw [← f3]
    exact forall_congr' k3

end

/-! ## Files -/

theorem related_zip {α β : Type} {Q : α → β → Prop} : ∀ {xs : List α} {ys : List β}, Spec.Related Q xs ys → ∀ {x y}, (x, y) ∈ xs.zip ys → Q x y
  | _, _, .nil, _, _, h => by cases h
  | _, _, .cons h hs, _, _, hx => by
    rcases List.mem_cons.mp hx with e | hx
    · cases e; exact h
    · exact related_zip hs hx

/-- What the one pass needs of the module is in its declarations. -/
theorem passTable_bare (m : Module) (K : Codes) : passTable (bare m) K = passTable m K := by
  funext f n l
  unfold passTable
  simp only [bare_bodyEnv]
  rfl

/-- **C107, files.** A file that passes in one pass, which never builds the tree of a body (C100), is read and accepted by the crate. Execute the opcodes that the pass has seen, by the tables that it makes: every call
has the results that the rules of the document give it. `K` only says which of the bodies of the file belongs to which function. -/
theorem C107_file {s : List Byte} {m0 : Module} {codes : List (List Pass.Op)} (hs : Pass.GFile .code s m0 codes) (hv : Pass.Verdict .code m0 codes) :
    ∃ m, parseModule s = (.ok m, []) ∧ validateModule m = .ok (externals m) ∧ m0 = bare m ∧ m.funcs.length = codes.length ∧
      ∀ {K : Codes}, (∀ f ∈ m.funcs, (f, K f) ∈ m.funcs.zip codes) → ∀ {M : Machine}, Instance m M → NumOk M → HostOk m M → ∀ {st : Store}, StoreOk m M.all.length st →
      ∀ {x : Nat} {t : FuncTy}, (funcSpace m)[x]? = some t → ∀ {f : Func}, M.funcs[x]? = some (.own t f) → ∀ {args : List Value}, args.map Value.type = t.params →
      (∀ vs st', (∃ n, lsteps M K (passTable m0 K) n (lentered t f (args.map Value.cell) st) = .finished st' vs) ↔
        ∃ k c, Steps M k (called args st) [.invoke (.own t f)] c [] ∧ c.stack.reverse = vs ∧ c.store = st') ∧
      (∀ st', (∃ n, lsteps M K (passTable m0 K) n (lentered t f (args.map Value.cell) st) = .trapped st') ↔ ∃ k c es, Steps M k (called args st) [.invoke (.own t f)] c (.trap :: es) ∧ c.store = st') ∧
      ((∀ n, ∃ st' a as, lsteps M K (passTable m0 K) n (lentered t f (args.map Value.cell) st) = .running st' a as) ↔ ∀ k, ∃ c es, Steps M k (called args st) [.invoke (.own t f)] c es) := by
  obtain ⟨m, h1, h2, rfl, h3⟩ := file_module (.inr rfl) hs hv
  have hp : parseModule s = (.ok m, []) := (C23_module _ _ _).mpr ⟨rfl, h1⟩
  refine ⟨m, hp, ok_of_valid h2, rfl, h3.length.symm, fun hK _ hM hn hh _ hst _ _ ht _ hx _ hargs => ?_⟩
  rw [passTable_bare]
  exact C107_stream (ok_of_valid h2) (parsed_noElse hp) (fun f hf => related_zip h3 (hK f hf)) hM hn hh hst ht hx hargs

/-- Bodies written with every `else`. -/
def inLine : Codes := fun f => Pass.lineL f.body ++ [.endOp]

theorem inLine_written {m : Module} {r : ModuleResult} (h : validateModule m = .ok r) (he : NoElse m) : WrittenAs m inLine :=
  fun f hf => ⟨_, rfl, Pass.lineL_spec f.body (plain_iff.mpr (accepted_noMarks h he f hf))⟩

/-- The values that the machine on opcodes has returned after so many steps. -/
def streamOf (M : Machine) (K : Codes) (T : LTable) (n : Nat) (s : LState) : Option (List Value) :=
  match lsteps M K T n s with
  | .finished _ vs => some vs
  | _ => none

def streamTrap (M : Machine) (K : Codes) (T : LTable) (n : Nat) (s : LState) : Bool :=
  match lsteps M K T n s with
  | .trapped _ => true
  | _ => false

-- 5! through the table; the function of the host through the table; beyond the table
example : streamOf factMachine inLine (passTable factModule inLine) 79 (lentered ⟨[.i32], [.i32]⟩ factModule.funcs[1] [0] factStore) = some [.i32 120] ∧
    streamOf factMachine inLine (passTable factModule inLine) 78 (lentered ⟨[.i32], [.i32]⟩ factModule.funcs[1] [0] factStore) = none ∧
    streamOf factMachine inLine (passTable factModule inLine) 5 (lentered ⟨[.i32], [.i32]⟩ factModule.funcs[1] [1] factStore) = some [.i32 6] ∧
    streamTrap factMachine inLine (passTable factModule inLine) 4 (lentered ⟨[.i32], [.i32]⟩ factModule.funcs[1] [2] factStore) = true := by decide +kernel

-- the entry of the table for its branch decides what the function of C105 returns
example : streamOf landMachine inLine (passTable landModule inLine) 7 (lentered ⟨[], [.i32]⟩ landFunc [] ⟨[], [], [], 0⟩) = some [.i32 1] ∧
    streamOf landMachine inLine (fun _ _ _ => some (1, 2)) 7 (lentered ⟨[], [.i32]⟩ landFunc [] ⟨[], [], [], 0⟩) = some [.i32 2] := by decide +kernel

/-- The machine for the module of C100, whose function is `local.get 0  if  i32.const 1  else  i32.const 2  end`. -/
def passMachine : Machine := { endlessMachine with types := passModule.types, funcs := [.own ⟨[.i32], [.i32]⟩ passModule.funcs[0]] }

-- after the first branch of an `if` its second one is skipped, and the other way round
example : streamOf passMachine inLine (passTable passModule inLine) 5 (lentered ⟨[.i32], [.i32]⟩ passModule.funcs[0] [7] ⟨[], [], [], 0⟩) = some [.i32 1] ∧
    streamOf passMachine inLine (passTable passModule inLine) 5 (lentered ⟨[.i32], [.i32]⟩ passModule.funcs[0] [0] ⟨[], [], [], 0⟩) = some [.i32 2] := by decide +kernel

-- `br 1` in a loop in a block goes on after the block, `br 0` at the loop
example : goal [.block [], .loop [], .instr (.br 1), .ifOp [], .elseOp, .endOp, .endOp, .endOp, .endOp] 2 1 = 8 ∧
    goal [.block [], .loop [], .instr (.br 1), .ifOp [], .elseOp, .endOp, .endOp, .endOp, .endOp] 2 0 = 1 := by decide +kernel

/-- A function whose `if` has no second branch, and its code with the `else` left out. -/
def cutFunc : Func := ⟨0, [], [.localGet 0, .ifElse [] [.constI32 9, .localSet 0] [], .localGet 0]⟩

def cutModule : Module := { types := [⟨[.i32], [.i32]⟩], funcs := [cutFunc] }

def cutOps : List Pass.Op := [.instr (.localGet 0), .ifOp [], .instr (.constI32 9), .instr (.localSet 0), .endOp, .instr (.localGet 0)]

def cutMachine : Machine := { endlessMachine with types := cutModule.types, funcs := [.own ⟨[.i32], [.i32]⟩ cutFunc] }

theorem cutOps_written : WrittenAs cutModule fun _ => cutOps ++ [.endOp] := fun f hf => by
  simp only [cutModule, List.mem_singleton] at hf
  subst hf
  exact ⟨_, rfl, .cons (ops := [_]) (.simple trivial) (.cons (ops := [_, _, _, _]) (.ifThen (ops := [_, _]) (.cons (ops := [_]) (.simple trivial) (.cons (ops := [_]) (.simple trivial) .nil)))
    (.cons (ops := [_]) (.simple trivial) .nil))⟩

-- the same results, whether the `else` is written or not; not taking the branch leads behind the `end` at once if it is not
example : streamOf cutMachine (fun _ => cutOps ++ [.endOp]) (passTable cutModule fun _ => cutOps ++ [.endOp]) 7 (lentered ⟨[.i32], [.i32]⟩ cutFunc [7] ⟨[], [], [], 0⟩) = some [.i32 9] ∧
    streamOf cutMachine inLine (passTable cutModule inLine) 7 (lentered ⟨[.i32], [.i32]⟩ cutFunc [7] ⟨[], [], [], 0⟩) = some [.i32 9] ∧
    streamOf cutMachine (fun _ => cutOps ++ [.endOp]) (passTable cutModule fun _ => cutOps ++ [.endOp]) 5 (lentered ⟨[.i32], [.i32]⟩ cutFunc [0] ⟨[], [], [], 0⟩) = some [.i32 0] ∧
    streamOf cutMachine inLine (passTable cutModule inLine) 5 (lentered ⟨[.i32], [.i32]⟩ cutFunc [0] ⟨[], [], [], 0⟩) = some [.i32 0] := by decide +kernel

-- the file of C100, executed as it was read
example : ∃ m, parseModule passFile = (.ok m, []) ∧ ∀ (K : Codes), (∀ f ∈ m.funcs, (f, K f) ∈ m.funcs.zip [passOps]) → ∀ (M : Machine), Instance m M → NumOk M → HostOk m M →
    ∀ (st : Store), StoreOk m M.all.length st → ∀ (f : Func), M.funcs[0]? = some (.own ⟨[.i32], [.i32]⟩ f) → ∀ (a : BitVec 32) (vs : List Value) (st' : Store),
    (∃ n, lsteps M K (passTable { types := [⟨[.i32], [.i32]⟩], funcs := [⟨0, [.i64], []⟩] } K) n (lentered ⟨[.i32], [.i32]⟩ f [(Value.i32 a).cell] st) = .finished st' vs) ↔
      ∃ k c, Steps M k (called [.i32 a] st) [.invoke (.own ⟨[.i32], [.i32]⟩ f)] c [] ∧ c.stack.reverse = vs ∧ c.store = st' := by
  obtain ⟨m, h1, _, h2, _, h3⟩ := C107_file (m0 := { types := [⟨[.i32], [.i32]⟩], funcs := [⟨0, [.i64], []⟩] }) (codes := [passOps]) (gfile_mono w3c_le_code passFile_read)
    ⟨⟨by simp, by simp, by simp, by simp, by simp, by simp, by simp, by simp, by simp [importedTables], by simp [importedMems], by simp, by decide +kernel, by decide +kernel, by simp⟩, by
      simp only [List.zip_cons_cons, List.zip_nil_right, List.mem_singleton]
      rintro p rfl
      exact ⟨⟨[.i32], [.i32]⟩, rfl, _, rfl, rfl⟩⟩
  have ht : (funcSpace m)[0]? = some ⟨[.i32], [.i32]⟩ := by
    rw [← bare_funcSpace, ← h2]
    rfl
  exact ⟨m, h1, fun K hK M hM hn hh st hst f hx a vs st' => (h3 hK hM hn hh hst ht hx (args := [.i32 a]) rfl).1 vs st'⟩

-- for the factorial of every number, from every store
example (st : Store) (hst : StoreOk factModule factMachine.all.length st) (a : BitVec 32) (vs : List Value) (st' : Store) :
    (∃ n, lsteps factMachine inLine (passTable factModule inLine) n (lentered ⟨[.i32], [.i32]⟩ factModule.funcs[0] [(Value.i32 a).cell] st) = .finished st' vs) ↔
      ∃ k c, Steps factMachine k (called [.i32 a] st) [.invoke (.own ⟨[.i32], [.i32]⟩ factModule.funcs[0])] c [] ∧ c.stack.reverse = vs ∧ c.store = st' :=
  (C107_stream factModule_ok factModule_noElse (inLine_written factModule_ok factModule_noElse) factMachine_instance factMachine_num factMachine_host hst (x := 1) (args := [.i32 a]) rfl rfl rfl).1 vs st'

-- before the multiplication, which is opcode 9, there are two operands, in every round of the loop
example (st : Store) (hst : StoreOk factModule factMachine.all.length st) (k : BitVec 32) (n : Nat) (st' : Store) (a : LAct) (as : List LAct)
    (hs : lsteps factMachine inLine (passTable factModule inLine) n (lentered ⟨[.i32], [.i32]⟩ factModule.funcs[0] [(Value.i32 k).cell] st) = .running st' a as)
    (hf : a.func = factModule.funcs[0]) (hp : a.pc = 9) : a.stack.length = 2 := by
  obtain ⟨op, h0, h⟩ := C107_slots factModule_ok factModule_noElse (inLine_written factModule_ok factModule_noElse) factMachine_instance factMachine_num factMachine_host hst (x := 1) (args := [.i32 k]) rfl rfl rfl hs
  rw [hf, hp] at h0 h
  obtain ⟨t, s, h1, h2, h3⟩ := h _ (Option.some.inj (h0.symm.trans (by rfl : _ = some (Pass.Op.instr (.num .i32Mul)))))
  cases h1
  have e : (Pass.run (bodyEnv .code factModule ⟨[.i32], [.i32]⟩ factModule.funcs[0].locals) (Pass.start [.i32]) ((inLine factModule.funcs[0]).take 9)).map (fun s => s.opds.length) = some 2 := by decide +kernel
  rw [h2] at e
  exact h3.trans (Option.some.inj e)

end Whasm
