import Verif.Lemmas.Bounded
import Verif.Props.FrameSize

/-!
# C110: a machine with a fixed number of words gives the results of the rules, or says that the words were not enough

`Spec/Bounded.lean` has a machine whose memory for the registers of all calls is a list of `W` words. It looks whether there is room only when a call begins, by the number of registers that the one pass has found.
-/

namespace Whasm
open Spec Run

theorem exists_frame (m : Module) (K : Codes) : ∃ F, ∀ f ∈ m.funcs, frame m K f ≤ F :=
  ⟨(m.funcs.map (frame m K)).foldl max 0, fun f hf => foldl_max_le (.inr (List.mem_map.mpr ⟨f, hf, rfl⟩))⟩

theorem wsteps_stay {M : Machine} {T : Landings} {s e : WState} {n : Nat} (h : wsteps M T n s = e) (he : wstep M T e = e) : ∀ {k : Nat}, n ≤ k → wsteps M T k s = e
  | 0, hk => by cases Nat.le_zero.mp hk; exact h
  | k + 1, hk => by
    rcases Nat.lt_or_eq_of_le hk with hk | rfl
    · rw [wsteps_snoc, wsteps_stay h he (Nat.le_of_lt_succ hk), he]
    · exact h

section
variable {m : Module} {r : ModuleResult} (h : validateModule m = .ok r) (he : NoElse m) {K : Codes} (hK : WrittenAs m K) {M : Machine} (hM : Instance m M) (hn : NumOk M) (hh : HostOk m M)
  {st : Store} (hst : StoreOk m M.all.length st) {x : Nat} {t : FuncTy} (ht : (funcSpace m)[x]? = some t) {f : Func} (hx : M.funcs[x]? = some (.own t f)) {args : List Value}
  (hargs : args.map Value.type = t.params)

include h he hM hn hh hst ht hx hargs hK

/-- The results, with any number of registers that is enough. -/
theorem bounded_sound {N : Func → Nat} (hN : RoomFor m K M t f args st N) (W n : Nat) :
    (∀ vs st', bsteps M (compile m K) (N) W (bentered (N) W t f (args.map Value.cell) st) n = .finished st' vs →
      ∃ k c, Steps M k (called args st) [.invoke (.own t f)] c [] ∧ c.stack.reverse = vs ∧ c.store = st') ∧
    ∀ st', bsteps M (compile m K) (N) W (bentered (N) W t f (args.map Value.cell) st) n = .trapped st' →
      ∃ k c es, Steps M k (called args st) [.invoke (.own t f)] c (.trap :: es) ∧ c.store = st' := by
  have hs := bsteps_same (M := M) (R := compile m K) (N := N) (W := W) (t := t) (f := f) (args := args.map Value.cell) (st := st) n
  obtain ⟨g1, g2, _⟩ := rows_results h he hK hM hn hh hst ht hx hargs hN fun i => (bsteps M (compile m K) (N) W (bentered (N) W t f (args.map Value.cell) st) i).beyond
  refine ⟨fun vs st' e => (g1 vs st').mp ⟨n, ?_⟩, fun st' e => (g2 st').mp ⟨n, ?_⟩⟩
  all_goals
    rcases hs with hs | ⟨hs, _⟩
    · generalize hq : qsteps M (compile m K) (N) _ _ n = q at hs
      rw [e] at hs
      cases hs
      rfl
    · rw [hs] at e
      cases e

/-- **C110, results.** If the machine with `W` words returns values or traps, so do the rules of the document, with the same values and store. -/
theorem C110_sound (W n : Nat) :
    (∀ vs st', bsteps M (compile m K) (frame m K) W (bentered (frame m K) W t f (args.map Value.cell) st) n = .finished st' vs →
      ∃ k c, Steps M k (called args st) [.invoke (.own t f)] c [] ∧ c.stack.reverse = vs ∧ c.store = st') ∧
    ∀ st', bsteps M (compile m K) (frame m K) W (bentered (frame m K) W t f (args.map Value.cell) st) n = .trapped st' →
      ∃ k c es, Steps M k (called args st) [.invoke (.own t f)] c (.trap :: es) ∧ c.store = st' :=
  bounded_sound h he hK hM hn hh hst ht hx hargs (frame_enough' h he hM hn hh hst ht hx hargs) W n

/-- Where the words are not enough, with any number of registers that is enough. -/
theorem bounded_exhausted {N : Func → Nat} (hN : RoomFor m K M t f args st N) {W n : Nat} (hb : bsteps M (compile m K) (N) W (bentered (N) W t f (args.map Value.cell) st) n = .exhausted) :
    ∃ j st' a as, j ≤ n ∧ FSteps M (sideTable m) j (entered t f args st) (.running st' a as) ∧ wsteps M (sideTable m) j (wentered t f (args.map Value.cell) st) = (FState.running st' a as).words ∧
      as.length ≤ j ∧ ∀ F, (∀ f ∈ m.funcs, N f ≤ F) → W < (as.length + 1) * F := by
  have hs := bsteps_same (M := M) (R := compile m K) (N := N) (W := W) (t := t) (f := f) (args := args.map Value.cell) (st := st) n
  rcases hs with hs | ⟨_, k, hk, st', mem, a, as, hq, hw⟩
  · rw [hb] at hs
    exact (same_not hs).elim
  · have h1 := (rows_space h he hK hM hn hh hst ht hx hargs hN _ hq).2
    obtain ⟨j, s, _, h2, hw', h3, _, h4⟩ := rows_steps h he hK hM hn hh hst ht hx hargs hN (fun i => (bsteps M (compile m K) (N) W (bentered (N) W t f (args.map Value.cell) st) i).beyond) k
    rw [hq] at h3
    cases h3 with
    | @running _ a' as' _ _ _ hr =>
      rcases h4 with rfl | ⟨_, _, h4⟩ | ⟨_, h4⟩
      · have e : as'.length = as.length := by rw [related_len hr, apart_length]
        refine ⟨j, _, a', as', hk, h2, hw', ?_, fun F hF => Nat.lt_of_lt_of_le hw ?_⟩
        · rw [e]
          exact qsteps_calls hq
        · rw [e]
          exact h1 F hF
      · cases h4
      · cases h4

theorem exhausted_at {W n : Nat} (hb : bsteps M (compile m K) (frame m K) W (bentered (frame m K) W t f (args.map Value.cell) st) n = .exhausted) :
    ∃ j st' a as, j ≤ n ∧ FSteps M (sideTable m) j (entered t f args st) (.running st' a as) ∧ wsteps M (sideTable m) j (wentered t f (args.map Value.cell) st) = (FState.running st' a as).words ∧
      as.length ≤ j ∧ ∀ F, (∀ f ∈ m.funcs, frame m K f ≤ F) → W < (as.length + 1) * F :=
  bounded_exhausted h he hK hM hn hh hst ht hx hargs (frame_enough' h he hM hn hh hst ht hx hargs) hb

/-- **C110, room.** If the words are not enough, then the execution comes to a state with so many calls that they may need more than `W`. -/
theorem C110_exhausted {W n : Nat} (hb : bsteps M (compile m K) (frame m K) W (bentered (frame m K) W t f (args.map Value.cell) st) n = .exhausted) :
    ∃ j st' a as, j ≤ n ∧ FSteps M (sideTable m) j (entered t f args st) (.running st' a as) ∧ ∀ F, (∀ f ∈ m.funcs, frame m K f ≤ F) → W < (a :: as).length * F := by
  obtain ⟨j, st', a, as, h1, h2, _, _, h3⟩ := exhausted_at h he hK hM hn hh hst ht hx hargs hb
  exact ⟨j, st', a, as, h1, h2, h3⟩

/-- **C110, enough.** With no more than `d` calls at any time and no more than `F` registers for any function, `d * F` words are always enough. -/
theorem C110_enough {d F W : Nat} (hd : ∀ j st' a as, FSteps M (sideTable m) j (entered t f args st) (.running st' a as) → (a :: as).length ≤ d) (hF : ∀ f ∈ m.funcs, frame m K f ≤ F) (hW : d * F ≤ W) (n : Nat) :
    bsteps M (compile m K) (frame m K) W (bentered (frame m K) W t f (args.map Value.cell) st) n ≠ .exhausted := by
  intro hb
  obtain ⟨j, st', a, as, _, h1, h2⟩ := C110_exhausted h he hK hM hn hh hst ht hx hargs hb
  have h3 := h2 F hF
  have h4 := Nat.mul_le_mul_right F (hd j st' a as h1)
  omega

/-- All results, with any number of registers that is enough. -/
theorem bounded_results {N : Func → Nat} (hN : RoomFor m K M t f args st N) {W : Nat} (hb : ∀ n, bsteps M (compile m K) (N) W (bentered (N) W t f (args.map Value.cell) st) n ≠ .exhausted) :
    (∀ vs st', (∃ n, bsteps M (compile m K) (N) W (bentered (N) W t f (args.map Value.cell) st) n = .finished st' vs) ↔
      ∃ k c, Steps M k (called args st) [.invoke (.own t f)] c [] ∧ c.stack.reverse = vs ∧ c.store = st') ∧
    (∀ st', (∃ n, bsteps M (compile m K) (N) W (bentered (N) W t f (args.map Value.cell) st) n = .trapped st') ↔
      ∃ k c es, Steps M k (called args st) [.invoke (.own t f)] c (.trap :: es) ∧ c.store = st') ∧
    ((∀ n, ∃ st' row a as, bsteps M (compile m K) (N) W (bentered (N) W t f (args.map Value.cell) st) n = .running st' row a as) ↔
      ∀ k, ∃ c es, Steps M k (called args st) [.invoke (.own t f)] c es) := by
  have hs := bsteps_same (M := M) (R := compile m K) (N := N) (W := W) (t := t) (f := f) (args := args.map Value.cell) (st := st)
  dsimp only at hs
  obtain ⟨g1, g2, g3⟩ := rows_results h he hK hM hn hh hst ht hx hargs hN fun i => (bsteps M (compile m K) (N) W (bentered (N) W t f (args.map Value.cell) st) i).beyond
  have same := fun n => (hs n).resolve_right fun e => hb n e.1
  refine ⟨fun vs st' => (exists_congr fun n => ?_).trans (g1 vs st'), fun st' => (exists_congr fun n => ?_).trans (g2 st'), (forall_congr' fun n => ?_).trans g3⟩
  all_goals
    have hn := same n
    generalize qsteps M (compile m K) (N) _ _ n = q at hn ⊢
    generalize bsteps M (compile m K) (N) W _ n = c at hn ⊢
    cases hn <;> simp

/-- **C110.** If the words are enough, the machine has the results of the rules: it returns the same values with the same store, traps with the same store, or goes on forever. -/
theorem C110_bounded {W : Nat} (hb : ∀ n, bsteps M (compile m K) (frame m K) W (bentered (frame m K) W t f (args.map Value.cell) st) n ≠ .exhausted) :
    (∀ vs st', (∃ n, bsteps M (compile m K) (frame m K) W (bentered (frame m K) W t f (args.map Value.cell) st) n = .finished st' vs) ↔
      ∃ k c, Steps M k (called args st) [.invoke (.own t f)] c [] ∧ c.stack.reverse = vs ∧ c.store = st') ∧
    (∀ st', (∃ n, bsteps M (compile m K) (frame m K) W (bentered (frame m K) W t f (args.map Value.cell) st) n = .trapped st') ↔
      ∃ k c es, Steps M k (called args st) [.invoke (.own t f)] c (.trap :: es) ∧ c.store = st') ∧
    ((∀ n, ∃ st' row a as, bsteps M (compile m K) (frame m K) W (bentered (frame m K) W t f (args.map Value.cell) st) n = .running st' row a as) ↔
      ∀ k, ∃ c es, Steps M k (called args st) [.invoke (.own t f)] c es) :=
  bounded_results h he hK hM hn hh hst ht hx hargs (frame_enough' h he hM hn hh hst ht hx hargs) hb

/-- The words needed for an execution that ends are bounded. -/
theorem ends_enough {k : Nat} (hk : ∀ n st' a as, k ≤ n → wsteps M (sideTable m) n (wentered t f (args.map Value.cell) st) ≠ .running st' a as) :
    ∃ W0, ∀ W, W0 ≤ W → ∀ n, bsteps M (compile m K) (frame m K) W (bentered (frame m K) W t f (args.map Value.cell) st) n ≠ .exhausted := by
  obtain ⟨F, hF⟩ := exists_frame m K
  refine ⟨k * F, fun W hW n hb => ?_⟩
  obtain ⟨j, st', a, as, _, _, h1, h2, h3⟩ := exhausted_at h he hK hM hn hh hst ht hx hargs hb
  have h4 := h3 F hF
  have h5 : j < k := Nat.lt_of_not_le fun hj => hk j _ _ _ hj h1
  have h6 : (as.length + 1) * F ≤ k * F := Nat.mul_le_mul_right F (by omega)
  omega

/-- **C110, every end.** For every call that returns or traps by the rules there is a number of words from which on the machine does the same. -/
theorem C110_ends :
    (∀ k c, Steps M k (called args st) [.invoke (.own t f)] c [] →
      ∃ W0, ∀ W, W0 ≤ W → ∃ n, bsteps M (compile m K) (frame m K) W (bentered (frame m K) W t f (args.map Value.cell) st) n = .finished c.store c.stack.reverse) ∧
    ∀ k c es, Steps M k (called args st) [.invoke (.own t f)] c (.trap :: es) →
      ∃ W0, ∀ W, W0 ≤ W → ∃ n, bsteps M (compile m K) (frame m K) W (bentered (frame m K) W t f (args.map Value.cell) st) n = .trapped c.store := by
  obtain ⟨f1, f2, _⟩ := C106_words h he hM hn hh hst ht hx hargs
  refine ⟨fun k c hs => ?_, fun k c es hs => ?_⟩
  · obtain ⟨n, hw⟩ := (f1 _ _).mpr ⟨k, c, hs, rfl, rfl⟩
    obtain ⟨W0, h0⟩ := ends_enough h he hK hM hn hh hst ht hx hargs (k := n) fun n' st' a as hn' e => by
      rw [wsteps_stay hw (by intros; rfl) hn'] at e
      cases e
    exact ⟨W0, fun W hW => ((C110_bounded h he hK hM hn hh hst ht hx hargs (h0 W hW)).1 _ _).mpr ⟨k, c, hs, rfl, rfl⟩⟩
  · obtain ⟨n, hw⟩ := (f2 _).mpr ⟨k, c, es, hs, rfl⟩
    obtain ⟨W0, h0⟩ := ends_enough h he hK hM hn hh hst ht hx hargs (k := n) fun n' st' a as hn' e => by
      rw [wsteps_stay hw (by intros; rfl) hn'] at e
      cases e
    exact ⟨W0, fun W hW => ((C110_bounded h he hK hM hn hh hst ht hx hargs (h0 W hW)).2.1 _).mpr ⟨k, c, es, hs, rfl⟩⟩

end

/-! ## Files -/

/-- **C110, files.** The same for the opcodes of a file that passes in one pass, translated by what this pass has found: the machine with `W` words gives the results of the rules for the module that the crate reads, or there
are so many calls that `d * (P + bytes)` is more than `W`, where `P` is the largest number of parameters and local variables. -/
theorem C110_file {s : List Byte} {m0 : Module} {codes : List (List Pass.Op)} (hs : Pass.GFile .code s m0 codes) (hv : Pass.Verdict .code m0 codes) :
    ∃ m, parseModule s = (.ok m, []) ∧ validateModule m = .ok (externals m) ∧ m0 = bare m ∧
      ∀ {K : Codes}, (∀ f ∈ m.funcs, (f, K f) ∈ m.funcs.zip codes) → ∀ {M : Machine}, Instance m M → NumOk M → HostOk m M → ∀ {st : Store}, StoreOk m M.all.length st →
      ∀ {x : Nat} {t : FuncTy}, (funcSpace m)[x]? = some t → ∀ {f : Func}, M.funcs[x]? = some (.own t f) → ∀ {args : List Value}, args.map Value.type = t.params → ∀ W n,
      match bsteps M (compile m0 K) (frame m0 K) W (bentered (frame m0 K) W t f (args.map Value.cell) st) n with
      | .running _ row _ _ => row.length = W
      | .finished st' vs => ∃ k c, Steps M k (called args st) [.invoke (.own t f)] c [] ∧ c.stack.reverse = vs ∧ c.store = st'
      | .trapped st' => ∃ k c es, Steps M k (called args st) [.invoke (.own t f)] c (.trap :: es) ∧ c.store = st'
      | .exhausted => ∃ j st' a as, FSteps M (sideTable m) j (entered t f args st) (.running st' a as) ∧
          ∀ P, (∀ f ∈ m.funcs, ∀ t, m.types[f.ty.toNat]? = some t → t.params.length + f.locals.length ≤ P) → W < (a :: as).length * (P + s.length) := by
  obtain ⟨m, h1, h2, rfl, h3⟩ := file_module (.inr rfl) hs hv
  have hp : parseModule s = (.ok m, []) := (C23_module _ _ _).mpr ⟨rfl, h1⟩
  refine ⟨m, hp, ok_of_valid h2, rfl, fun {K} hK _ hM hn hh _ hst _ _ ht _ hx _ hargs W n => ?_⟩
  have hw : WrittenAs m K := fun f hf => related_zip h3 (hK f hf)
  rw [compile_bare, frame_bare]
  obtain ⟨g1, g2⟩ := C110_sound (ok_of_valid h2) (parsed_noElse hp) hw hM hn hh hst ht hx hargs W n
  split
  · rename_i e
    rcases bsteps_same n with hr | ⟨hr, _⟩ <;> rw [e] at hr
    · exact same_length hr
    · cases hr
  · rename_i e
    exact g1 _ _ e
  · rename_i e
    exact g2 _ e
  · rename_i e
    obtain ⟨j, st', a, as, _, h4, h5⟩ := C110_exhausted (ok_of_valid h2) (parsed_noElse hp) hw hM hn hh hst ht hx hargs e
    refine ⟨j, st', a, as, h4, fun P hP => h5 _ fun f hf => ?_⟩
    obtain ⟨t, ht, hl, hb⟩ := file_frame h2 hs hw hK f hf
    have := hP f hf t ht
    omega

/-- The values that have been returned. -/
def returned : BState → Option (List Value)
  | .finished _ vs => some vs
  | _ => none

/-- The words were not enough. -/
def noRoom : BState → Bool
  | .exhausted => true
  | _ => false

-- 4! with five calls, whose registers begin two words apart, and the last has four: twelve words are enough, eleven are not
example : returned (bsteps selfMachine (compile selfModule inLine) (frame selfModule inLine) 12 (bentered (frame selfModule inLine) 12 ⟨[.i32], [.i32]⟩ selfModule.funcs[0] [4] ⟨[], [], [], 0⟩) 49) = some [.i32 24] ∧
    noRoom (bsteps selfMachine (compile selfModule inLine) (frame selfModule inLine) 11 (bentered (frame selfModule inLine) 11 ⟨[.i32], [.i32]⟩ selfModule.funcs[0] [4] ⟨[], [], [], 0⟩) 30) = true := by
  decide +kernel

-- with three words the first call has no room
example : noRoom (bentered (frame selfModule inLine) 3 ⟨[.i32], [.i32]⟩ selfModule.funcs[0] [4] ⟨[], [], [], 0⟩) = true := by decide +kernel

-- if one word is taken to be enough for a call, nine are enough for five calls, but then 4! is 0: the result of the last call is not in the row
example : returned (bsteps selfMachine (compile selfModule inLine) (fun _ => 1) 9 (bentered (fun _ => 1) 9 ⟨[.i32], [.i32]⟩ selfModule.funcs[0] [4] ⟨[], [], [], 0⟩) 49) = some [.i32 0] := by decide +kernel

-- 5! through the table, in eleven words
example : returned (bsteps factMachine (compile factModule inLine) (frame factModule inLine) 11 (bentered (frame factModule inLine) 11 ⟨[.i32], [.i32]⟩ factModule.funcs[1] [0] factStore) 79) = some [.i32 120] := by
  decide +kernel

-- the factorial of every number, from every store: for as many words as one likes, what is returned is what the rules return
example (st : Store) (hst : StoreOk factModule factMachine.all.length st) (a : BitVec 32) (W n : Nat) (vs : List Value) (st' : Store)
    (h : bsteps factMachine (compile factModule inLine) (frame factModule inLine) W (bentered (frame factModule inLine) W ⟨[.i32], [.i32]⟩ factModule.funcs[0] [(Value.i32 a).cell] st) n = .finished st' vs) :
    ∃ k c, Steps factMachine k (called [.i32 a] st) [.invoke (.own ⟨[.i32], [.i32]⟩ factModule.funcs[0])] c [] ∧ c.stack.reverse = vs ∧ c.store = st' :=
  (C110_sound factModule_ok factModule_noElse (inLine_written factModule_ok factModule_noElse) factMachine_instance factMachine_num factMachine_host hst (x := 1) (args := [.i32 a]) rfl rfl rfl W n).1 vs st' h

-- and with enough words all is as by the rules
example (st : Store) (hst : StoreOk factModule factMachine.all.length st) (a : BitVec 32) (k : Nat) (c : Conf)
    (h : Steps factMachine k (called [.i32 a] st) [.invoke (.own ⟨[.i32], [.i32]⟩ factModule.funcs[0])] c []) :
    ∃ W0, ∀ W, W0 ≤ W → ∃ n, bsteps factMachine (compile factModule inLine) (frame factModule inLine) W
      (bentered (frame factModule inLine) W ⟨[.i32], [.i32]⟩ factModule.funcs[0] [(Value.i32 a).cell] st) n = .finished c.store c.stack.reverse :=
  (C110_ends factModule_ok factModule_noElse (inLine_written factModule_ok factModule_noElse) factMachine_instance factMachine_num factMachine_host hst (x := 1) (args := [.i32 a]) rfl rfl rfl).1 k c h

-- if a thousand words are not enough, there were more than two hundred and fifty calls
example (st : Store) (hst : StoreOk factModule factMachine.all.length st) (a : BitVec 32) (n : Nat)
    (h : bsteps factMachine (compile factModule inLine) (frame factModule inLine) 1000 (bentered (frame factModule inLine) 1000 ⟨[.i32], [.i32]⟩ factModule.funcs[0] [(Value.i32 a).cell] st) n = .exhausted) :
    ∃ j st' b bs, FSteps factMachine (sideTable factModule) j (entered ⟨[.i32], [.i32]⟩ factModule.funcs[0] [.i32 a] st) (.running st' b bs) ∧ 250 < (b :: bs).length := by
  obtain ⟨j, st', b, bs, _, h1, h2⟩ :=
    C110_exhausted factModule_ok factModule_noElse (inLine_written factModule_ok factModule_noElse) factMachine_instance factMachine_num factMachine_host hst (x := 1) (args := [.i32 a]) rfl rfl rfl h
  have := h2 4 (by decide +kernel)
  exact ⟨j, st', b, bs, h1, by omega⟩

-- the file of C100, as it was read: what is returned with so many words is what the rules return
example : ∃ m, parseModule passFile = (.ok m, []) ∧ ∀ (K : Codes), (∀ f ∈ m.funcs, (f, K f) ∈ m.funcs.zip [passOps]) → ∀ (M : Machine), Instance m M → NumOk M → HostOk m M →
    ∀ (st : Store), StoreOk m M.all.length st → ∀ (f : Func), M.funcs[0]? = some (.own ⟨[.i32], [.i32]⟩ f) → ∀ (a : BitVec 32) (W n : Nat) (vs : List Value) (st' : Store),
    bsteps M (compile { types := [⟨[.i32], [.i32]⟩], funcs := [⟨0, [.i64], []⟩] } K) (frame { types := [⟨[.i32], [.i32]⟩], funcs := [⟨0, [.i64], []⟩] } K) W
        (bentered (frame { types := [⟨[.i32], [.i32]⟩], funcs := [⟨0, [.i64], []⟩] } K) W ⟨[.i32], [.i32]⟩ f [(Value.i32 a).cell] st) n = .finished st' vs →
      ∃ k c, Steps M k (called [.i32 a] st) [.invoke (.own ⟨[.i32], [.i32]⟩ f)] c [] ∧ c.stack.reverse = vs ∧ c.store = st' := by
  obtain ⟨m, h1, _, h2, h3⟩ := C110_file (m0 := { types := [⟨[.i32], [.i32]⟩], funcs := [⟨0, [.i64], []⟩] }) (codes := [passOps]) (gfile_mono w3c_le_code passFile_read)
    ⟨⟨by simp, by simp, by simp, by simp, by simp, by simp, by simp, by simp, by simp [importedTables], by simp [importedMems], by simp, by decide +kernel, by decide +kernel, by simp⟩, by
      simp only [List.zip_cons_cons, List.zip_nil_right, List.mem_singleton]
      rintro p rfl
      exact ⟨⟨[.i32], [.i32]⟩, rfl, _, rfl, rfl⟩⟩
  have ht : (funcSpace m)[0]? = some ⟨[.i32], [.i32]⟩ := by
    rw [← bare_funcSpace, ← h2]
    rfl
  refine ⟨m, h1, fun K hK M hM hn hh st hst f hx a W n vs st' e => ?_⟩
  have h4 := h3 hK hM hn hh hst ht hx (args := [.i32 a]) rfl W n
  rw [show List.map Value.cell [Value.i32 a] = [(Value.i32 a).cell] from rfl, e] at h4
  exact h4

end Whasm
