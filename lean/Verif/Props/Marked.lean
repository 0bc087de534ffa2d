import Verif.Spec.Marked
import Verif.Props.OnePass

/-!
# C113: what validation marks as not reached is not executed

A translator that works in the pass that validates need not translate instructions after a `br` up to the end of the block: the mark of the control frame is enough to know that they are not executed, whatever the machine, the
store and the arguments. The mark says nothing of the `end` of a block: that of an `if` without `else` is
reached past a marked branch. But it does of `else`, and of the `end` of the function.
-/

namespace Whasm
open Spec Run

section
variable {m : Module} {r : ModuleResult} (h : validateModule m = .ok r) (he : NoElse m) {K : Codes} (hK : WrittenAs m K) {M : Machine} (hM : Instance m M) (hn : NumOk M) (hh : HostOk m M)
  {st : Store} (hst : StoreOk m M.all.length st) {x : Nat} {t : FuncTy} (ht : (funcSpace m)[x]? = some t) {f : Func} (hx : M.funcs[x]? = some (.own t f)) {args : List Value}
  (hargs : args.map Value.type = t.params)

include h he hM hn hh hst ht hx hargs

/-- A place that the machine without labels gets to is not marked, however the code is written. -/
theorem unmarked {j : Nat} {st' : Store} {a : Act} {as : List Act} {u v : List Pass.Op} (hs : FSteps M (sideTable m) j (entered t f args st) (.running st' a as)) (hu : Splits a.place a.func.body u v)
    (hk : K a.func = u ++ v ++ [.endOp]) : marked m K a.func u.length = false := by
  obtain ⟨_, _, _, _, _, hr⟩ := flat_run h he hM hn hh hst ht hx hargs hs
  obtain ⟨⟨x, g1, _, _, g2⟩, _⟩ := C105_slots h he hM hn hh hst ht hx hargs hs
  unfold marked
  rw [drop_at hk]
  by_cases hv : v.head? = some .endOp
  · obtain ⟨w, rfl⟩ := List.head?_eq_some_iff.mp hv
    cases w <;> rfl
  · cases hr with
    | running g =>
      have hp := accepted_noMarks h he _ g.func
      obtain ⟨w, hw, hr⟩ := splits_run (C := bodyEnv .code m a.type a.func.locals) rfl hu (plain_iff.mpr hp) (.inr hv)
      obtain ⟨s, h4, h5⟩ := (C100_step g.type hp hw).1 x g1
      have e2 : Pass.run (bodyEnv .code m a.type a.func.locals) (Pass.start a.type.results) ((K a.func).take u.length) = some s := by
        rw [take_at hk]
        exact (hr (s := Pass.start a.type.results) (Pass.framed_push _ _ _)).trans h4
      have e3 : s.ctrls.any (·.unreachable) = false := by
        rw [List.any_eq_false]
        intro c hc
        have := g2 _ (by rw [← h5.ctrls]; exact List.mem_map.mpr ⟨c, hc, rfl⟩)
        dsimp only at this
        rw [this]
        decide
      rw [g.type, Option.bind_some, e2, Option.map_some, Option.getD_some, e3, Bool.and_false]

/-- The number of registers without what is marked is enough at each place. -/
theorem live_enough {N : Func → Nat} (hN : ∀ f ∈ m.funcs, liveFrame m K f ≤ N f) : ∀ (k : Nat) {n : Nat} {st' : Store} {a : Act} {as : List Act} {u v : List Pass.Op}, a.place.depth < k →
    FSteps M (sideTable m) n (entered t f args st) (.running st' a as) → Splits a.place a.func.body u v → K a.func = u ++ v ++ [.endOp] → a.locals.length + a.stack.length ≤ N a.func
  | 0, _, _, _, _, _, _, hd, _, _, _ => absurd hd (Nat.not_lt_zero _)
  | k + 1, n, st', a, as, u, v, hd, hs, hu, hk => by
    have kn := known_at (K := K) h he hM hn hh hst ht hx hargs hs
    by_cases hi : a.place.instr a.func.body ≠ none ∨ a.place.outer = none
    · have h1 := kn.height hu hk hi
      have hf : a.func ∈ m.funcs := by
        obtain ⟨_, _, _, _, _, hr⟩ := flat_run h he hM hn hh hst ht hx hargs hs
        cases hr with
        | running g => exact g.func
      have h2 : a.stack.length ≤ (((List.range (K a.func).length).filter fun pc => !marked m K a.func pc).map (heightAt m K a.func)).foldl max 0 := by
        refine foldl_max_le (.inr (List.mem_map.mpr ⟨u.length, List.mem_filter.mpr ⟨List.mem_range.mpr ?_, ?_⟩, h1⟩))
        · rw [hk]
          simp only [List.length_append, List.length_cons, List.length_nil]
          omega
        · rw [unmarked h he hM hn hh hst ht hx hargs hs hu hk]
          rfl
      refine Nat.le_trans ?_ (hN _ hf)
      rw [liveFrame, kn.type, kn.locals]
      show _ ≤ a.type.params.length + _ + _
      omega
    · have hi1 : a.place.instr a.func.body = none := Classical.byContradiction fun e => hi (.inl e)
      cases hq : a.place.outer with
      | none => exact absurd (.inr hq) hi
      | some q =>
        have h1 := fsteps_snoc hs (.fall hi1 hq)
        have hd' : q.next.depth < k := by
          have := depth_outer hq
          rw [depth_next]
          omega
        rcases splits_fall hu hi1 hq with ⟨w, rfl, hs'⟩ | ⟨b, z, w, hz, rfl, hs'⟩
        · exact live_enough hN k (a := { a with place := q.next }) hd' h1 hs' (by rw [hk]; simp only [List.append_assoc, List.cons_append, List.nil_append])
        · exact live_enough hN k (a := { a with place := q.next }) hd' h1 hs' (by rw [hk]; simp only [List.append_assoc, List.cons_append, List.nil_append])

include hK

/-- **C113, opcodes.** The machine that executes the opcodes in their sequence is never at an opcode that is marked. -/
theorem C113_opcodes {n : Nat} {st' : Store} {a : LAct} {as : List LAct} (hs : lsteps M K (passTable m K) n (lentered t f (args.map Value.cell) st) = .running st' a as) : marked m K a.func a.pc = false := by
  obtain ⟨j, s, _, h2, _, h3, _⟩ := C107_steps h he hK hM hn hh hst ht hx hargs n
  rw [hs] at h3
  cases h3 with
  | running hl =>
    obtain ⟨u, v, hu, hk, rfl⟩ := hl
    exact unmarked h he hM hn hh hst ht hx hargs h2 hu hk

/-- **C113, registers.** Nor is the machine with a fixed number of words. -/
theorem C113_registers {N : Func → Nat} (hN : ∀ f ∈ m.funcs, liveFrame m K f ≤ N f) {W n : Nat} {st' : Store} {row : List Cell} {a : QAct} {as : List QAct}
    (hs : bsteps M (compile m K) (N) W (bentered (N) W t f (args.map Value.cell) st) n = .running st' row a as) : marked m K a.func a.pc = false := by
  rcases bsteps_same (M := M) (R := compile m K) (N := N) (W := W) (t := t) (f := f) (args := args.map Value.cell) (st := st) n with hb | ⟨hb, _⟩
  · obtain ⟨j, s, _, h2, _, h3, _⟩ := rows_steps h he hK hM hn hh hst ht hx hargs (fun _ _ _ _ _ _ => live_enough h he hM hn hh hst ht hx hargs hN _ (Nat.lt_succ_self _)) (fun i => (bsteps M (compile m K) (N) W (bentered (N) W t f (args.map Value.cell) st) i).beyond) n
    generalize qsteps M (compile m K) (N) _ _ n = q at hb h3
    rw [hs] at hb
    cases hb with
    | running =>
      cases h3 with
      | running hl =>
        obtain ⟨u, v, g, b, hu, hk, _, e⟩ := hl
        have e1 := congrArg RAct.func e
        have e2 := congrArg RAct.pc e
        dsimp only at e1 e2
        rw [e1, e2]
        exact unmarked h he hM hn hh hst ht hx hargs h2 hu hk
  · rw [hs] at hb
    cases hb

/-- **C113.** What is marked need not be translated: with any code that is the same where nothing is marked, the machine does the same in every step. -/
theorem C113_marked {N : Func → Nat} (hN : ∀ f ∈ m.funcs, liveFrame m K f ≤ N f) {R : RCodes} (hR : ∀ f ∈ m.funcs, ∀ pc, marked m K f pc = false → (R f)[pc]? = (compile m K f)[pc]?) (W n : Nat) :
    bsteps M R (N) W (bentered (N) W t f (args.map Value.cell) st) n = bsteps M (compile m K) (N) W (bentered (N) W t f (args.map Value.cell) st) n := by
  have hf : .own t f ∈ M.all := List.mem_append_left _ (List.mem_of_getElem? hx)
  induction n with
  | zero => rfl
  | succ n ih =>
    have hm := (bsteps_mine (M := M) (R := compile m K) (R' := compile m K) (N := N) (N' := N) (W := W) (fun _ _ _ => ⟨rfl, rfl⟩) hf (args := args.map Value.cell) (st := st) n).2
    rw [bsteps, bsteps, ih]
    cases e : bsteps M (compile m K) (N) W (bentered (N) W t f (args.map Value.cell) st) n with
    | running st' row a as =>
      have hd := C113_registers h he hK hM hn hh hst ht hx hargs hN e
      rw [e] at hm
      obtain ⟨t', hm⟩ := hm a List.mem_cons_self
      have e' := hR a.func (own_mem hM hm).1 a.pc hd
      simp only [bstep, qstep, e']
    | _ => rfl

/-- **C113, results.** So with such code, and with as many registers as are needed for what is not marked, a machine with `W` words that are enough has the results of the rules: it returns the same values with the same store,
traps with the same store, or goes on forever. -/
theorem C113_results {N : Func → Nat} (hN : ∀ f ∈ m.funcs, liveFrame m K f ≤ N f) {R : RCodes} (hR : ∀ f ∈ m.funcs, ∀ pc, marked m K f pc = false → (R f)[pc]? = (compile m K f)[pc]?) {W : Nat}
    (hb : ∀ n, bsteps M R N W (bentered N W t f (args.map Value.cell) st) n ≠ .exhausted) :
    (∀ vs st', (∃ n, bsteps M R N W (bentered N W t f (args.map Value.cell) st) n = .finished st' vs) ↔ ∃ k c, Steps M k (called args st) [.invoke (.own t f)] c [] ∧ c.stack.reverse = vs ∧ c.store = st') ∧
    (∀ st', (∃ n, bsteps M R N W (bentered N W t f (args.map Value.cell) st) n = .trapped st') ↔ ∃ k c es, Steps M k (called args st) [.invoke (.own t f)] c (.trap :: es) ∧ c.store = st') ∧
    ((∀ n, ∃ st' row a as, bsteps M R N W (bentered N W t f (args.map Value.cell) st) n = .running st' row a as) ↔ ∀ k, ∃ c es, Steps M k (called args st) [.invoke (.own t f)] c es) := by
  have e := C113_marked h he hK hM hn hh hst ht hx hargs hN hR W
  simp only [e] at hb ⊢
  exact bounded_results h he hK hM hn hh hst ht hx hargs (fun _ _ _ _ _ _ => live_enough h he hM hn hh hst ht hx hargs hN _ (Nat.lt_succ_self _)) hb

/-- **C113, room.** If the words are not enough, there are so many calls that they may need more. -/
theorem C113_room {N : Func → Nat} (hN : ∀ f ∈ m.funcs, liveFrame m K f ≤ N f) {R : RCodes} (hR : ∀ f ∈ m.funcs, ∀ pc, marked m K f pc = false → (R f)[pc]? = (compile m K f)[pc]?) {W n : Nat}
    (hb : bsteps M R N W (bentered N W t f (args.map Value.cell) st) n = .exhausted) :
    ∃ j st' a as, j ≤ n ∧ FSteps M (sideTable m) j (entered t f args st) (.running st' a as) ∧ ∀ F, (∀ f ∈ m.funcs, N f ≤ F) → W < (a :: as).length * F := by
  rw [C113_marked h he hK hM hn hh hst ht hx hargs hN hR W] at hb
  obtain ⟨j, st', a, as, h1, h2, _, _, h3⟩ :=
    bounded_exhausted h he hK hM hn hh hst ht hx hargs (fun _ _ _ _ _ _ => live_enough h he hM hn hh hst ht hx hargs hN _ (Nat.lt_succ_self _)) hb
  exact ⟨j, st', a, as, h1, h2, h3⟩

end

theorem foldl_max_mono {α : Type} {g : α → Nat} {xs ys : List α} (h : ∀ x ∈ xs, x ∈ ys) : (xs.map g).foldl max 0 ≤ (ys.map g).foldl max 0 := by
  have key : ∀ (zs : List Nat) {a b : Nat}, a ≤ b → (∀ z ∈ zs, z ≤ b) → zs.foldl max a ≤ b := by
    intro zs
    induction zs with
    | nil => exact fun ha _ => ha
    | cons z zs ih => exact fun ha hz => ih (Nat.max_le.mpr ⟨ha, hz z List.mem_cons_self⟩) fun y hy => hz y (List.mem_cons_of_mem _ hy)
  refine key _ (Nat.zero_le _) fun z hz => ?_
  obtain ⟨x, hx, rfl⟩ := List.mem_map.mp hz
  exact foldl_max_le (.inr (List.mem_map.mpr ⟨x, h x hx, rfl⟩))

/-- No more registers are needed than if all is counted. -/
theorem live_le (m : Module) (K : Codes) (f : Func) : liveFrame m K f ≤ frame m K f :=
  Nat.add_le_add_left (foldl_max_mono fun _ hx => (List.mem_filter.mp hx).1) _

/-! ## Files -/

theorem marked_bare (m : Module) (K : Codes) : marked (bare m) K = marked m K := by
  funext f n
  unfold marked
  simp only [bare_bodyEnv]
  rfl

theorem live_bare (m : Module) (K : Codes) : liveFrame (bare m) K = liveFrame m K := by
  have e : heightAt (bare m) K = heightAt m K := by
    funext f n
    unfold heightAt
    simp only [bare_bodyEnv]
    rfl
  funext f
  unfold liveFrame
  rw [e, marked_bare]
  rfl

/-- **C113, files.** The same for a file that is translated as it is read: with any code that is the one made in the pass where nothing is marked, and no fewer registers than are needed there, what is returned is what the rules
of the document give for the module that the crate reads, and so is a trap. -/
theorem C113_file {s : List Byte} {m0 : Module} {codes : List (List Pass.Op)} (hs : Pass.GFile .code s m0 codes) (hd : DeclsOk .code m0) (hv : ∀ p ∈ m0.funcs.zip codes, ∃ q, translate m0 p.1 p.2 = some q) :
    ∃ m, parseModule s = (.ok m, []) ∧ validateModule m = .ok (externals m) ∧ m0 = bare m ∧
      ∀ {K : Codes}, (∀ f ∈ m.funcs, (f, K f) ∈ m.funcs.zip codes) → ∀ {R : RCodes} {N : Func → Nat},
      (∀ f ∈ m.funcs, ∃ code k, translate m0 f (K f) = some (code, k) ∧ liveFrame m0 K f ≤ N f ∧ N f ≤ k ∧ ∀ pc, marked m0 K f pc = false → (R f)[pc]? = code[pc]?) →
      ∀ {M : Machine}, Instance m M → NumOk M → HostOk m M → ∀ {st : Store}, StoreOk m M.all.length st →
      ∀ {x : Nat} {t : FuncTy}, (funcSpace m)[x]? = some t → ∀ {f : Func}, M.funcs[x]? = some (.own t f) → ∀ {args : List Value}, args.map Value.type = t.params → ∀ W n,
      match bsteps M R N W (bentered N W t f (args.map Value.cell) st) n with
      | .running _ row _ _ => row.length = W
      | .finished st' vs => ∃ k c, Steps M k (called args st) [.invoke (.own t f)] c [] ∧ c.stack.reverse = vs ∧ c.store = st'
      | .trapped st' => ∃ k c es, Steps M k (called args st) [.invoke (.own t f)] c (.trap :: es) ∧ c.store = st'
      | .exhausted => ∃ j st' a as, FSteps M (sideTable m) j (entered t f args st) (.running st' a as) ∧
          ∀ P, (∀ f ∈ m.funcs, ∀ t, m.types[f.ty.toNat]? = some t → t.params.length + f.locals.length ≤ P) → W < (a :: as).length * (P + s.length) := by
  obtain ⟨m, g1, g2, rfl, g3⟩ := file_module (.inr rfl) hs (verdict_translate.mpr ⟨hd, hv⟩)
  have hp : parseModule s = (.ok m, []) := (C23_module _ _ _).mpr ⟨rfl, g1⟩
  have h2 := ok_of_valid g2
  have he := parsed_noElse hp
  refine ⟨m, hp, h2, rfl, fun {K} hK R N hR M hM hn hh st hst x t ht f hx args hargs W n => ?_⟩
  have hw : WrittenAs m K := fun f hf => related_zip g3 (hK f hf)
  have hc : ∀ f ∈ m.funcs, liveFrame m K f ≤ N f ∧ N f ≤ frame m K f ∧ ∀ pc, marked m K f pc = false → (R f)[pc]? = (compile m K f)[pc]? := by
    intro f hf
    obtain ⟨code, k, e1, e2, e3, e4⟩ := hR f hf
    have := C111_code e1
    rw [compile_bare, frame_bare] at this
    rw [marked_bare] at e4
    rw [live_bare] at e2
    have e5 : code = compile m K f := congrArg Prod.fst this
    have e6 : k = frame m K f := congrArg Prod.snd this
    rw [← e5, ← e6]
    exact ⟨e2, e3, e4⟩
  have hN := fun f hf => (hc f hf).1
  have hR' := fun f hf => (hc f hf).2.2
  have e := C113_marked h2 he hw hM hn hh hst ht hx hargs hN hR' W n
  obtain ⟨k1, k2⟩ := bounded_sound h2 he hw hM hn hh hst ht hx hargs (fun _ _ _ _ _ _ => live_enough h2 he hM hn hh hst ht hx hargs hN _ (Nat.lt_succ_self _)) W n
  split <;> rename_i e'
  · rw [e] at e'
    rcases bsteps_same n with hr | ⟨hr, _⟩ <;> rw [e'] at hr
    · exact same_length hr
    · cases hr
  · exact k1 _ _ (e.symm.trans e')
  · exact k2 _ (e.symm.trans e')
  · obtain ⟨j, st', a, as, _, h4, h5⟩ := C113_room h2 he hw hM hn hh hst ht hx hargs hN hR' e'
    refine ⟨j, st', a, as, h4, fun P hP => h5 _ fun f hf => ?_⟩
    obtain ⟨t, ht, hl, hb⟩ := file_frame g2 hs hw hK f hf
    have := hP f hf t ht
    have := (hc f hf).2.1
    omega

/-- After a branch there is more code in the block, with a block in it that has one of its own. -/
def idleFunc : Func := ⟨0, [], [.block [] [.localGet 0, .brIf 0, .constI32 7, .ret, .drop, .block [.i32] [.loop [] [.unreachable], .constI32 1], .brIf 0], .localGet 0]⟩

def idleModule : Module := { types := [⟨[.i32], [.i32]⟩], funcs := [idleFunc] }

theorem idleModule_ok : validateModule idleModule = .ok ⟨[], []⟩ := by decide +kernel

theorem idleModule_noElse : NoElse idleModule := by
  intro f hf
  refine (plain_iff.mp ?_).2
  simp only [idleModule, List.mem_singleton] at hf
  subst hf
  simp [idleFunc, plainL, plainI]

-- what is marked is what comes after the `return`, also within the blocks that begin there, but not what comes after the block
example : (List.range 16).map (marked idleModule inLine idleFunc) = [false, false, false, false, false, true, true, true, true, false, true, false, true, false, false, false] ∧
    compile idleModule inLine idleFunc =
      [.skip, .copy 1 0, .jumpIf 1 ⟨14, 1, 1, 0⟩, .const 1 7, .leave 1, .skip, .skip, .skip, .trap, .skip, .const 1 1, .skip, .jumpIf 1 ⟨14, 1, 1, 0⟩, .skip, .copy 1 0, .leave 1] := by decide +kernel

/-- The code without the six opcodes that are marked. -/
def idleCode : List RInstr := [.skip, .copy 1 0, .jumpIf 1 ⟨14, 1, 1, 0⟩, .const 1 7, .leave 1, .trap, .trap, .trap, .trap, .skip, .trap, .skip, .trap, .skip, .copy 1 0, .leave 1]

-- with traps in their places the function does the same for every argument, on every machine and from every store
example (M : Machine) (hM : Instance idleModule M) (hn : NumOk M) (hh : HostOk idleModule M) (st : Store) (hst : StoreOk idleModule M.all.length st) (hx : M.funcs[0]? = some (.own ⟨[.i32], [.i32]⟩ idleFunc))
    (a : BitVec 32) (W n : Nat) :
    bsteps M (fun _ => idleCode) (frame idleModule inLine) W (bentered (frame idleModule inLine) W ⟨[.i32], [.i32]⟩ idleFunc [(Value.i32 a).cell] st) n =
      bsteps M (compile idleModule inLine) (frame idleModule inLine) W (bentered (frame idleModule inLine) W ⟨[.i32], [.i32]⟩ idleFunc [(Value.i32 a).cell] st) n := by
  refine C113_marked idleModule_ok idleModule_noElse (inLine_written idleModule_ok idleModule_noElse) hM hn hh hst (x := 0) rfl hx (args := [.i32 a]) rfl (fun _ _ => live_le _ _ _) ?_ W n
  intro f hf pc hp
  obtain rfl := List.mem_singleton.mp hf
  have hc : compile idleModule inLine idleFunc =
      [.skip, .copy 1 0, .jumpIf 1 ⟨14, 1, 1, 0⟩, .const 1 7, .leave 1, .skip, .skip, .skip, .trap, .skip, .const 1 1, .skip, .jumpIf 1 ⟨14, 1, 1, 0⟩, .skip, .copy 1 0, .leave 1] := by decide +kernel
  have all : ∀ k < 16, marked idleModule inLine idleFunc k = false → idleCode[k]? = (compile idleModule inLine idleFunc)[k]? := by decide +kernel
  rcases Nat.lt_or_ge pc 16 with h | h
  · exact all pc h hp
  · rw [hc]
    exact (List.getElem?_eq_none h).trans (List.getElem?_eq_none h).symm

/-- The operands that are most are where nothing is executed. -/
def vainFunc : Func := ⟨0, [], [.constI32 7, .ret, .constI32 1, .constI32 2, .constI32 3, .drop, .drop, .drop]⟩

def vainModule : Module := { types := [⟨[.i32], [.i32]⟩], funcs := [vainFunc] }

-- four registers if all is counted, but two are enough, and the first two instructions
example : validateModule vainModule = .ok ⟨[], []⟩ ∧ frame vainModule inLine vainFunc = 4 ∧ liveFrame vainModule inLine vainFunc = 2 ∧ compile vainModule inLine vainFunc =
      [.const 1 7, .leave 1, .const 1 1, .const 2 2, .const 3 3, .skip, .skip, .skip, .leave 0] ∧ ((List.range 9).filter fun pc => !marked vainModule inLine vainFunc pc) = [0, 1] ∧
    returned (bsteps (plainMachine vainModule) (fun _ => [.const 1 7, .leave 1]) (liveFrame vainModule inLine) 2 (bentered (liveFrame vainModule inLine) 2 ⟨[.i32], [.i32]⟩ vainFunc [5] ⟨[], [], [], 0⟩) 2) = some [.i32 7] ∧
    noRoom (bentered (frame vainModule inLine) 3 ⟨[.i32], [.i32]⟩ vainFunc [5] ⟨[], [], [], 0⟩) = true := by decide +kernel

-- the two instructions do for every machine, store and argument what the rules say, if there are two words
example (M : Machine) (hM : Instance vainModule M) (hn : NumOk M) (hh : HostOk vainModule M) (st : Store) (hst : StoreOk vainModule M.all.length st) (hx : M.funcs[0]? = some (.own ⟨[.i32], [.i32]⟩ vainFunc))
    (a : BitVec 32) (W : Nat) (hb : ∀ n, bsteps M (fun _ => [.const 1 7, .leave 1]) (fun _ => 2) W (bentered (fun _ => 2) W ⟨[.i32], [.i32]⟩ vainFunc [(Value.i32 a).cell] st) n ≠ .exhausted) (vs : List Value) (st' : Store) :
    (∃ n, bsteps M (fun _ => [.const 1 7, .leave 1]) (fun _ => 2) W (bentered (fun _ => 2) W ⟨[.i32], [.i32]⟩ vainFunc [(Value.i32 a).cell] st) n = .finished st' vs) ↔
      ∃ k c, Steps M k (called [.i32 a] st) [.invoke (.own ⟨[.i32], [.i32]⟩ vainFunc)] c [] ∧ c.stack.reverse = vs ∧ c.store = st' := by
  have hv : validateModule vainModule = .ok ⟨[], []⟩ := by decide +kernel
  have he : NoElse vainModule := by
    intro f hf
    refine (plain_iff.mp ?_).2
    simp only [vainModule, List.mem_singleton] at hf
    subst hf
    simp [vainFunc, plainL, plainI]
  refine (C113_results hv he (inLine_written hv he) hM hn hh hst (x := 0) rfl hx (args := [.i32 a]) rfl (N := fun _ => 2) ?_ (R := fun _ => [.const 1 7, .leave 1]) ?_ hb).1 vs st'
  · intro f hf
    obtain rfl := List.mem_singleton.mp hf
    decide +kernel
  · intro f hf pc hp
    obtain rfl := List.mem_singleton.mp hf
    have all : ∀ k < 9, marked vainModule inLine vainFunc k = false → ([.const 1 7, .leave 1] : List RInstr)[k]? = (compile vainModule inLine vainFunc)[k]? := by decide +kernel
    rcases Nat.lt_or_ge pc 9 with h | h
    · exact all pc h hp
    · have hl : (compile vainModule inLine vainFunc).length = 9 := by decide +kernel
      rw [List.getElem?_eq_none (by show 2 ≤ pc; omega), List.getElem?_eq_none (by omega)]

-- an `else` and the `end` of a function that are marked: the first branch returns, and so does the function before it ends
example : (List.range 10).map (marked { types := [⟨[.i32], [.i32]⟩] } (fun _ => [.instr (.localGet 0), .ifOp [.i32], .instr (.constI32 1), .instr .ret, .elseOp, .instr (.constI32 2), .endOp, .instr .ret, .endOp]) ⟨0, [], []⟩) =
    [false, false, false, false, true, false, false, false, true, false] := by decide +kernel

/-- An `if` without `else` whose branch ends in a trap. -/
def restFunc : Func := ⟨0, [], [.localGet 0, .ifElse [] [.unreachable] [], .localGet 0]⟩

def restModule : Module := { types := [⟨[.i32], [.i32]⟩], funcs := [restFunc] }

def restCodes : Codes := fun _ => [.instr (.localGet 0), .ifOp [], .instr .unreachable, .endOp, .instr (.localGet 0), .endOp]

-- the mark says nothing of the `end` of a block: this one comes after `unreachable`, and is executed if the argument is zero; without it the function does not return
example : validateModule restModule = .ok ⟨[], []⟩ ∧
    ((Pass.run (bodyEnv .code restModule ⟨[.i32], [.i32]⟩ []) (Pass.start [.i32]) ((restCodes restFunc).take 3)).map fun s => s.ctrls.any (·.unreachable)) = some true ∧
    compile restModule restCodes restFunc = [.copy 1 0, .goUnless 1 3, .trap, .skip, .copy 1 0, .leave 1] ∧
    returned (bsteps (plainMachine restModule) (compile restModule restCodes) (fun _ => 2) 2 (bentered (fun _ => 2) 2 ⟨[.i32], [.i32]⟩ restFunc [0] ⟨[], [], [], 0⟩) 5) = some [.i32 0] ∧
    returned (bsteps (plainMachine restModule) (fun _ => [.copy 1 0, .goUnless 1 3, .trap, .trap, .copy 1 0, .leave 1]) (fun _ => 2) 2 (bentered (fun _ => 2) 2 ⟨[.i32], [.i32]⟩ restFunc [0] ⟨[], [], [], 0⟩) 5) = none := by
  decide +kernel

-- nor may what is not marked be left out: without the first instruction the function returns 5 for 5 instead of a trap
example : returned (bsteps (plainMachine restModule) (compile restModule restCodes) (fun _ => 2) 2 (bentered (fun _ => 2) 2 ⟨[.i32], [.i32]⟩ restFunc [5] ⟨[], [], [], 0⟩) 5) = none ∧
    returned (bsteps (plainMachine restModule) (fun _ => [.skip, .goUnless 1 3, .trap, .skip, .copy 1 0, .leave 1]) (fun _ => 2) 2 (bentered (fun _ => 2) 2 ⟨[.i32], [.i32]⟩ restFunc [5] ⟨[], [], [], 0⟩) 5) = some [.i32 5] := by
  decide +kernel

end Whasm
