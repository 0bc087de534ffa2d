import Verif.Lemmas.Frames
import Verif.Props.Registers

/-!
# C109: the registers of all calls fit in one row of words, and how many are needed is known before

`Spec/Frames.lean` has one row of words for all calls. The registers of a call begin where its caller has put the arguments, so that nothing is copied when a call begins, and each function has as many of them as one pass
over its opcodes finds (`frame`). Whatever is in the words beyond, before any step, every call has the results of the rules; and all calls together need no more words than their functions say.
-/

namespace Whasm
open Spec Run

theorem foldl_max_le : ∀ {l : List Nat} {n x : Nat}, x ≤ n ∨ x ∈ l → x ≤ l.foldl max n
  | [], _, _, h => h.resolve_right (by simp)
  | y :: l, n, x, h => by
    rw [List.foldl_cons]
    refine foldl_max_le ?_
    rcases h with h | h
    · exact .inl (by omega)
    · rcases List.mem_cons.mp h with rfl | h
      · exact .inl (by omega)
      · exact .inr h

theorem call_stack {M : Machine} {st st' : Store} {ls ls' S S' : List Value} {i : Instr} {fi : FuncInst} (h : Step M ⟨st, ls, S⟩ [.plain i] ⟨st', ls', S'⟩ [.invoke fi]) : S'.length ≤ S.length := by
  cases h with
  | call => exact Nat.le_refl _
  | callIndirect => exact Nat.le_succ _

/-- A call that begins: it has its parameters and local variables, and the caller keeps the operands that are not arguments. -/
theorem step_begins {M : Machine} {T : Landings} {st st' : Store} {a a' b : Act} {as as' : List Act} (h : FStep M T (.running st a as) (.running st' a' (b :: as'))) (hl : as'.length = as.length) :
    a'.locals.length + a'.stack.length = a'.type.params.length + a'.func.locals.length ∧ b.func = a.func ∧ b.locals.length + b.stack.length ≤ a.locals.length + a.stack.length := by
  cases h with
  | @call _ _ _ i ls' S t f args rest hi h hp =>
    have h1 := popArgs_len hp
    refine ⟨?_, rfl, ?_⟩
    · show (args ++ f.locals.map zero).length + 0 = _
      rw [List.length_append, List.length_map, h1.1]
      rfl
    · have h2 : S.length ≤ a.stack.length := call_stack h
      have h3 : rest.length ≤ S.length := by omega
      show a.locals.length + rest.length ≤ _
      omega
  | _ => exact absurd hl (by simp only [List.length_cons]; omega)

theorem depth_next : ∀ (p : Place), p.next.depth = p.depth
  | .here _ => rfl
  | .inside _ p => congrArg (· + 1) (depth_next p)
  | .inElse _ p => congrArg (· + 1) (depth_next p)

theorem depth_outer : ∀ {p q : Place}, p.outer = some q → q.depth < p.depth
  | .inside n p, q, h => by
    unfold Place.outer at h
    split at h <;> cases h
    · exact Nat.succ_pos _
    · exact Nat.succ_lt_succ (depth_outer (by assumption))
  | .inElse n p, q, h => by
    unfold Place.outer at h
    split at h <;> cases h
    · exact Nat.succ_pos _
    · exact Nat.succ_lt_succ (depth_outer (by assumption))

theorem frames_le {N : Func → Nat} {F : Nat} : ∀ {as : List QAct}, (∀ a ∈ as, N a.func ≤ F) → frames N as ≤ as.length * F
  | [], _ => Nat.zero_le _
  | a :: as, h => by
    have h1 := frames_le fun b hb => h b (List.mem_cons_of_mem _ hb)
    have h2 := h a List.mem_cons_self
    show N a.func + frames N as ≤ (as.length + 1) * F
    rw [Nat.succ_mul]
    omega

theorem callers_funcs {m : Module} {M : Machine} {st : Store} {as : List Act} {X es : List Admin} (h : Callers m M st as X es) : ∀ b ∈ as, b.func ∈ m.funcs := by
  induction h with
  | none => exact fun _ h => nomatch h
  | more g _ _ _ _ _ ih =>
    intro b hb
    rcases List.mem_cons.mp hb with rfl | hb
    · exact g.func
    · exact ih b hb

theorem parked_funcs {m : Module} {K : Codes} {mem : Nat → Cell} : ∀ {top : Nat} {qs : List QAct} {as : List Act}, (∀ b ∈ as, b.func ∈ m.funcs) → Related (Parked K) as (apart mem top qs) → ∀ q ∈ qs, q.func ∈ m.funcs
  | _, [], _, _, _, _, hq => nomatch hq
  | _, q :: qs, a :: as, h, .cons hp hs, q', hq => by
    rcases List.mem_cons.mp hq with rfl | hq
    · rw [show q'.func = _ from kept_func hp.1]
      exact h _ List.mem_cons_self
    · exact parked_funcs (fun b hb => h b (List.mem_cons_of_mem _ hb)) hs q' hq

/-- At every place that a call gets to, its local variables and operands are no more than the registers of its function. -/
def RoomFor (m : Module) (K : Codes) (M : Machine) (t : FuncTy) (f : Func) (args : List Value) (st : Store) (N : Func → Nat) : Prop :=
  ∀ (n : Nat) (st' : Store) (a : Act) (as : List Act) (u v : List Pass.Op), FSteps M (sideTable m) n (entered t f args st) (.running st' a as) → Splits a.place a.func.body u v →
    K a.func = u ++ v ++ [.endOp] → a.locals.length + a.stack.length ≤ N a.func

section
variable {m : Module} {r : ModuleResult} (h : validateModule m = .ok r) (he : NoElse m) {K : Codes} (hK : WrittenAs m K) {M : Machine} (hM : Instance m M) (hn : NumOk M) (hh : HostOk m M)
  {st : Store} (hst : StoreOk m M.all.length st) {x : Nat} {t : FuncTy} (ht : (funcSpace m)[x]? = some t) {f : Func} (hx : M.funcs[x]? = some (.own t f)) {args : List Value}
  (hargs : args.map Value.type = t.params)

include h he hM hn hh hst ht hx hargs hK

omit hK in
/-- The number of registers of a function is enough at each of its places. -/
theorem frame_enough : ∀ (k : Nat) {n : Nat} {st' : Store} {a : Act} {as : List Act} {u v : List Pass.Op}, a.place.depth < k → FSteps M (sideTable m) n (entered t f args st) (.running st' a as) →
    Splits a.place a.func.body u v → K a.func = u ++ v ++ [.endOp] → a.locals.length + a.stack.length ≤ frame m K a.func
  | 0, _, _, _, _, _, _, hd, _, _, _ => absurd hd (Nat.not_lt_zero _)
  | k + 1, n, st', a, as, u, v, hd, hs, hu, hk => by
    have kn := known_at (K := K) h he hM hn hh hst ht hx hargs hs
    by_cases hi : a.place.instr a.func.body ≠ none ∨ a.place.outer = none
    · have h1 := kn.height hu hk hi
      have h2 : a.stack.length ≤ ((List.range (K a.func).length).map (heightAt m K a.func)).foldl max 0 := by
        refine foldl_max_le (.inr (List.mem_map.mpr ⟨u.length, List.mem_range.mpr ?_, h1⟩))
        rw [hk]
        simp only [List.length_append, List.length_cons, List.length_nil]
        omega
      rw [frame, kn.type, kn.locals]
      show _ ≤ a.type.params.length + _ + _
      omega
    · have hi1 : a.place.instr a.func.body = none := Classical.byContradiction fun e => hi (.inl e)
      cases hq : a.place.outer with
      | none => exact absurd (.inr hq) hi
      | some q =>
        have h1 := fsteps_snoc hs (.fall hi1 hq)
        have hd' : q.next.depth < k := by
          have := depth_outer hq
          rw [depth_next]
          omega
        rcases splits_fall hu hi1 hq with ⟨w, rfl, hs'⟩ | ⟨b, z, w, hz, rfl, hs'⟩
        · exact frame_enough k (a := { a with place := q.next }) hd' h1 hs' (by rw [hk]; simp only [List.append_assoc, List.cons_append, List.nil_append])
        · exact frame_enough k (a := { a with place := q.next }) hd' h1 hs' (by rw [hk]; simp only [List.append_assoc, List.cons_append, List.nil_append])

/-- With any number of registers that is enough: step by step. -/
theorem rows_steps {N : Func → Nat} (hN : RoomFor m K M t f args st N) (js : Nat → Nat → Cell) (n : Nat) : ∃ j s, j ≤ n ∧ FSteps M (sideTable m) j (entered t f args st) s ∧ wsteps M (sideTable m) n (wentered t f (args.map Value.cell) st) = s.words ∧
    RRel K s (qsteps M (compile m K) (N) js (qentered t f (args.map Value.cell) st) n).apart ∧
    (qsteps M (compile m K) (N) js (qentered t f (args.map Value.cell) st) n).Laid (N) ∧ (j = n ∨ (∃ st' vs, s = .finished st' vs) ∨ ∃ st', s = .trapped st') := by
  have written : ∀ {j s}, FSteps M (sideTable m) j (entered t f args st) s → ∀ {st' a as}, s = .running st' a as → a.func ∈ m.funcs := by
    rintro j s hs st' a as rfl
    obtain ⟨_, _, _, _, _, hr⟩ := flat_run h he hM hn hh hst ht hx hargs hs
    cases hr with
    | running g => exact g.func
  have enough : ∀ {j s}, FSteps M (sideTable m) j (entered t f args st) s → ∀ {q : QState}, RRel K s q.apart → ∀ {st' a as}, s = .running st' a as → a.locals.length + a.stack.length ≤ N a.func := by
    rintro j s hs q hr st' a as rfl
    cases q with
    | running =>
      cases hr with
      | running hk _ =>
        obtain ⟨u, v, _, _, h1, h2, _⟩ := hk
        exact hN _ _ _ _ _ _ hs h1 h2
    | finished => cases hr
    | trapped => cases hr
  induction n with
  | zero =>
    obtain ⟨ops, hk, hf⟩ := hK f (written .zero rfl)
    have h0 : RRel K (entered t f args st) (qentered t f (args.map Value.cell) st).apart := by
      refine .running (kept_at (splits_start hf) hk rfl ?_) .nil
      rw [file_nil, List.map_append, cells_zero]
      have e : view (fresh (args.map Value.cell)) 0 = fresh (args.map Value.cell) := by
        funext i
        rw [view, Nat.zero_add]
      rw [e]
      exact agree_fresh _ _
    obtain ⟨h1, h2⟩ := rel_spoil (N := N) h0 rfl (enough .zero h0) (js 0)
    refine ⟨0, _, Nat.le_refl _, .zero, ?_, h1, h2, .inl rfl⟩
    rw [wsteps, wentered, entered, FState.words, Act.words, List.map_append, cells_zero]
    rfl
  | succ n ih =>
    obtain ⟨j, s, h1, h2, h3, h3', hl, h4⟩ := ih
    rw [wsteps_snoc, h3, qsteps]
    generalize qsteps M (compile m K) (N) js (qentered t f (args.map Value.cell) st) n = q at h3' hl ⊢
    rcases C105_progress h he hM hn hh hst ht hx hargs h2 with ⟨st', vs, rfl⟩ | ⟨st', rfl⟩ | ⟨s', h5, _⟩
    · refine ⟨j, _, by omega, h2, rfl, ?_, ?_, .inr (.inl ⟨_, _, rfl⟩)⟩ <;> cases q with
      | running => cases h3'
      | _ => first | exact h3' | trivial
    · refine ⟨j, _, by omega, h2, rfl, ?_, ?_, .inr (.inr ⟨_, rfl⟩)⟩ <;> cases q with
      | running => cases h3'
      | _ => first | exact h3' | trivial
    · have h6 := fsteps_snoc h2 h5
      rcases h4 with rfl | h4
      · have hg : s'.store.globals.map Value.type = s.store.globals.map Value.type := by
          rw [flat_globals h he hM hn hh hst ht hx hargs h2, flat_globals h he hM hn hh hst ht hx hargs h6]
        have h7 : RRel K s' (rstep M (compile m K) q.apart) := by
          refine rstep_low h5 hg h3' ?_ ?_ ?_ hM.types
          · rintro st' a as rfl
            exact known_at h he hM hn hh hst ht hx hargs h2
          · exact fun e => hK _ (written h6 e)
          · intro y fi hy
            obtain ⟨_, imp, hfs, hi, _⟩ := hM
            have e : M.funcs.map FuncInst.type = funcSpace m := by rw [hfs, List.map_append, hi, ownFuncs_types]; rfl
            rw [← e, List.getElem?_map, hy]
            rfl
        cases q with
        | running st0 mem q qs =>
          obtain ⟨h8, h9⟩ : RRel K s' (qstep M (compile m K) (.running st0 mem q qs)).apart ∧ (qstep M (compile m K) (.running st0 mem q qs)).Laid (N) := by
            refine rel_qstep hl ?_ h7
            rintro st' a' b as' rfl e
            generalize hq : (QState.running st0 mem q qs).apart = qa at h3'
            cases h3' with
            | @running _ a as _ _ hk hs =>
              cases hq
              obtain ⟨g1, g2, g3⟩ := step_begins h5 (by rw [e, related_len hs, apart_length])
              refine ⟨g1, Nat.le_trans g3 ?_⟩
              rw [g2]
              obtain ⟨u, v, _, _, g4, g5, _⟩ := hk
              exact hN _ _ _ _ _ _ h2 g4 g5
            | finished => cases hq
            | trapped => cases hq
          obtain ⟨g1, g2⟩ := rel_spoil h8 h9 (enough h6 h8) (js (j + 1))
          exact ⟨j + 1, s', Nat.le_refl _, h6, wstep_words h5 hg, g1, g2, .inl rfl⟩
        | finished => cases h3'; cases h5
        | trapped => cases h3'; cases h5
      · rcases h4 with ⟨_, _, rfl⟩ | ⟨_, rfl⟩ <;> cases h5

/-- With any number of registers that is enough: the results. -/
theorem rows_results {N : Func → Nat} (hN : RoomFor m K M t f args st N) (js : Nat → Nat → Cell) :
    (∀ vs st', (∃ n, qsteps M (compile m K) (N) js (qentered t f (args.map Value.cell) st) n = .finished st' vs) ↔
      ∃ k c, Steps M k (called args st) [.invoke (.own t f)] c [] ∧ c.stack.reverse = vs ∧ c.store = st') ∧
    (∀ st', (∃ n, qsteps M (compile m K) (N) js (qentered t f (args.map Value.cell) st) n = .trapped st') ↔
      ∃ k c es, Steps M k (called args st) [.invoke (.own t f)] c (.trap :: es) ∧ c.store = st') ∧
    ((∀ n, ∃ st' mem a as, qsteps M (compile m K) (N) js (qentered t f (args.map Value.cell) st) n = .running st' mem a as) ↔
      ∀ k, ∃ c es, Steps M k (called args st) [.invoke (.own t f)] c es) := by
  obtain ⟨f1, f2, f3⟩ := C106_words h he hM hn hh hst ht hx hargs
  have key := rows_steps h he hK hM hn hh hst ht hx hargs hN js
  have kk : ∀ n, (∀ vs st', qsteps M (compile m K) (N) js (qentered t f (args.map Value.cell) st) n = .finished st' vs ↔
        wsteps M (sideTable m) n (wentered t f (args.map Value.cell) st) = .finished st' vs) ∧
      (∀ st', qsteps M (compile m K) (N) js (qentered t f (args.map Value.cell) st) n = .trapped st' ↔
        wsteps M (sideTable m) n (wentered t f (args.map Value.cell) st) = .trapped st') ∧
      ((∃ st' mem a as, qsteps M (compile m K) (N) js (qentered t f (args.map Value.cell) st) n = .running st' mem a as) ↔
        ∃ st' a as, wsteps M (sideTable m) n (wentered t f (args.map Value.cell) st) = .running st' a as) := by
    intro n
    obtain ⟨j, s, _, _, h1, h2, _, _⟩ := key n
    rw [h1]
    generalize qsteps M (compile m K) (N) js (qentered t f (args.map Value.cell) st) n = q at h2 ⊢
    cases q with
    | running =>
      cases h2 with
      | running => exact ⟨fun _ _ => ⟨fun e => (by cases e), fun e => (by cases e)⟩, fun _ => ⟨fun e => (by cases e), fun e => (by cases e)⟩, fun _ => ⟨_, _, _, rfl⟩, fun _ => ⟨_, _, _, _, rfl⟩⟩
    | finished =>
      cases h2
      exact ⟨fun _ _ => ⟨fun e => (by cases e; rfl), fun e => (by cases e; rfl)⟩, fun _ => ⟨fun e => (by cases e), fun e => (by cases e)⟩, fun ⟨_, _, _, _, e⟩ => (by cases e),
        fun ⟨_, _, _, e⟩ => (by cases e)⟩
    | trapped =>
      cases h2
      exact ⟨fun _ _ => ⟨fun e => (by cases e), fun e => (by cases e)⟩, fun _ => ⟨fun e => (by cases e; rfl), fun e => (by cases e; rfl)⟩, fun ⟨_, _, _, _, e⟩ => (by cases e),
        fun ⟨_, _, _, e⟩ => (by cases e)⟩
  refine ⟨fun vs st' => ?_, fun st' => ?_, ?_⟩
  · rw [← f1]
    exact exists_congr fun n => (kk n).1 vs st'
  · rw [← f2]
    exact exists_congr fun n => (kk n).2.1 st'
  · rw [← f3]
    exact forall_congr' fun n => (kk n).2.2

/-- With any number of registers that is enough: the words that are needed. -/
theorem rows_space {N : Func → Nat} (hN : RoomFor m K M t f args st N) (js : Nat → Nat → Cell) {n : Nat} {st' : Store} {mem : Nat → Cell} {a : QAct} {as : List QAct}
    (hq : qsteps M (compile m K) (N) js (qentered t f (args.map Value.cell) st) n = .running st' mem a as) :
    a.base + N a.func ≤ frames (N) (a :: as) ∧ ∀ F, (∀ f ∈ m.funcs, N f ≤ F) → a.base + N a.func ≤ (a :: as).length * F := by
  obtain ⟨j, s, _, h1, _, h2, h3, _⟩ := rows_steps h he hK hM hn hh hst ht hx hargs hN js n
  rw [hq] at h2 h3
  have h4 : a.base + N a.func ≤ frames (N) (a :: as) := by
    have := layout_frames (show Layout _ _ _ from h3)
    show _ ≤ N a.func + frames (N) as
    omega
  refine ⟨h4, fun F hF => Nat.le_trans h4 ?_⟩
  obtain ⟨_, _, _, _, _, hr⟩ := flat_run h he hM hn hh hst ht hx hargs h1
  refine frames_le fun b hb => hF _ ?_
  cases h2 with
  | running hk hs =>
    cases hr with
    | running g _ _ hc =>
      rcases List.mem_cons.mp hb with rfl | hb
      · rw [show b.func = _ from kept_func hk]
        exact g.func
      · exact parked_funcs (callers_funcs hc) hs b hb

omit hK in
theorem frame_enough' : RoomFor m K M t f args st (frame m K) := fun _ _ _ _ _ _ hs hu hk => frame_enough h he hM hn hh hst ht hx hargs _ (Nat.lt_succ_self _) hs hu hk

/-- **C109, step by step.** After every number of steps the machine is where the machine is that gets stuck if something is not as it should be, whatever was beyond the registers; the registers of each call begin within those
of its caller. -/
theorem C109_steps (js : Nat → Nat → Cell) (n : Nat) : ∃ j s, j ≤ n ∧ FSteps M (sideTable m) j (entered t f args st) s ∧ wsteps M (sideTable m) n (wentered t f (args.map Value.cell) st) = s.words ∧
    RRel K s (qsteps M (compile m K) (frame m K) js (qentered t f (args.map Value.cell) st) n).apart ∧
    (qsteps M (compile m K) (frame m K) js (qentered t f (args.map Value.cell) st) n).Laid (frame m K) ∧ (j = n ∨ (∃ st' vs, s = .finished st' vs) ∨ ∃ st', s = .trapped st') :=
  rows_steps h he hK hM hn hh hst ht hx hargs (frame_enough' h he hM hn hh hst ht hx hargs) js n

/-- **C109.** With one row of words for the registers of all calls, and `frame` of them for each, a call of a function of an accepted module has the results that the rules of the document give it, whatever is found in the
words beyond before any step: it returns the same values with the same store, or traps with the same store, or goes on forever. -/
theorem C109_frames (js : Nat → Nat → Cell) :
    (∀ vs st', (∃ n, qsteps M (compile m K) (frame m K) js (qentered t f (args.map Value.cell) st) n = .finished st' vs) ↔
      ∃ k c, Steps M k (called args st) [.invoke (.own t f)] c [] ∧ c.stack.reverse = vs ∧ c.store = st') ∧
    (∀ st', (∃ n, qsteps M (compile m K) (frame m K) js (qentered t f (args.map Value.cell) st) n = .trapped st') ↔
      ∃ k c es, Steps M k (called args st) [.invoke (.own t f)] c (.trap :: es) ∧ c.store = st') ∧
    ((∀ n, ∃ st' mem a as, qsteps M (compile m K) (frame m K) js (qentered t f (args.map Value.cell) st) n = .running st' mem a as) ↔
      ∀ k, ∃ c es, Steps M k (called args st) [.invoke (.own t f)] c es) :=
  rows_results h he hK hM hn hh hst ht hx hargs (frame_enough' h he hM hn hh hst ht hx hargs) js

/-- **C109, space.** The registers of the call that is being executed end within as many words as the functions of all calls have registers: with `d` calls of functions of at most `F` registers, `d * F` words are enough. -/
theorem C109_space (js : Nat → Nat → Cell) {n : Nat} {st' : Store} {mem : Nat → Cell} {a : QAct} {as : List QAct}
    (hq : qsteps M (compile m K) (frame m K) js (qentered t f (args.map Value.cell) st) n = .running st' mem a as) :
    a.base + frame m K a.func ≤ frames (frame m K) (a :: as) ∧ ∀ F, (∀ f ∈ m.funcs, frame m K f ≤ F) → a.base + frame m K a.func ≤ (a :: as).length * F :=
  rows_space h he hK hM hn hh hst ht hx hargs (frame_enough' h he hM hn hh hst ht hx hargs) js hq

end

/-! ## Files -/

theorem frame_bare (m : Module) (K : Codes) : frame (bare m) K = frame m K := by
  have e : heightAt (bare m) K = heightAt m K := by
    funext f n
    unfold heightAt
    simp only [bare_bodyEnv]
    rfl
  funext f
  unfold frame
  rw [e]
  rfl

/-- **C109, files.** A file that passes in one pass is read and accepted by the crate. Translate the opcodes that the pass has seen and count the registers, by what is on its stacks: with one row of words, whatever is found in
it beyond the registers, every call has the results that the rules of the document give it, and the registers of `d` calls end within `d * F` words if no function has more than `F`. -/
theorem C109_file {s : List Byte} {m0 : Module} {codes : List (List Pass.Op)} (hs : Pass.GFile .code s m0 codes) (hv : Pass.Verdict .code m0 codes) :
    ∃ m, parseModule s = (.ok m, []) ∧ validateModule m = .ok (externals m) ∧ m0 = bare m ∧ m.funcs.length = codes.length ∧
      ∀ {K : Codes}, (∀ f ∈ m.funcs, (f, K f) ∈ m.funcs.zip codes) → ∀ {M : Machine}, Instance m M → NumOk M → HostOk m M → ∀ {st : Store}, StoreOk m M.all.length st →
      ∀ {x : Nat} {t : FuncTy}, (funcSpace m)[x]? = some t → ∀ {f : Func}, M.funcs[x]? = some (.own t f) → ∀ {args : List Value}, args.map Value.type = t.params → ∀ (js : Nat → Nat → Cell),
      (∀ vs st', (∃ n, qsteps M (compile m0 K) (frame m0 K) js (qentered t f (args.map Value.cell) st) n = .finished st' vs) ↔
        ∃ k c, Steps M k (called args st) [.invoke (.own t f)] c [] ∧ c.stack.reverse = vs ∧ c.store = st') ∧
      (∀ st', (∃ n, qsteps M (compile m0 K) (frame m0 K) js (qentered t f (args.map Value.cell) st) n = .trapped st') ↔
        ∃ k c es, Steps M k (called args st) [.invoke (.own t f)] c (.trap :: es) ∧ c.store = st') ∧
      ((∀ n, ∃ st' mem a as, qsteps M (compile m0 K) (frame m0 K) js (qentered t f (args.map Value.cell) st) n = .running st' mem a as) ↔
        ∀ k, ∃ c es, Steps M k (called args st) [.invoke (.own t f)] c es) ∧
      ∀ n st' mem a as, qsteps M (compile m0 K) (frame m0 K) js (qentered t f (args.map Value.cell) st) n = .running st' mem a as →
        ∀ F, (∀ f ∈ m.funcs, frame m0 K f ≤ F) → a.base + frame m0 K a.func ≤ (a :: as).length * F := by
  obtain ⟨m, h1, h2, rfl, h3⟩ := file_module (.inr rfl) hs hv
  have hp : parseModule s = (.ok m, []) := (C23_module _ _ _).mpr ⟨rfl, h1⟩
  refine ⟨m, hp, ok_of_valid h2, rfl, h3.length.symm, fun {K} hK _ hM hn hh _ hst _ _ ht _ hx _ hargs js => ?_⟩
  rw [compile_bare, frame_bare]
  have hw : WrittenAs m K := fun f hf => related_zip h3 (hK f hf)
  obtain ⟨g1, g2, g3⟩ := C109_frames (ok_of_valid h2) (parsed_noElse hp) hw hM hn hh hst ht hx hargs js
  exact ⟨g1, g2, g3, fun n st' mem a as hq => (C109_space (ok_of_valid h2) (parsed_noElse hp) hw hM hn hh hst ht hx hargs js hq).2⟩

/-- The values that the machine has returned after so many steps, with `j` beyond the registers. -/
def rowOf (M : Machine) (R : RCodes) (N : Func → Nat) (j : Cell) (s : QState) (n : Nat) : Option (List Value) :=
  match qsteps M R N (fun _ _ => j) s n with
  | .finished _ vs => some vs
  | _ => none

/-- Where the registers of the call begin after so many steps, and how many calls there are. -/
def rowAt (M : Machine) (R : RCodes) (N : Func → Nat) (j : Cell) (s : QState) (n : Nat) : Option (Nat × Nat) :=
  match qsteps M R N (fun _ _ => j) s n with
  | .running _ _ a as => some (a.base, as.length + 1)
  | _ => none

/-- The factorial of a number, by calls of itself. -/
def selfModule : Module :=
  { types := [⟨[.i32], [.i32]⟩],
    funcs := [⟨0, [], [.localGet 0, .ifElse [.i32] [.localGet 0, .localGet 0, .constI32 1, .num .i32Sub, .call 0, .num .i32Mul] [.constI32 1]]⟩] }

def selfMachine : Machine := { factMachine with types := selfModule.types, funcs := ownFuncs selfModule }

-- four registers: the parameter and three operands; in the call the argument is in the third register, where those of the next call begin
example : validateModule selfModule = .ok (externals selfModule) ∧ frame selfModule inLine selfModule.funcs[0] = 4 ∧
    compile selfModule inLine selfModule.funcs[0] =
      [.copy 1 0, .goUnless 1 9, .copy 1 0, .copy 2 0, .const 3 1, .num .i32Sub 2, .call 0 2, .num .i32Mul 1, .go 11, .const 1 1, .skip, .leave 1] := by decide +kernel

-- 4! with five calls, whose registers begin two words apart; before each step all words beyond them become 77
example : rowOf selfMachine (compile selfModule inLine) (frame selfModule inLine) 77 (qentered ⟨[.i32], [.i32]⟩ selfModule.funcs[0] [4] ⟨[], [], [], 0⟩) 49 = some [.i32 24] ∧
    rowAt selfMachine (compile selfModule inLine) (frame selfModule inLine) 77 (qentered ⟨[.i32], [.i32]⟩ selfModule.funcs[0] [4] ⟨[], [], [], 0⟩) 30 = some (8, 5) := by decide +kernel

-- one register less is not enough: with 2 beyond, 4! would be 8
example : rowOf selfMachine (compile selfModule inLine) (fun _ => 3) 2 (qentered ⟨[.i32], [.i32]⟩ selfModule.funcs[0] [4] ⟨[], [], [], 0⟩) 25 = some [.i32 8] := by decide +kernel

-- 5! through the table: the argument of the inner call is put after the parameter of the outer one
example : rowOf factMachine (compile factModule inLine) (frame factModule inLine) 77 (qentered ⟨[.i32], [.i32]⟩ factModule.funcs[1] [0] factStore) 79 = some [.i32 120] ∧
    frame factModule inLine factModule.funcs[0] = 4 ∧ frame factModule inLine factModule.funcs[1] = 3 ∧
    rowAt factMachine (compile factModule inLine) (frame factModule inLine) 77 (qentered ⟨[.i32], [.i32]⟩ factModule.funcs[1] [0] factStore) 4 = some (1, 2) := by decide +kernel

-- for the factorial of every number, from every store, whatever is beyond
example (st : Store) (hst : StoreOk factModule factMachine.all.length st) (a : BitVec 32) (js : Nat → Nat → Cell) (vs : List Value) (st' : Store) :
    (∃ n, qsteps factMachine (compile factModule inLine) (frame factModule inLine) js (qentered ⟨[.i32], [.i32]⟩ factModule.funcs[0] [(Value.i32 a).cell] st) n = .finished st' vs) ↔
      ∃ k c, Steps factMachine k (called [.i32 a] st) [.invoke (.own ⟨[.i32], [.i32]⟩ factModule.funcs[0])] c [] ∧ c.stack.reverse = vs ∧ c.store = st' :=
  (C109_frames factModule_ok factModule_noElse (inLine_written factModule_ok factModule_noElse) factMachine_instance factMachine_num factMachine_host hst (x := 1) (args := [.i32 a]) rfl rfl rfl js).1 vs st'

-- and in how many words
example (st : Store) (hst : StoreOk factModule factMachine.all.length st) (a : BitVec 32) (js : Nat → Nat → Cell) (n : Nat) (st' : Store) (mem : Nat → Cell) (b : QAct) (bs : List QAct)
    (h : qsteps factMachine (compile factModule inLine) (frame factModule inLine) js (qentered ⟨[.i32], [.i32]⟩ factModule.funcs[1] [(Value.i32 a).cell] st) n = .running st' mem b bs) :
    b.base + frame factModule inLine b.func ≤ (bs.length + 1) * 4 :=
  (C109_space factModule_ok factModule_noElse (inLine_written factModule_ok factModule_noElse) factMachine_instance factMachine_num factMachine_host hst (x := 2) (args := [.i32 a]) rfl rfl rfl js h).2 4
    (by decide +kernel)

-- the file of C100, as it was read: two registers, of which the second is the operand; and one for the local variable that is not used
example : ∃ m, parseModule passFile = (.ok m, []) ∧ ∀ (K : Codes), (∀ f ∈ m.funcs, (f, K f) ∈ m.funcs.zip [passOps]) → ∀ (M : Machine), Instance m M → NumOk M → HostOk m M →
    ∀ (st : Store), StoreOk m M.all.length st → ∀ (f : Func), M.funcs[0]? = some (.own ⟨[.i32], [.i32]⟩ f) → ∀ (a : BitVec 32) (js : Nat → Nat → Cell) (vs : List Value) (st' : Store),
    (∃ n, qsteps M (compile { types := [⟨[.i32], [.i32]⟩], funcs := [⟨0, [.i64], []⟩] } K) (frame { types := [⟨[.i32], [.i32]⟩], funcs := [⟨0, [.i64], []⟩] } K) js
        (qentered ⟨[.i32], [.i32]⟩ f [(Value.i32 a).cell] st) n = .finished st' vs) ↔
      ∃ k c, Steps M k (called [.i32 a] st) [.invoke (.own ⟨[.i32], [.i32]⟩ f)] c [] ∧ c.stack.reverse = vs ∧ c.store = st' := by
  obtain ⟨m, h1, _, h2, _, h3⟩ := C109_file (m0 := { types := [⟨[.i32], [.i32]⟩], funcs := [⟨0, [.i64], []⟩] }) (codes := [passOps]) (gfile_mono w3c_le_code passFile_read)
    ⟨⟨by simp, by simp, by simp, by simp, by simp, by simp, by simp, by simp, by simp [importedTables], by simp [importedMems], by simp, by decide +kernel, by decide +kernel, by simp⟩, by
      simp only [List.zip_cons_cons, List.zip_nil_right, List.mem_singleton]
      rintro p rfl
      exact ⟨⟨[.i32], [.i32]⟩, rfl, _, rfl, rfl⟩⟩
  have ht : (funcSpace m)[0]? = some ⟨[.i32], [.i32]⟩ := by
    rw [← bare_funcSpace, ← h2]
    rfl
  exact ⟨m, h1, fun K hK M hM hn hh st hst f hx a js vs st' => (h3 hK hM hn hh hst ht hx (args := [.i32 a]) rfl js).1 vs st'⟩

example : frame { types := [⟨[.i32], [.i32]⟩], funcs := [⟨0, [.i64], []⟩] } (fun _ => passOps) ⟨0, [.i64], []⟩ = 3 := by decide +kernel

end Whasm
