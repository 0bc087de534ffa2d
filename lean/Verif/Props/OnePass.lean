import Verif.Lemmas.OnePass
import Verif.Props.Bounded

/-!
# C111: validation, translation and the count of registers are one pass

`Spec/OnePass.lean` validates each opcode, makes its instruction, and counts the operands, before it looks at the next opcode. Here: it finds an error exactly where the crate does, and what it makes is what `compile` and `frame`
say, so that C108, C109 and C110 are about its code.
-/

namespace Whasm
open Spec Run

/-- **C111, code.** Whatever is translated, valid or not the rest of the module, is the code and the number of registers of C108 and C109. -/
theorem C111_code {m : Module} {K : Codes} {f : Func} {p : List RInstr × Nat} (h : translate m f (K f) = some p) : p = (compile m K f, frame m K f) := by
  obtain ⟨t, ht, h⟩ := Option.bind_eq_some_iff.mp h
  obtain ⟨g, hg, h⟩ := Option.bind_eq_some_iff.mp h
  split at h
  · rename_i hc
    cases h
    have h0 : g.blocks = [] := by
      rcases framed_end (v := K f) (.inr rfl) hg with e | e
      · exact e.2
      · rw [hc] at e
        simp at e
    obtain ⟨h1, h2⟩ := code_here (u := []) ht rfl rfl inv_start hg h0 hc
    rw [Prod.mk.injEq]
    constructor
    · rw [h1, compile, ht, List.range_eq_range']
      rfl
    · rw [frame, ht, h2.high]
      rfl
  · cases h

/-- **C111, verdict.** A body is translated exactly if the algorithm of the appendix accepts it by the rules of the crate. -/
theorem C111_verdict (m : Module) (f : Func) (ops : List Pass.Op) :
    (∃ p, translate m f ops = some p) ↔ ∃ t, m.types[f.ty.toNat]? = some t ∧ Pass.Accepts (bodyEnv .code m t f.locals) t.results ops := by
  unfold translate
  cases ht : m.types[f.ty.toNat]? with
  | none => simp
  | some t =>
    have hr := fold_run (m := m) (t := t) (n := t.params.length + f.locals.length) (C := bodyEnv .code m t f.locals) (v := ops) (g := gstart t.results)
    simp only [Option.bind_some, Option.some.injEq, exists_eq_left']
    unfold Pass.Accepts
    rw [← show (gstart t.results).st = Pass.start t.results from rfl, ← hr]
    cases ops.foldlM (gstep m (bodyEnv .code m t f.locals) t (t.params.length + f.locals.length)) (gstart t.results) with
    | none => simp
    | some g => by_cases hc : g.st.ctrls = [] <;> simp [hc]

/-- **C111, trees.** If the opcodes are those of the body of a function, they are translated exactly if the body is valid by the rules of the crate. -/
theorem C111_tree (m : Module) {f : Func} {ops : List Pass.Op} (hf : Pass.FlatL ops f.body) : (∃ p, translate m f (ops ++ [.endOp]) = some p) ↔ FuncOk .code m f := by
  rw [C111_verdict]
  exact exists_congr fun t => and_congr_right fun _ => accepts_flat hf

/-- **C111.** Every function of an accepted module is translated, and the code and the number of registers are those of C108 and C109. -/
theorem C111_pass {m : Module} {r : ModuleResult} (h : validateModule m = .ok r) (he : NoElse m) {K : Codes} (hK : WrittenAs m K) {f : Func} (hf : f ∈ m.funcs) :
    translate m f (K f) = some (compile m K f, frame m K f) := by
  obtain ⟨ops, hk, hl⟩ := hK f hf
  obtain ⟨p, hp⟩ := (C111_tree m hl).mpr ((valid_of_ok h he).funcs f hf)
  rw [← hk] at hp
  rw [hp, C111_code hp]

/-! ## Files -/

theorem verdict_translate {m0 : Module} {codes : List (List Pass.Op)} : Pass.Verdict .code m0 codes ↔ DeclsOk .code m0 ∧ ∀ p ∈ m0.funcs.zip codes, ∃ q, translate m0 p.1 p.2 = some q :=
  ⟨fun ⟨h1, h2⟩ => ⟨h1, fun p hp => (C111_verdict _ _ _).mpr (h2 p hp)⟩, fun ⟨h1, h2⟩ => ⟨h1, fun p hp => (C111_verdict _ _ _).mp (h2 p hp)⟩⟩

/-- **C111, files.** The crate reads and accepts a file exactly if its parts can be read, its declarations are valid, and each list of opcodes is translated. -/
theorem C111_file (s : List Byte) : (∃ m r, parseModule s = (.ok m, []) ∧ validateModule m = .ok r) ↔
    ∃ m0 codes, Pass.GFile .code s m0 codes ∧ DeclsOk .code m0 ∧ ∀ p ∈ m0.funcs.zip codes, ∃ q, translate m0 p.1 p.2 = some q := by
  rw [C100_file]
  exact exists_congr fun _ => exists_congr fun _ => and_congr_right fun _ => verdict_translate

/-- **C111, results.** A file that is translated in this way is read and accepted by the crate. Execute what has been made, with so many words: what is returned is what the rules of the document give for the module that the
crate reads, and if the words are not enough there are so many calls that they may need more. -/
theorem C111_results {s : List Byte} {m0 : Module} {codes : List (List Pass.Op)} (hs : Pass.GFile .code s m0 codes) (hd : DeclsOk .code m0) (hv : ∀ p ∈ m0.funcs.zip codes, ∃ q, translate m0 p.1 p.2 = some q) :
    ∃ m, parseModule s = (.ok m, []) ∧ validateModule m = .ok (externals m) ∧ m0 = bare m ∧
      ∀ {R : RCodes} {N : Func → Nat}, (∀ f ∈ m.funcs, ∃ ops, (f, ops) ∈ m.funcs.zip codes ∧ translate m0 f ops = some (R f, N f)) →
      ∀ {M : Machine}, Instance m M → NumOk M → HostOk m M → ∀ {st : Store}, StoreOk m M.all.length st →
      ∀ {x : Nat} {t : FuncTy}, (funcSpace m)[x]? = some t → ∀ {f : Func}, M.funcs[x]? = some (.own t f) → ∀ {args : List Value}, args.map Value.type = t.params → ∀ W n,
      match bsteps M R N W (bentered N W t f (args.map Value.cell) st) n with
      | .running _ row _ _ => row.length = W
      | .finished st' vs => ∃ k c, Steps M k (called args st) [.invoke (.own t f)] c [] ∧ c.stack.reverse = vs ∧ c.store = st'
      | .trapped st' => ∃ k c es, Steps M k (called args st) [.invoke (.own t f)] c (.trap :: es) ∧ c.store = st'
      | .exhausted => ∃ j st' a as, FSteps M (sideTable m) j (entered t f args st) (.running st' a as) ∧
          ∀ P, (∀ f ∈ m.funcs, ∀ t, m.types[f.ty.toNat]? = some t → t.params.length + f.locals.length ≤ P) → W < (a :: as).length * (P + s.length) := by
  obtain ⟨m, h1, h2, h3, h4⟩ := C110_file hs (verdict_translate.mpr ⟨hd, hv⟩)
  refine ⟨m, h1, h2, h3, fun {R N} hR M hM hn hh st hst x t ht f hx args hargs W n => ?_⟩
  classical
  obtain ⟨K, hK⟩ : ∃ K : Codes, ∀ f ∈ m.funcs, (f, K f) ∈ m.funcs.zip codes ∧ translate m0 f (K f) = some (R f, N f) :=
    ⟨fun f => if hf : f ∈ m.funcs then (hR f hf).choose else [], fun f hf => by dsimp only; rw [dif_pos hf]; exact (hR f hf).choose_spec⟩
  have e := (bsteps_mine (M := M) (R := R) (R' := compile m0 K) (N := N) (N' := frame m0 K) (W := W) (fun t f hf => by
    have := C111_code (hK f (own_mem hM hf).1).2
    exact ⟨congrArg Prod.fst this, congrArg Prod.snd this⟩) (List.mem_append_left _ (List.mem_of_getElem? hx)) (args := args.map Value.cell) (st := st) n).1
  rw [e]
  exact h4 (fun f hf => (hK f hf).1) hM hn hh hst ht hx hargs W n

-- the code of the factorial and its four registers, from one pass
example : (translate selfModule selfModule.funcs[0] (inLine selfModule.funcs[0])).map (·.2) = some 4 ∧
    (translate selfModule selfModule.funcs[0] (inLine selfModule.funcs[0])).map (·.1) = some (compile selfModule inLine selfModule.funcs[0]) := by decide +kernel

-- a branch forward, of which the pass does not know yet where the block ends when it comes by
example : translate landModule landFunc (inLine landFunc) = some ([.const 0 1, .skip, .const 1 2, .const 2 3, .jump ⟨6, 2, 1, 1⟩, .skip, .skip, .leave 0], 3) := by decide +kernel

-- an `if` with both branches, and one without `else`
example : translate passModule passModule.funcs[0] (inLine passModule.funcs[0]) = some ([.copy 1 0, .goUnless 1 4, .const 1 1, .go 6, .const 1 2, .skip, .leave 1], 2) ∧
    translate cutModule cutFunc (cutOps ++ [.endOp]) = some ([.copy 1 0, .goUnless 1 4, .const 1 9, .copy 0 1, .skip, .copy 1 0, .leave 1], 2) := by decide +kernel

-- code that is not valid is not translated: an operand too many, an `end` missing, one too many, an `else` without `if`, a label that does not exist
example : translate landModule landFunc [.instr (.constI32 1), .instr (.constI32 2), .endOp] = none ∧ translate landModule landFunc [.instr (.constI32 1)] = none ∧
    translate landModule landFunc [.instr (.constI32 1), .endOp, .endOp] = none ∧ translate landModule landFunc [.instr (.constI32 1), .elseOp, .endOp] = none ∧
    translate landModule landFunc [.instr (.constI32 1), .instr (.br 7), .endOp] = none := by decide +kernel

-- the factorial of every number: every function is translated
example (K : Codes) (hK : WrittenAs factModule K) : ∀ f ∈ factModule.funcs, translate factModule f (K f) = some (compile factModule K f, frame factModule K f) := fun _ hf => C111_pass factModule_ok factModule_noElse hK hf

-- the file of C100: what is made of its opcodes returns what the rules return
example : ∃ m, parseModule passFile = (.ok m, []) ∧ ∀ (M : Machine), Instance m M → NumOk M → HostOk m M →
    ∀ (st : Store), StoreOk m M.all.length st → ∀ (f : Func), M.funcs[0]? = some (.own ⟨[.i32], [.i32]⟩ f) → ∀ (a : BitVec 32) (W n : Nat) (vs : List Value) (st' : Store),
    bsteps M (fun _ => [.copy 2 0, .goUnless 2 4, .const 2 1, .go 6, .const 2 2, .skip, .leave 2]) (fun _ => 3) W
        (bentered (fun _ => 3) W ⟨[.i32], [.i32]⟩ f [(Value.i32 a).cell] st) n = .finished st' vs →
      ∃ k c, Steps M k (called [.i32 a] st) [.invoke (.own ⟨[.i32], [.i32]⟩ f)] c [] ∧ c.stack.reverse = vs ∧ c.store = st' := by
  obtain ⟨m, h1, _, h2, h3⟩ := C111_results (m0 := { types := [⟨[.i32], [.i32]⟩], funcs := [⟨0, [.i64], []⟩] }) (codes := [passOps]) (gfile_mono w3c_le_code passFile_read)
    ⟨by simp, by simp, by simp, by simp, by simp, by simp, by simp, by simp, by simp [importedTables], by simp [importedMems], by simp, by decide +kernel, by decide +kernel, by simp⟩ (by
      simp only [List.zip_cons_cons, List.zip_nil_right, List.mem_singleton]
      rintro p rfl
      exact ⟨([.copy 2 0, .goUnless 2 4, .const 2 1, .go 6, .const 2 2, .skip, .leave 2], 3), by decide +kernel⟩)
  have ht : (funcSpace m)[0]? = some ⟨[.i32], [.i32]⟩ := by
    rw [← bare_funcSpace, ← h2]
    rfl
  have hfs := congrArg Module.funcs h2
  refine ⟨m, h1, fun M hM hn hh st hst f hx a W n vs st' e => ?_⟩
  have h4 := h3 (R := fun _ => [.copy 2 0, .goUnless 2 4, .const 2 1, .go 6, .const 2 2, .skip, .leave 2]) (N := fun _ => 3) (fun f hf => ?_) hM hn hh hst ht hx (args := [.i32 a]) rfl W n
  · rw [show List.map Value.cell [Value.i32 a] = [(Value.i32 a).cell] from rfl, e] at h4
    exact h4
  · change [Func.mk 0 [.i64] []] = m.funcs.map (fun f => { f with body := [] }) at hfs
    obtain ⟨g, hg⟩ : ∃ g, m.funcs = [g] := List.length_eq_one_iff.mp (by simpa using (congrArg List.length hfs).symm)
    rw [hg] at hf hfs ⊢
    obtain rfl := List.mem_singleton.mp hf
    refine ⟨passOps, List.mem_singleton.mpr rfl, ?_⟩
    injection hfs with hfs
    rw [show translate { types := [⟨[.i32], [.i32]⟩], funcs := [⟨0, [.i64], []⟩] } f passOps = translate { types := [⟨[.i32], [.i32]⟩], funcs := [⟨0, [.i64], []⟩] } { f with body := [] } passOps from rfl, show { f with body := [] } = Func.mk 0 [.i64] [] from hfs.symm]
    decide +kernel

end Whasm
