import Verif.Lemmas.Early
import Verif.Props.OnePass

/-!
# C112: the pass fails at the first opcode after which nothing can make the code valid

Whoever validates code as it arrives wants to hear of an error at once, not at the end of the body. Here: if the pass has found no error in the opcodes so far, there are bytes that make them the code of a body that the crate
reads and accepts, no more than four for each block that is open.
-/

namespace Whasm
open Spec Run

/-- Bytes that begin with those of some opcodes are read as these first. -/
theorem reading_begins {D : Dialect} (hD : DialectLe D .code) : ∀ {u ops : List Pass.Op} {b c : List Byte}, GSeq (Pass.GOp D) b u → GSeq (Pass.GOp D) (b ++ c) ops → ∃ v, ops = u ++ v ∧ GSeq (Pass.GOp D) c v
  | [], ops, _, _, .nil, h => ⟨ops, rfl, h⟩
  | x :: xs, [], b, c, h, h' => by
    obtain ⟨b1, b2, rfl, h1, _⟩ := Pass.gseq_cons h
    have e : b1 ++ b2 ++ c = [] := by
      generalize b1 ++ b2 ++ c = d at h'
      cases h'
      rfl
    rw [List.append_assoc] at e
    exact (gop_pos h1 (List.append_eq_nil_iff.mp e).1).elim
  | x :: xs, y :: ys, b, c, h, h' => by
    obtain ⟨b1, b2, rfl, h1, h2⟩ := Pass.gseq_cons h
    obtain ⟨c1, c2, hb, h3, h4⟩ := Pass.gseq_cons h'
    rw [List.append_assoc] at hb
    obtain ⟨rfl, rfl⟩ := gop_unambiguous hD h1 h3 hb
    obtain rfl := List.append_cancel_left hb
    obtain ⟨v, rfl, h5⟩ := reading_begins hD h2 h4
    exact ⟨v, rfl, h5⟩

theorem start_tall (r : List Val) : Tall (Pass.start r) := ⟨Nat.le_refl _, trivial⟩

/-- **C112, completion.** Opcodes in which the algorithm has found no error, whatever they are, can be completed: by `unreachable` and `end`, and an `else` between them for an `if`, for each frame. -/
theorem C112_complete {C : Env} {r : List Val} {u : List Pass.Op} {s : Pass.St} (h : Pass.run C (Pass.start r) u = some s) : Pass.Accepts C r (u ++ s.ctrls.flatMap closing) := by
  obtain ⟨s', h1, h2⟩ := run_close (C := C) (run_tall (start_tall r) h) rfl
  exact ⟨s', by rw [run_both h]; exact h1, h2⟩

/-- **C112, rules.** Bytes that are read as some opcodes are the beginning of the binary of an expression that is well typed by the rules of the document exactly if the algorithm finds no error in these opcodes. Any context,
and both the binary format of the document and that of the crate. -/
theorem C112_rules {D : Dialect} (hD : DialectLe D .code) (C : Env) (r : List Val) {b : List Byte} {u : List Pass.Op} (hb : GSeq (Pass.GOp D) b u) :
    (∃ c e, GExpr D (b ++ c) e ∧ ExprType C e r) ↔ ∃ s, Pass.run C (Pass.start r) u = some s := by
  constructor
  · rintro ⟨c, e, h1, h2⟩
    obtain ⟨ops, h3, s, h4, _⟩ := (C100_rules D C r _).mpr ⟨e, h1, h2⟩
    obtain ⟨v, rfl, _⟩ := reading_begins hD hb h3
    unfold Pass.run at h4 ⊢
    rw [List.foldlM_append] at h4
    obtain ⟨s1, h5, _⟩ := Option.bind_eq_some_iff.mp h4
    exact ⟨s1, h5⟩
  · rintro ⟨s, h⟩
    obtain ⟨c, hc, _⟩ := closing_bytes D s.ctrls
    obtain ⟨e, h1, h2⟩ := (C100_rules D C r _).mp ⟨_, Pass.gseq_append hb hc, C112_complete h⟩
    exact ⟨c, e, h1, h2⟩

/-- **C112.** Bytes that are read as some opcodes are the beginning of a body that the crate reads and accepts, for a function of this type and with these local variables, in the index spaces of any module, exactly if the
algorithm finds no error in these opcodes. -/
theorem C112_early (m : Module) (ty : Idx) (ls : List Val) {b : List Byte} {u : List Pass.Op} (hb : GSeq (Pass.GOp .code) b u) :
    (∃ c e t, parseExpr (b ++ c) = (.ok e, []) ∧ validateFunc ⟨ty, ls, e⟩ (spaces m) = .ok (t, spaces m)) ↔
      ∃ t, m.types[ty.toNat]? = some t ∧ ∃ s, Pass.run (bodyEnv .code m t ls) (Pass.start t.results) u = some s := by
  constructor
  · rintro ⟨c, h⟩
    obtain ⟨t, ops, ht, h1, h2⟩ := (C100_body m ty ls _).mp h
    exact ⟨t, ht, (C112_rules ⟨id, id, id, id, id, id⟩ _ _ hb).mp ⟨c, (C100_rules .code _ _ _).mp ⟨ops, h1, h2⟩⟩⟩
  · rintro ⟨t, ht, s, h⟩
    obtain ⟨c, hc, _⟩ := closing_bytes .code s.ctrls
    exact ⟨c, (C100_body m ty ls _).mpr ⟨t, _, ht, Pass.gseq_append hb hc, C112_complete h⟩⟩

/-- Bytes that are the beginning of opcodes are some opcodes and the beginning of another. -/
theorem reading_cut {D : Dialect} : ∀ {ops : List Pass.Op} {b c : List Byte}, GSeq (Pass.GOp D) (b ++ c) ops →
    ∃ b1 b2 u v, b = b1 ++ b2 ∧ GSeq (Pass.GOp D) b1 u ∧ ops = u ++ v ∧ (b2 = [] ∨ ∃ d op w, Pass.GOp D (b2 ++ d) op ∧ v = op :: w)
  | [], b, c, h => by
    have e : b ++ c = [] := by
      generalize b ++ c = d at h
      cases h
      rfl
    exact ⟨[], [], [], [], (List.append_eq_nil_iff.mp e).1, .nil, rfl, .inl rfl⟩
  | x :: xs, b, c, h => by
    obtain ⟨c1, c2, hb, h1, h2⟩ := Pass.gseq_cons h
    rcases List.append_eq_append_iff.mp hb with ⟨d, rfl, _⟩ | ⟨d, rfl, rfl⟩
    · exact ⟨[], b, [], x :: xs, rfl, .nil, rfl, .inr ⟨d, x, xs, h1, rfl⟩⟩
    · obtain ⟨b1, b2, u, v, rfl, h3, rfl, h4⟩ := reading_cut h2
      exact ⟨c1 ++ b1, b2, x :: u, v, (List.append_assoc ..).symm, .cons h1 h3, rfl, h4⟩

/-- **C112, bytes.** Any bytes, also those that end within an opcode: they are the beginning of the binary of a well-typed expression exactly if they are those of opcodes in which the algorithm finds no error, followed by
nothing, or by the beginning of an opcode in which it finds no error next. -/
theorem C112_bytes (D : Dialect) (C : Env) (r : List Val) (b : List Byte) :
    (∃ c e, GExpr D (b ++ c) e ∧ ExprType C e r) ↔
      ∃ b1 b2 u s, b = b1 ++ b2 ∧ GSeq (Pass.GOp D) b1 u ∧ Pass.run C (Pass.start r) u = some s ∧ (b2 = [] ∨ ∃ d op s', Pass.GOp D (b2 ++ d) op ∧ Pass.validate C s op = some s') := by
  constructor
  · rintro ⟨c, e, h1, h2⟩
    obtain ⟨ops, h3, s, h4, _⟩ := (C100_rules D C r _).mpr ⟨e, h1, h2⟩
    obtain ⟨b1, b2, u, v, rfl, h5, rfl, h6⟩ := reading_cut h3
    unfold Pass.run at h4
    rw [List.foldlM_append] at h4
    obtain ⟨s1, h7, h8⟩ := Option.bind_eq_some_iff.mp h4
    refine ⟨b1, b2, u, s1, rfl, h5, h7, h6.imp id ?_⟩
    rintro ⟨d, op, w, h9, rfl⟩
    rw [List.foldlM_cons] at h8
    obtain ⟨s2, h10, _⟩ := Option.bind_eq_some_iff.mp h8
    exact ⟨d, op, s2, h9, h10⟩
  · have key : ∀ {b : List Byte} {u : List Pass.Op} {s : Pass.St}, GSeq (Pass.GOp D) b u → Pass.run C (Pass.start r) u = some s → ∃ c e, GExpr D (b ++ c) e ∧ ExprType C e r := by
      intro b u s hb h
      obtain ⟨c, hc, _⟩ := closing_bytes D s.ctrls
      exact ⟨c, (C100_rules D C r _).mp ⟨_, Pass.gseq_append hb hc, C112_complete h⟩⟩
    rintro ⟨b1, b2, u, s, rfl, h1, h2, rfl | ⟨d, op, s', h3, h4⟩⟩
    · rw [List.append_nil]
      exact key h1 h2
    · obtain ⟨c, h5⟩ := key (Pass.gseq_append h1 (Pass.gseq_single h3)) (run_snoc h2 h4)
      exact ⟨d ++ c, by simpa only [List.append_assoc] using h5⟩

/-- **C112, bytes, for the crate.** The same for the bodies that the crate reads and accepts. -/
theorem C112_body (m : Module) (ty : Idx) (ls : List Val) (b : List Byte) :
    (∃ c e t, parseExpr (b ++ c) = (.ok e, []) ∧ validateFunc ⟨ty, ls, e⟩ (spaces m) = .ok (t, spaces m)) ↔
      ∃ t, m.types[ty.toNat]? = some t ∧ ∃ b1 b2 u s, b = b1 ++ b2 ∧ GSeq (Pass.GOp .code) b1 u ∧ Pass.run (bodyEnv .code m t ls) (Pass.start t.results) u = some s ∧
        (b2 = [] ∨ ∃ d op s', Pass.GOp .code (b2 ++ d) op ∧ Pass.validate (bodyEnv .code m t ls) s op = some s') := by
  constructor
  · rintro ⟨c, h⟩
    obtain ⟨t, ops, ht, h1⟩ := (C100_body m ty ls _).mp h
    exact ⟨t, ht, (C112_bytes .code _ _ b).mp ⟨c, (C100_rules .code _ _ _).mp ⟨ops, h1⟩⟩⟩
  · rintro ⟨t, ht, h⟩
    obtain ⟨c, h1⟩ := (C112_bytes .code _ _ b).mpr h
    obtain ⟨ops, h2⟩ := (C100_rules .code _ _ _).mpr h1
    exact ⟨c, (C100_body m ty ls _).mpr ⟨t, ops, ht, h2⟩⟩

/-- **C112, size.** No more than four bytes are needed for each block that is open, and four for the function. -/
theorem C112_short (m : Module) (ty : Idx) (ls : List Val) {t : FuncTy} (ht : m.types[ty.toNat]? = some t) {b : List Byte} {u : List Pass.Op} (hb : GSeq (Pass.GOp .code) b u) {s : Pass.St}
    (h : Pass.run (bodyEnv .code m t ls) (Pass.start t.results) u = some s) :
    ∃ c e t', c.length ≤ 4 * s.ctrls.length ∧ parseExpr (b ++ c) = (.ok e, []) ∧ validateFunc ⟨ty, ls, e⟩ (spaces m) = .ok (t', spaces m) := by
  obtain ⟨c, hc, hl⟩ := closing_bytes .code s.ctrls
  obtain ⟨e, t', h1⟩ := (C100_body m ty ls _).mpr ⟨t, _, ht, Pass.gseq_append hb hc, C112_complete h⟩
  exact ⟨c, e, t', hl, h1⟩

/-- **C112, translation.** The pass of C111 stops at the first opcode after which nothing can be translated. -/
theorem C112_translate (m : Module) {f : Func} {t : FuncTy} (ht : m.types[f.ty.toNat]? = some t) (u : List Pass.Op) :
    (∃ g, u.foldlM (gstep m (bodyEnv .code m t f.locals) t (t.params.length + f.locals.length)) (gstart t.results) = some g) ↔ ∃ v p, translate m f (u ++ v) = some p := by
  have hr := fold_run (m := m) (t := t) (n := t.params.length + f.locals.length) (C := bodyEnv .code m t f.locals) (v := u) (g := gstart t.results)
  constructor
  · rintro ⟨g, hg⟩
    rw [hg] at hr
    exact ⟨_, (C111_verdict m f _).mpr ⟨t, ht, C112_complete hr.symm⟩⟩
  · rintro ⟨v, p, h⟩
    obtain ⟨t', ht', h⟩ := Option.bind_eq_some_iff.mp h
    obtain rfl := Option.some.inj (ht.symm.trans ht')
    obtain ⟨g, hg, _⟩ := Option.bind_eq_some_iff.mp h
    rw [List.foldlM_append] at hg
    obtain ⟨g1, h1, _⟩ := Option.bind_eq_some_iff.mp hg
    exact ⟨g1, h1⟩

-- in the middle of the first branch of an `if`: it is completed by unreachable else unreachable end unreachable end
example : (Pass.run passEnv (Pass.start [.i32]) (passOps.take 3)).map (fun s => s.ctrls.flatMap closing) =
    some [.instr .unreachable, .elseOp, .instr .unreachable, .endOp, .instr .unreachable, .endOp] := rfl

-- every beginning of this code can be completed, to a body that the crate reads and accepts
example (b : List Byte) (k : Nat) (hb : GSeq (Pass.GOp .code) b (passOps.take k)) : ∃ c e t, parseExpr (b ++ c) = (.ok e, []) ∧ validateFunc ⟨0, [], e⟩ (spaces passModule) = .ok (t, spaces passModule) := by
  refine (C112_early passModule 0 [] hb).mpr ⟨⟨[.i32], [.i32]⟩, rfl, ?_⟩
  have h : ∀ k < 8, (Pass.run (bodyEnv .code passModule ⟨[.i32], [.i32]⟩ []) (Pass.start [.i32]) (passOps.take k)).isSome = true := by decide +kernel
  refine Option.isSome_iff_exists.mp ?_
  by_cases hk : k < 8
  · exact h k hk
  · rw [List.take_of_length_le (by show 7 ≤ k; omega)]
    exact h 7 (by decide)

-- i32.const 1  i64.const 1  i32.add: whatever follows, this is not the code of a function
example (c : List Byte) (m : Module) (ty : Idx) (ls : List Val) (e : Expr) (t : FuncTy) (h : parseExpr ([0x41, 0x01, 0x42, 0x01, 0x6A] ++ c) = (.ok e, [])) : validateFunc ⟨ty, ls, e⟩ (spaces m) ≠ .ok (t, spaces m) := by
  intro hv
  have hb : GSeq (Pass.GOp .code) [0x41, 0x01, 0x42, 0x01, 0x6A] [.instr (.constI32 1), .instr (.constI64 1), .instr (.num .i32Add)] :=
    .cons (b := [0x41, 0x01]) (.instr (.constI32 (b := [0x01]) ((w3c_le_code).s32 (.pos (n := 0x01) (by decide) (by decide)))) trivial)
      (.cons (b := [0x42, 0x01]) (.instr (.constI64 (b := [0x01]) ((w3c_le_code).s64 (.pos (n := 0x01) (by decide) (by decide)))) trivial) (.cons (b := [0x6A]) (.instr (.num .i32Add) trivial) .nil))
  obtain ⟨t, _, s, hs⟩ := (C112_early m ty ls hb).mp ⟨c, e, t, h, hv⟩
  cases hs

-- i32.const 1, and the opcode of i32.const without its number: there is a number with which it goes on
example : ∃ c e, GExpr .w3c ([0x41, 0x01, 0x41] ++ c) e ∧ ExprType passEnv e [.i32] :=
  (C112_bytes .w3c passEnv [.i32] _).mpr ⟨[0x41, 0x01], [0x41], [.instr (.constI32 1)], _, rfl,
    .cons (b := [0x41, 0x01]) (.instr (.constI32 (b := [0x01]) (.pos (n := 0x01) (by decide) (by decide))) trivial) .nil, rfl,
    .inr ⟨[0x01], .instr (.constI32 1), _, .instr (.constI32 (b := [0x01]) (.pos (n := 0x01) (by decide) (by decide))) trivial, rfl⟩⟩

end Whasm
