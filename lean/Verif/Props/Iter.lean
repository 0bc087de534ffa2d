import Verif.Lemmas.Iter
import Verif.Lemmas.Sections
import Verif.Lemmas.Cut
import Verif.Lemmas.DecEq

/-!
# C67, C68: parsing from arbitrary iterators
-/

namespace Whasm
open Spec
open Iter (IP Next Yields watch Endless streamNext)

section
variable {σ α : Type}

/-! ## Facts about iterators -/

theorem Iter.Yields.unique {next : Next σ} : ∀ {l : List Byte} {a b c : σ}, Yields next a l b → Yields next a l c → b = c
  | [], _, _, _, h, h' => by cases h; cases h'; rfl
  | _ :: l, _, _, _, h, h' => by
    cases h with
    | cons e h =>
      cases h' with
      | cons e' h' =>
        rw [e] at e'
        cases e'
        exact Iter.Yields.unique (l := l) h h'

/-- Of two lists that the same iterator yields, one is an initial part of the other. -/
theorem Iter.Yields.compare {next : Next σ} : ∀ {l k : List Byte} {a b c : σ}, Yields next a l b → Yields next a k c →
    (∃ t, k = l ++ t ∧ Yields next b t c) ∨ (∃ t, l = k ++ t ∧ Yields next c t b)
  | [], _, _, _, _, h, h' => by cases h; exact .inl ⟨_, rfl, h'⟩
  | _ :: _, [], _, _, _, h, h' => by cases h'; exact .inr ⟨_, rfl, h⟩
  | _ :: l, _ :: k, _, _, _, h, h' => by
    cases h with
    | cons e h =>
      cases h' with
      | cons e' h' =>
        rw [e] at e'
        cases e'
        rcases Iter.Yields.compare (l := l) (k := k) h h' with ⟨t, rfl, ht⟩ | ⟨t, rfl, ht⟩
        · exact .inl ⟨t, rfl, ht⟩
        · exact .inr ⟨t, rfl, ht⟩

theorem Iter.watch_yields {next : Next σ} : ∀ {l : List Byte} {st : σ} {w : σ × Nat × Nat}, Yields (watch next) (st, 0, 0) l w →
    ∃ st', w = (st', 0, 0) ∧ Yields next st l st'
  | [], st, _, h => by cases h; exact ⟨st, rfl, .nil _⟩
  | b :: l, st, w, h => by
    cases h with
    | cons e h =>
      generalize hr : next st = r
      obtain ⟨o, st1⟩ := r
      simp only [watch, hr] at e
      cases e
      obtain ⟨st', h1, h2⟩ := Iter.watch_yields (l := l) h
      exact ⟨st', h1, .cons hr h2⟩

/-! ## C67 -/

/-- The parser `q` on iterators does what the parser `p` does on lists: whatever the iterator does after its first `none`, the result is
that of `p` on the bytes before; the iterator is left after the bytes that `p` consumes, or all bytes were consumed and the iterator was
asked once more. -/
def Faithful (q : IP α) (p : P α) : Prop :=
  ∀ (σ : Type) (next : Next σ) (st e dead : σ) (s : List Byte) (fuel : Nat), Yields next st s e → next e = (none, dead) → s.length < fuel →
    (q σ next fuel st).1 = (p s).1 ∧
    ((∃ c, s = c ++ (p s).2 ∧ Yields next st c (q σ next fuel st).2) ∨ ((p s).2 = [] ∧ (q σ next fuel st).2 = dead))

theorem Iter.Sim.faithful {b : Bool} {q : IP α} {p : P α} (h : Iter.Sim b q p) : Faithful q p := by
  intro σ next st e dead s fuel hy hd hl
  rcases h.fwd σ next st e s fuel hy hl with ⟨c, mid, h1, h2, h3, h4⟩ | ⟨⟨h1, h2⟩, -⟩
  · exact ⟨by rw [h4], .inl ⟨c, h1, by rw [h4]; exact h2⟩⟩
  · rw [h2 dead hd]
    exact ⟨rfl, .inr ⟨h1, rfl⟩⟩

/-- Everything that a run on a module can do. -/
theorem Iter.module_run (next : Next σ) (st : σ) (fuel : Nat) {r : Except Error Module × σ} (h : Iter.parseModule σ next fuel st = r) :
    Iter.Outcome false Whasm.parseModule next st r.1 r.2 :=
  Iter.sim_module.rev σ next st r.2 fuel r.1 h

/-- **C67, modules.** What `Module::parse` returns depends only on the bytes that the iterator yields before its first `none`. -/
theorem C67_module : Faithful Iter.parseModule parseModule := Iter.sim_module.faithful

/-- An iterator that yields the preamble, then `none`, then an invalid section id for ever: accepted, and left after the `none`. -/
def preambleThenJunk (i : Nat) : Option Byte × Nat := (if i = 8 then none else some (preamble.getD i 0x0C), i + 1)

example : Iter.parseModule Nat preambleThenJunk 100 0 = (.ok {}, 9) := by rfl

/-- The same parser twice: on iterators and on lists. All implementations of `WasmBinaryParse` except `Consume`, what contains it, and
`Module`. -/
inductive SameElement : {α : Type} → IP α → P α → Prop
  | byte : SameElement Iter.parseByte parseByte
  | unsigned (N : Nat) : SameElement (Iter.parseUnsigned N) (parseUnsigned N)
  | signed (N : Nat) : SameElement (Iter.parseSigned N) (parseSigned N)
  | f32 : SameElement Iter.parseF32 parseF32
  | f64 : SameElement Iter.parseF64 parseF64
  | string : SameElement Iter.parseString parseString
  | array {α : Type} {q : IP α} {p : P α} (n : Nat) : SameElement q p → SameElement (Iter.parseN n q) (parseN n p)
  | vec {α : Type} {q : IP α} {p : P α} : SameElement q p → SameElement (Iter.parseVec q) (parseVec p)
  | unwrappingVec {α β : Type} {q : IP α} {p : P α} (f : α → β) :
      SameElement q p → SameElement (Iter.parseUnwrappingVec f q) (parseUnwrappingVec f p)
  | compactVec {α : Type} {q : IP α} {p : P α} : SameElement q p → SameElement (Iter.parseCompactVec q) (parseCompactVec p)
  | sized {α : Type} {q : IP α} {p : P α} : SameElement q p → SameElement (Iter.parseSized q) (parseSized p)
  | sizedConsume : SameElement (Iter.parseSized Iter.parseConsume) (parseSized parseConsume)
  | sizedCustom : SameElement (Iter.parseSized Iter.parseCustom) (parseSized parseCustom)
  | sizedModule : SameElement (Iter.parseSized Iter.parseModule) (parseSized parseModule)
  | limits : SameElement Iter.parseLimits parseLimits
  | val : SameElement Iter.parseVal parseVal
  | elemTy : SameElement Iter.parseElemTy parseElemTy
  | retVal : SameElement Iter.parseRetVal parseRetVal
  | funcTy : SameElement Iter.parseFuncTy parseFuncTy
  | tableTy : SameElement Iter.parseTableTy parseTableTy
  | memTy : SameElement Iter.parseMemTy parseMemTy
  | mut : SameElement Iter.parseMut parseMut
  | globalTy : SameElement Iter.parseGlobalTy parseGlobalTy
  | idx : SameElement Iter.parseIdx parseIdx
  | instr : SameElement Iter.parseInstr parseInstr
  | expr : SameElement Iter.parseExpr parseExpr
  | constExpr : SameElement Iter.parseConstExpr parseConstExpr
  | func : SameElement Iter.parseFunc parseFunc
  | table : SameElement Iter.parseTable parseTable
  | mem : SameElement Iter.parseMem parseMem
  | global : SameElement Iter.parseGlobal parseGlobal
  | elem : SameElement Iter.parseElem parseElem
  | data : SameElement Iter.parseData parseData
  | start : SameElement Iter.parseStart parseStart
  | importDesc : SameElement Iter.parseImportDesc parseImportDesc
  | exportDesc : SameElement Iter.parseExportDesc parseExportDesc
  | import : SameElement Iter.parseImport parseImport
  | export : SameElement Iter.parseExport parseExport

theorem SameElement.sim {q : IP α} {p : P α} (h : SameElement q p) : Iter.Sim true q p := by
  induction h with
  | byte => exact Iter.sim_byte
  | unsigned N => exact Iter.sim_unsigned N
  | signed N => exact Iter.sim_signed N
  | f32 => exact Iter.sim_float 4
  | f64 => exact Iter.sim_float 8
  | string => exact Iter.sim_string
  | array n _ ih => exact Iter.sim_n ih n
  | vec _ ih => exact Iter.sim_vec ih
  | unwrappingVec f _ ih => exact Iter.sim_unwrappingVec f ih
  | compactVec _ ih => exact Iter.sim_compactVec ih
  | sized _ ih => exact Iter.sim_sized ih.weak
  | sizedConsume => exact Iter.sim_sized Iter.sim_consume
  | sizedCustom => exact Iter.sim_sized Iter.sim_custom
  | sizedModule => exact Iter.sim_sized Iter.sim_module
  | limits => exact Iter.sim_limits
  | val => exact Iter.sim_val
  | elemTy => exact Iter.sim_elemTy
  | retVal => exact Iter.sim_retVal
  | funcTy => exact Iter.sim_funcTy
  | tableTy => exact Iter.sim_tableTy
  | memTy => exact Iter.sim_memTy
  | «mut» => exact Iter.sim_mut
  | globalTy => exact Iter.sim_globalTy
  | idx => exact Iter.sim_idx
  | instr => exact Iter.sim_instr
  | expr => exact Iter.sim_expr
  | constExpr => exact Iter.sim_constExpr
  | func => exact Iter.sim_func
  | table => exact Iter.sim_table
  | mem => exact Iter.sim_mem
  | global => exact Iter.sim_global
  | elem => exact Iter.sim_elem
  | data => exact Iter.sim_data
  | start => exact Iter.sim_start
  | importDesc => exact Iter.sim_importDesc
  | exportDesc => exact Iter.sim_exportDesc
  | «import» => exact Iter.sim_import
  | «export» => exact Iter.sim_export

/-- **C67, elements.** The same for every other element type; if such an element is parsed successfully, then from any iterator at all (it
need not end), and the iterator is left right after the bytes of the element: `next` has been called exactly that often. -/
theorem C67_elements {q : IP α} {p : P α} (h : SameElement q p) : Faithful q p ∧
    ∀ (next : Next σ) (st : σ) (fuel : Nat) (x : α), (q σ next fuel st).1 = .ok x →
      ∃ c, Yields next st c (q σ next fuel st).2 ∧ ∀ t, p (c ++ t) = (.ok x, t) := by
  refine ⟨h.sim.faithful, fun next st fuel x hx => ?_⟩
  have := h.sim.rev σ next st (q σ next fuel st).2 fuel (.ok x) (Prod.ext hx rfl)
  rcases this with ⟨h1, -⟩ | h1 | ⟨c, e, -, -, -, -, h5⟩
  · cases h1
  · exact h1
  · obtain ⟨err, he⟩ := h5 rfl
    cases he

/-- An endless iterator: a block is read, the rest is not touched. -/
example : Iter.parseInstr Nat (streamNext fun i => [0x02, 0x40, 0x41, 0x2A, 0x1A, 0x0B].getD i 0x01) 10 0 =
    (.ok (.block [] [.constI32 42, .drop]), 6) := by rfl

/-- **C67, `Consume`.** The only implementation that succeeds at the end of the iterator, other than `Module`. -/
theorem C67_consume : Faithful Iter.parseConsume parseConsume ∧ Faithful Iter.parseCustom parseCustom :=
  ⟨Iter.sim_consume.faithful, Iter.sim_custom.faithful⟩

example : Iter.parseConsume Nat preambleThenJunk 100 0 = (.ok 8, 9) := by rfl

/-- **C67, any iterator.** On every iterator, whether it ends or not, and for every bound on the loops: either the bound stopped the run,
or the bytes read from the iterator, as a list, are just what the list parser reads to get the same result. -/
theorem C67_any (next : Next σ) (st : σ) (fuel : Nat) : (Iter.parseModule σ next fuel st).1 = .error .fuel ∨
    ∃ c e, Yields next st c e ∧ parseModule c = ((Iter.parseModule σ next fuel st).1, []) ∧
      ((Iter.parseModule σ next fuel st).2 = e ∨ next e = (none, (Iter.parseModule σ next fuel st).2)) := by
  generalize hr : Iter.parseModule σ next fuel st = r
  rcases Iter.module_run next st fuel hr with ⟨h1, -⟩ | ⟨c, h1, h2⟩ | ⟨c, e, h1, h2, h3, -⟩
  · exact .inl h1
  · have := h2 []
    rw [List.append_nil] at this
    exact .inr ⟨c, _, h1, this, .inl rfl⟩
  · exact .inr ⟨c, e, h1, h3, .inr h2⟩

/-- Two sections with the wrong order on an endless iterator: the error is that of the bytes read. -/
example : Iter.parseModule Nat (streamNext fun i => (preamble ++ [0x03, 0x01, 0x00, 0x01]).getD i 0x00) 50 0 =
    (.error (.unexpectedSectionId 0x01), 12) := by rfl

/-- **C67, once.** `next` is never called again after it has returned `none`, on any iterator and for any bound on the loops. -/
theorem C67_once (next : Next σ) (st : σ) (fuel : Nat) :
    (Iter.parseModule (σ × Nat × Nat) (watch next) fuel (st, 0, 0)).2.2.2 = 0 ∧
    (Iter.parseModule (σ × Nat × Nat) (watch next) fuel (st, 0, 0)).2.2.1 ≤ 1 := by
  generalize hr : Iter.parseModule (σ × Nat × Nat) (watch next) fuel (st, 0, 0) = r
  rcases Iter.module_run (watch next) (st, 0, 0) fuel hr with ⟨-, c, h1⟩ | ⟨c, h1, -⟩ | ⟨c, e, h1, h2, -, -⟩
  · obtain ⟨st', h3, -⟩ := Iter.watch_yields h1
    rw [h3]; exact ⟨rfl, Nat.zero_le _⟩
  · obtain ⟨st', h3, -⟩ := Iter.watch_yields h1
    rw [h3]; exact ⟨rfl, Nat.zero_le _⟩
  · obtain ⟨st', rfl, -⟩ := Iter.watch_yields h1
    generalize hn : next st' = u at h2
    obtain ⟨o, st1⟩ := u
    simp only [watch, hn] at h2
    have h3 := congrArg Prod.fst h2
    simp only at h3
    subst h3
    rw [← congrArg Prod.snd h2]
    exact ⟨rfl, Nat.le_refl _⟩

/-- A module that ends within a section that contains a function body: three windows in one another. -/
example : Iter.parseModule (Nat × Nat × Nat)
    (watch fun i => (if i < 15 then some ((preamble ++ [0x03, 0x02, 0x01, 0x00, 0x0A, 0x05, 0x01]).getD i 0) else none, i + 1)) 50 (0, 0, 0) =
    (.error .unexpectedEndOfFile, (16, 1, 0)) := by decide +kernel

/-- **C67, bound.** The bound on the loops is immaterial: two bounds that do not stop the run give the same result. -/
theorem C67_bound (next : Next σ) (st : σ) (n m : Nat) (hn : (Iter.parseModule σ next n st).1 ≠ .error .fuel)
    (hm : (Iter.parseModule σ next m st).1 ≠ .error .fuel) : (Iter.parseModule σ next n st).1 = (Iter.parseModule σ next m st).1 := by
  have aux : ∀ (k : Nat), (Iter.parseModule σ next k st).1 ≠ .error .fuel → ∃ c e, Yields next st c e ∧
      parseModule c = ((Iter.parseModule σ next k st).1, []) ∧
      ((∀ t, parseModule (c ++ t) = ((Iter.parseModule σ next k st).1, t)) ∨ (next e).1 = none) := by
    intro k hk
    generalize hr : Iter.parseModule σ next k st = r at hk ⊢
    rcases Iter.module_run next st k hr with ⟨h1, -⟩ | ⟨c, h1, h2⟩ | ⟨c, e, h1, h2, h3, -⟩
    · exact absurd h1 hk
    · refine ⟨c, _, h1, ?_, .inl h2⟩
      have := h2 []
      rwa [List.append_nil] at this
    · exact ⟨c, e, h1, h3, .inr (by rw [h2])⟩
  obtain ⟨c, e, h1, h2, h3⟩ := aux n hn
  obtain ⟨c', e', g1, g2, g3⟩ := aux m hm
  have key : ∀ (c t : List Byte) (e e' : σ) (x y : Except Error Module), Yields next e t e' → parseModule c = (x, []) →
      parseModule (c ++ t) = (y, []) → ((∀ t, parseModule (c ++ t) = (x, t)) ∨ (next e).1 = none) → x = y := by
    intro c t e e' x y ht hc hct h
    rcases h with h | h
    · rw [h t] at hct
      exact congrArg Prod.fst hct
    · cases ht with
      | nil => rw [List.append_nil, hc] at hct; exact congrArg Prod.fst hct
      | cons hb _ => rw [hb] at h; cases h
  rcases h1.compare g1 with ⟨t, rfl, ht⟩ | ⟨t, rfl, ht⟩
  · exact key c t e e' _ _ ht h2 g2 h3
  · exact (key c' t e' e _ _ ht g2 h2 g3).symm

example : (Iter.parseModule Nat preambleThenJunk 1 0).1 = (Iter.parseModule Nat preambleThenJunk 1000 0).1 := by rfl

/-! ## C68 -/

/-- The full statement of C68: `Module::parse` returns, whatever the iterator. -/
def AlwaysReturns : Prop :=
  ∀ (σ : Type) (next : Next σ) (st : σ), ∃ fuel, (Iter.parseModule σ next fuel st).1 ≠ .error .fuel

/-- **C68, what holds.** It returns on every iterator that ends at some point; no loop takes more iterations than there are bytes, plus
one. Missing: iterators that do not end, see `C68_negation` and `C68_endless`. -/
theorem C68_ends_partial (next : Next σ) {st e : σ} {s : List Byte} (hy : Yields next st s e) (he : (next e).1 = none) (fuel : Nat)
    (hf : s.length < fuel) : (Iter.parseModule σ next fuel st).1 ≠ .error .fuel := by
  rw [(C67_module σ next st e (next e).2 s fuel hy (Prod.ext he rfl) hf).1]
  exact safe_module.noFuel s

example : (Iter.parseModule Nat preambleThenJunk 9 0).1 ≠ .error .fuel := by
  refine C68_ends_partial preambleThenJunk (s := preamble) (e := 8) ?_ rfl 9 (by decide)
  exact .cons rfl (.cons rfl (.cons rfl (.cons rfl (.cons rfl (.cons rfl (.cons rfl (.cons rfl (.nil _))))))))

/-- **C68, endless iterators.** On an iterator that never ends the parser returns exactly if it stops short of the end of some finite
initial part; it then reports an error, never a module. -/
theorem C68_endless (next : Next σ) (st : σ) (h : Endless next st) :
    ((∃ fuel, (Iter.parseModule σ next fuel st).1 ≠ .error .fuel) ↔ ∃ c e, Yields next st c e ∧ (parseModule c).2 ≠ []) ∧
    ∀ fuel m, (Iter.parseModule σ next fuel st).1 ≠ .ok m := by
  have ret : ∀ fuel, (Iter.parseModule σ next fuel st).1 ≠ .error .fuel → ∃ c e b, Yields next st (c ++ [b]) e ∧
      parseModule (c ++ [b]) = ((Iter.parseModule σ next fuel st).1, [b]) := by
    intro fuel hf
    generalize hr : Iter.parseModule σ next fuel st = r at hf ⊢
    rcases Iter.module_run next st fuel hr with ⟨h1, -⟩ | ⟨c, h1, h2⟩ | ⟨c, e, h1, h2, -⟩
    · exact absurd h1 hf
    · have h3 := h c r.2 h1
      generalize hn : next r.2 = u at h3
      obtain ⟨o, e'⟩ := u
      cases o with
      | none => exact absurd rfl h3
      | some b => exact ⟨c, e', b, h1.append (.cons hn (.nil _)), h2 [b]⟩
    · exact absurd (by rw [h2]) (h c e h1)
  refine ⟨⟨?_, ?_⟩, ?_⟩
  · rintro ⟨fuel, hf⟩
    obtain ⟨c, e, b, h1, h2⟩ := ret fuel hf
    exact ⟨c ++ [b], e, h1, by rw [h2]; simp⟩
  · rintro ⟨c, e, h1, h2⟩
    refine ⟨c.length + 1, ?_⟩
    rcases Iter.sim_module.fwd σ next st e c (c.length + 1) h1 (Nat.lt_succ_self _) with ⟨_, _, -, -, -, h4⟩ | ⟨⟨h3, -⟩, -⟩
    · rw [h4]; exact safe_module.noFuel c
    · exact absurd h3 h2
  · intro fuel m hm
    obtain ⟨c, e, b, h1, h2⟩ := ret fuel (by rw [hm]; simp)
    rw [hm] at h2
    obtain ⟨h3, -⟩ := (parseModule_iff _ _ _).mp h2
    cases h3

/-- Zeros for ever: the magic number is wrong, four bytes are read. -/
example : Iter.parseModule Nat (streamNext fun _ => 0x00) 1 0 = (.error .invalidPreambleMagic, 4) := by rfl

/-- A run does not end if the list parser, on longer and longer initial parts, reads everything. -/
theorem never_returns {next : Next σ} {st : σ} (h : Endless next st)
    (hc : ∀ c e, Yields next st c e → ∃ t e', Yields next e t e' ∧ (parseModule (c ++ t)).2 = []) (fuel : Nat) :
    (Iter.parseModule σ next fuel st).1 = .error .fuel := by
  refine Decidable.byContradiction fun hf => ?_
  obtain ⟨c, e, h1, h2⟩ := (C68_endless next st h).1.mp ⟨fuel, hf⟩
  obtain ⟨t, e', h3, h4⟩ := hc c e h1
  generalize hr : parseModule c = r at h2
  obtain ⟨x, r⟩ := r
  cases x with
  | ok m => exact h2 ((parseModule_iff _ _ _).mp hr).1
  | error err =>
    rw [parseModule_final hr (.inr h2) t] at h4
    exact h2 (List.append_eq_nil_iff.mp h4).1

theorem stream_endless (f : Nat → Byte) (i : Nat) : Endless (streamNext f) i := by
  intro l st' _ h
  cases h

theorem stream_yields (f : Nat → Byte) : ∀ (n i : Nat), Yields (streamNext f) i ((List.range' i n).map f) (i + n)
  | 0, i => .nil _
  | n + 1, i => by
    have := stream_yields f n (i + 1)
    rw [Nat.add_assoc, Nat.add_comm 1] at this
    exact .cons rfl this

theorem stream_prefix (f : Nat → Byte) : ∀ {c : List Byte} {i e : Nat}, Yields (streamNext f) i c e → c = (List.range' i c.length).map f ∧ e = i + c.length
  | [], _, _, h => by cases h; exact ⟨rfl, rfl⟩
  | b :: c, i, e, h => by
    cases h with
    | cons hb h =>
      cases hb
      obtain ⟨h1, h2⟩ := stream_prefix f (c := c) h
      refine ⟨?_, by rw [h2, List.length_cons]; omega⟩
      rw [List.length_cons, List.range'_succ, List.map_cons, ← h1]

/-- A section id whose size never ends: preamble, `0x01`, then `0x80` for ever. -/
def endlessSize (i : Nat) : Byte := (preamble ++ [0x01]).getD i 0x80

theorem endlessSize_prefix (k : Nat) : (List.range' 0 (9 + k)).map endlessSize = preamble ++ 0x01 :: List.replicate k 0x80 := by
  rw [← List.range'_append_1, List.map_append]
  have h1 : (List.range' 0 9).map endlessSize = preamble ++ [0x01] := by decide
  have h2 : (List.range' (0 + 9) k).map endlessSize = List.replicate k 0x80 := by
    rw [List.eq_replicate_iff]
    refine ⟨by simp, fun b hb => ?_⟩
    obtain ⟨i, hi, rfl⟩ := List.mem_map.mp hb
    have := (List.mem_range'_1.mp hi).1
    have hl : (preamble ++ [(0x01 : Byte)]).length ≤ i := by simpa [preamble] using this
    rw [endlessSize, List.getD_eq_getElem?_getD, List.getElem?_eq_none hl]
    rfl
  rw [h1, h2, List.append_assoc]
  rfl

theorem step_continue (t : Nat × BitVec 32) : ∃ t', (Iter.unsignedByteLoop 32).step t 0x80 = .ok (.inr t') := by
  have h0 : (0x80 : Byte) &&& 0x7F = 0 := by decide
  have h1 : ¬ ((0x80 : Byte) &&& 0x80 = 0) := by decide
  have h2 : BitVec.ofNat 32 (0 : Byte).toNat = 0#32 := rfl
  by_cases h : t.1 ≥ 32
  · exact ⟨t, by simp only [Iter.unsignedByteLoop, if_pos h, h0, h1, if_false, ne_eq, not_true_eq_false]⟩
  · have hs : shl? (0#32) t.1 = some 0#32 := by rw [shl?, if_pos (by omega)]; simp
    have hu : ushr? (0#32) t.1 = some 0#32 := by rw [ushr?, if_pos (by omega)]; simp
    refine ⟨(t.1 + 7, t.2 ||| 0#32), ?_⟩
    simp only [Iter.unsignedByteLoop, if_neg h, h0, h2, hs, hu, h1, if_false]
    rfl

theorem u32_endless : ∀ (k : Nat) (t : Nat × BitVec 32), unsignedLoop t.1 t.2 (List.replicate k 0x80) = (.error .unexpectedEndOfFile, [])
  | 0, _ => rfl
  | k + 1, t => by
    obtain ⟨t', ht⟩ := step_continue t
    have h := (Iter.unsignedByteLoop 32).consP t 0x80 (List.replicate k 0x80)
    rw [ht] at h
    exact h.trans (u32_endless k t')

/-- **C68, witness.** A size field that is padded for ever: `Module::parse` does not return. -/
theorem C68_size (fuel : Nat) : (Iter.parseModule Nat (streamNext endlessSize) fuel 0).1 = .error .fuel := by
  refine never_returns (stream_endless _ _) (fun c e h => ?_) fuel
  obtain ⟨h1, h2⟩ := stream_prefix _ h
  refine ⟨(List.range' e 9).map endlessSize, e + 9, stream_yields _ _ _, ?_⟩
  have hc : c ++ (List.range' e 9).map endlessSize = (List.range' 0 (9 + c.length)).map endlessSize := by
    rw [Nat.add_comm 9, ← List.range'_append_1, List.map_append, ← h1, h2]
  rw [hc, endlessSize_prefix, parseModule_preamble]
  have hu : parseU32 (List.replicate c.length 0x80) = (.error .unexpectedEndOfFile, []) := u32_endless c.length (0, 0#32)
  have hs : parseSection 0x01 { lastId := 0x01 } (List.replicate c.length 0x80) = (.error .unexpectedEndOfFile, []) :=
    bind_of_error (bind_of_error hu)
  have hi : parseIteration {} (0x01 :: List.replicate c.length 0x80) = (.error .unexpectedEndOfFile, []) := hs
  have hp : parseSections (0x01 :: List.replicate c.length 0x80) = (.error .unexpectedEndOfFile, []) := bind_of_error hi
  rw [hp]

/-- **C68, negation.** So the full statement does not hold. -/
theorem C68_negation : ¬ AlwaysReturns := by
  intro h
  obtain ⟨fuel, hf⟩ := h Nat (streamNext endlessSize) 0
  exact hf (C68_size fuel)

/-- Custom sections for ever: preamble, then `0x00 0x01 0x00` again and again. -/
def endlessSections (i : Nat) : Byte := if i < 8 then preamble.getD i 0 else if (i - 8) % 3 = 1 then 0x01 else 0x00

theorem endlessSections_prefix : ∀ k, (List.range' 0 (8 + 3 * k)).map endlessSections = preamble ++ (List.replicate k [0x00, 0x01, 0x00]).flatten
  | 0 => by decide
  | k + 1 => by
    have e : 8 + 3 * (k + 1) = 8 + 3 * k + 3 := by omega
    rw [e, ← List.range'_append_1, List.map_append, endlessSections_prefix k, List.replicate_succ', List.flatten_append,
      List.append_assoc]
    have h0 : endlessSections (8 + 3 * k) = 0x00 := by
      unfold endlessSections
      rw [if_neg (by omega), if_neg (by omega)]
    have h1 : endlessSections (8 + 3 * k + 1) = 0x01 := by
      unfold endlessSections
      rw [if_neg (by omega), if_pos (by omega)]
    have h2 : endlessSections (8 + 3 * k + 1 + 1) = 0x00 := by
      unfold endlessSections
      rw [if_neg (by omega), if_neg (by omega)]
    simp only [Nat.zero_add, List.range'_succ, List.range'_zero, List.map_cons, List.map_nil, h0, h1, h2]
    rfl

theorem custom_once (st : LoopState) (r : List Byte) : parseIteration st ([0x00, 0x01, 0x00] ++ r) = (.ok st, r) := by
  rfl

theorem sections_endless : ∀ (k j : Nat) (st : LoopState), 3 * k < j →
    sectionLoop j st (List.replicate k [0x00, 0x01, 0x00]).flatten = (.ok st.result, [])
  | 0, j, st, h => by
    obtain ⟨j, rfl⟩ : ∃ i, j = i + 1 := ⟨j - 1, by omega⟩
    rfl
  | k + 1, j, st, h => by
    obtain ⟨j, rfl⟩ : ∃ i, j = i + 1 := ⟨j - 1, by omega⟩
    rw [List.replicate_succ, List.flatten_cons]
    exact (bind_of_ok (custom_once st _)).trans (sections_endless k j st (by omega))

/-- **C68, witness.** Infinitely many custom sections, every one of which is complete: `Module::parse` does not return either. -/
theorem C68_sections (fuel : Nat) : (Iter.parseModule Nat (streamNext endlessSections) fuel 0).1 = .error .fuel := by
  refine never_returns (stream_endless _ _) (fun c e h => ?_) fuel
  obtain ⟨h1, h2⟩ := stream_prefix _ h
  refine ⟨(List.range' e (8 + 2 * c.length)).map endlessSections, _, stream_yields _ _ _, ?_⟩
  have hc : c ++ (List.range' e (8 + 2 * c.length)).map endlessSections = (List.range' 0 (8 + 3 * c.length)).map endlessSections := by
    have e' : 8 + 3 * c.length = c.length + (8 + 2 * c.length) := by omega
    rw [e', ← List.range'_append_1 (s := 0) (m := c.length), List.map_append, ← h1, h2]
  rw [hc, endlessSections_prefix, parseModule_preamble]
  have hp : parseSections (List.replicate c.length [0x00, 0x01, 0x00]).flatten = (.ok {}, []) :=
    sections_endless c.length _ {} (by
      have : (List.replicate c.length [(0x00 : Byte), 0x01, 0x00]).flatten.length = 3 * c.length := by simp [Nat.mul_comm]
      rw [this]; omega)
  rw [hp]

end

end Whasm
