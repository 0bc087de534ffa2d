import Verif.Lemmas.DeclModule

/-!
# Properties C59, C60: the declarative grammar and the parsers

`/repo/whasm/src/grammar/**` is a second description of the binary format, by data types with a derive macro. It is not compiled into the
crate. The theorems compare it with the parsers of `/repo/whasm/src/binary/**`.
-/

namespace Whasm
open Decl

/-! ## C59 -/

/-- A parser and a declarative parser accept the same inputs, with the same value and the same rest; the declarative one neither panics nor
runs out of fuel. -/
def Agree {α : Type} (p : P α) (q : Q α) : Prop :=
  ∀ s, (∀ x r, q s = .ok (x, r) ↔ p s = (.ok x, r)) ∧ q s ≠ .error .panic ∧ q s ≠ .error .fuel

theorem agree_of_eq {α : Type} {p : P α} {q : Q α} (h : ofP p = q) (hp : Good p) (hf : NoFuel p) : Agree p q := by
  subst h
  intro s
  refine ⟨fun x r => ofP_ok_iff, ?_, ?_⟩
  · have := hp.noPanic s
    unfold ofP
    split
    · simp
    · rename_i e r h; cases e <;> simp_all [errorOf]
  · have := hf s
    unfold ofP
    split
    · simp
    · rename_i e r h; cases e <;> simp_all [errorOf]

/-- The value of a function body in both. -/
theorem agree_func (s : List Byte) (locals : List Val) (code : Expr) (r : List Byte) :
    dFunction s = .ok (⟨locals, code⟩, r) ↔ parseSized parseFunc s = (.ok { ty := 0, locals := locals, body := code }, r) := by
  have h1 := ofP_sized good_func.forward ofP_func
  rw [dSized_map] at h1
  rw [← ofP_ok_iff, h1]
  constructor
  · intro h; exact Q.map_ok Body.func h
  · intro h
    obtain ⟨c, s', h2, h3⟩ := bind_ok_q.mp h
    obtain ⟨l, e⟩ := c
    simp only [Body.func] at h3
    cases h3
    exact h2

/-- **C59, types.** -/
theorem C59_types : Agree parseVal dVal ∧ Agree parseRetVal dBlockType ∧ Agree parseFuncTy dFuncTy ∧ Agree parseLimits dLimits ∧
    Agree parseMemTy dMemTy ∧ Agree parseElemTy dElemTy ∧ Agree parseTableTy dTableTy ∧ Agree parseMut dMut ∧ Agree parseGlobalTy dGlobalTy :=
  ⟨agree_of_eq ofP_val good_val noFuel_val, agree_of_eq ofP_retVal good_retVal noFuel_retVal, agree_of_eq ofP_funcTy good_funcTy noFuel_funcTy,
    agree_of_eq ofP_limits good_limits noFuel_limits, agree_of_eq ofP_memTy good_memTy noFuel_memTy, agree_of_eq ofP_elemTy good_elemTy noFuel_elemTy,
    agree_of_eq ofP_tableTy good_tableTy noFuel_tableTy, agree_of_eq ofP_mut good_mut noFuel_mut, agree_of_eq ofP_globalTy good_globalTy noFuel_globalTy⟩

example : dGlobalTy [0x7E, 0x01, 0xFF] = .ok (⟨.var, .i64⟩, [0xFF]) ∧ parseGlobalTy [0x7E, 0x01, 0xFF] = (.ok ⟨.var, .i64⟩, [0xFF]) :=
  ⟨rfl, rfl⟩

/-- **C59, containers.** Vectors, run-length vectors and sized elements of anything on which the two agree, and names. -/
theorem C59_containers : Agree parseString dString ∧
    (∀ {α : Type} (p : P α) (q : Q α), Good p → NoFuel p → ofP p = q →
      Agree (parseVec p) (dVec q) ∧ Agree (parseCompactVec p) (dVecVec q) ∧ Agree (parseSized p) (dSized q)) :=
  ⟨agree_of_eq ofP_string good_string noFuel_string, fun _ _ hp hf h =>
    ⟨agree_of_eq (ofP_vec h) (good_vec hp) (noFuel_vec hf), agree_of_eq (ofP_compactVec h) (good_compactVec hp) (noFuel_compactVec hf),
      agree_of_eq (ofP_sized hp.forward h) (good_sized hp) (noFuel_sized hf)⟩⟩

example : dSized (dVecVec dVal) [0x03, 0x01, 0x02, 0x7F, 0x0B] = .ok ([.i32, .i32], [0x0B]) := by rfl
example : dSized (dVecVec dVal) [0x04, 0x01, 0x02, 0x7F, 0x0B] = .error .remainingBytesInStream := by rfl

/-- **C59, expressions.** All 172 opcodes, nested blocks, and the places of `else` and `end`. -/
theorem C59_expr : Agree parseExpr dExpr := agree_of_eq ofP_expr good_expr noFuel_expr

example : dExpr [0x41, 0x00, 0x04, 0x7F, 0x41, 0x01, 0x05, 0x41, 0x02, 0x0B, 0x0B, 0x77] =
    .ok ([.constI32 0, .ifElse [.i32] [.constI32 1] [.constI32 2]], [0x77]) := by rfl
example : dExpr [0x02, 0x40, 0x05, 0x0B, 0x0B] = .error .unexpectedInstruction := by rfl
example : dExpr [0xC0, 0x0B] = .error (.invalidEnumDiscriminant 0xC0) := by rfl

/-- **C59, elements of sections.** A function body is read by `dFunction` without the type index that `Func` also has. -/
theorem C59_items : Agree parseImport dImport ∧ Agree parseTable dTable ∧ Agree parseMem dMem ∧ Agree parseGlobal dGlobal ∧
    Agree parseExport dExport ∧ Agree parseStart dStart ∧ Agree parseElem dElement ∧ Agree parseData dData ∧
    ∀ s locals code r, dFunction s = .ok (⟨locals, code⟩, r) ↔
      parseSized parseFunc s = (.ok { ty := 0, locals := locals, body := code }, r) :=
  ⟨agree_of_eq ofP_import good_import noFuel_import, agree_of_eq ofP_table good_table noFuel_table, agree_of_eq ofP_mem good_mem noFuel_mem,
    agree_of_eq ofP_global good_global noFuel_global, agree_of_eq ofP_export good_export noFuel_export, agree_of_eq ofP_start good_start noFuel_start,
    agree_of_eq ofP_elem good_elem noFuel_elem, agree_of_eq ofP_data good_data noFuel_data, agree_func⟩

example : dElement [0x00, 0x41, 0x05, 0x0B, 0x02, 0x01, 0x00, 0x33] = .ok ({ table := 0, offset := [.constI32 5], init := [1, 0] }, [0x33]) := by rfl

/-! ## C60 -/

/-- **C60.** `Module::parse` accepts a stream iff the declarative grammar does, the sections other than custom ones come in strictly
increasing order, and a code section has as many bodies as the function section (if any) has types. The module is the one those sections
denote. -/
theorem C60_module (s : List Byte) (m : Module) : parseModule s = (.ok m, []) ↔
    ∃ secs, dModule s = .ok (secs, []) ∧ (ids secs).Pairwise (· < ·) ∧
      (∀ c, .code c ∈ secs → c.length = (funcsOf secs).length) ∧ m = assemble secs :=
  parseModule_sections s m []

/-- The bytes of the test of `grammar/mod.rs:71-77`, which are also those of `/repo/test.wasm`. -/
def testWasm : List Byte :=
  [0x00, 0x61, 0x73, 0x6d, 0x01, 0x00, 0x00, 0x00, 0x01, 0x85, 0x80, 0x80, 0x80, 0x00, 0x01, 0x60,
   0x00, 0x01, 0x7f, 0x03, 0x82, 0x80, 0x80, 0x80, 0x00, 0x01, 0x00, 0x04, 0x84, 0x80, 0x80, 0x80,
   0x00, 0x01, 0x70, 0x00, 0x00, 0x06, 0x81, 0x80, 0x80, 0x80, 0x00, 0x00, 0x07, 0x88, 0x80, 0x80,
   0x80, 0x00, 0x01, 0x04, 0x74, 0x65, 0x73, 0x74, 0x00, 0x00, 0x0a, 0x8a, 0x80, 0x80, 0x80, 0x00,
   0x01, 0x84, 0x80, 0x80, 0x80, 0x00, 0x00, 0x41, 0x2a, 0x0b]

/-- The sections that test expects, `grammar/mod.rs:81-113`. -/
def testSections : List Decl.Sec :=
  [.types [⟨[], [.i32]⟩], .funcs [0], .tables [⟨⟨⟨0, none⟩, .funcRef⟩⟩], .globals [], .exports [⟨[0x74, 0x65, 0x73, 0x74], .func 0⟩],
   .code [⟨[], [.constI32 42]⟩]]

example : dModule testWasm = .ok (testSections, []) := by rfl

example : parseModule testWasm = (.ok {
    types := [⟨[], [.i32]⟩]
    funcs := [{ ty := 0, locals := [], body := [.constI32 42] }]
    tables := [⟨⟨⟨0, none⟩, .funcRef⟩⟩]
    exports := [⟨[0x74, 0x65, 0x73, 0x74], .func 0⟩] }, []) :=
  (C60_module testWasm _).mpr ⟨testSections, rfl, by decide +kernel, by
    intro c hc
    simp only [testSections, List.mem_cons, List.not_mem_nil, or_false, reduceCtorEq, false_or, Sec.code.injEq] at hc
    subst hc; rfl, rfl⟩

/-- **C60, no other outcome.** The declarative grammar reads a stream to its end or rejects it. It does not panic, and a rejection by it is a
rejection by `Module::parse`. -/
theorem C60_total (s : List Byte) : (∃ secs, dModule s = .ok (secs, [])) ∨
    ((∃ e, dModule s = .error e ∧ e ≠ .panic ∧ e ≠ .fuel) ∧ ∀ m, parseModule s ≠ (.ok m, [])) := by
  rcases dModule_total s with h | ⟨e, h, he⟩
  · exact .inl h
  · refine .inr ⟨⟨e, h, he⟩, fun m hm => ?_⟩
    obtain ⟨secs, h1, _⟩ := (C60_module s m).mp hm
    rw [h] at h1; cases h1

/-- **C60, the difference.** Sections out of order, a section that is given twice, and a code section without a function section: accepted
by the declarative grammar, rejected by `Module::parse`. -/
theorem C60_difference :
    (∃ s, dModule s = .ok ([.funcs [], .types []], []) ∧ ∀ m, parseModule s ≠ (.ok m, [])) ∧
    (∃ s, dModule s = .ok ([.types [], .types []], []) ∧ ∀ m, parseModule s ≠ (.ok m, [])) ∧
    (∃ s, dModule s = .ok ([.code [⟨[], []⟩]], []) ∧ ∀ m, parseModule s ≠ (.ok m, [])) := by
  have key : ∀ {s : List Byte} {secs : List Decl.Sec}, dModule s = .ok (secs, []) →
      (¬ (ids secs).Pairwise (· < ·) ∨ ∃ c, Decl.Sec.code c ∈ secs ∧ c.length ≠ (funcsOf secs).length) → ∀ m, parseModule s ≠ (.ok m, []) := by
    intro s secs h hc m hm
    obtain ⟨secs', h1, h2, h3, _⟩ := (C60_module s m).mp hm
    rw [h] at h1
    simp only [Except.ok.injEq, Prod.mk.injEq, and_true] at h1
    subst h1
    rcases hc with hc | ⟨c, h4, h5⟩
    · exact hc h2
    · exact h5 (h3 c h4)
  refine ⟨⟨[0x00, 0x61, 0x73, 0x6d, 0x01, 0x00, 0x00, 0x00, 0x03, 0x01, 0x00, 0x01, 0x01, 0x00], by rfl, key (secs := [.funcs [], .types []])
      (by rfl) (.inl (by decide +kernel))⟩,
    ⟨[0x00, 0x61, 0x73, 0x6d, 0x01, 0x00, 0x00, 0x00, 0x01, 0x01, 0x00, 0x01, 0x01, 0x00], by rfl, key (secs := [.types [], .types []])
      (by rfl) (.inl (by decide +kernel))⟩,
    ⟨[0x00, 0x61, 0x73, 0x6d, 0x01, 0x00, 0x00, 0x00, 0x0A, 0x04, 0x01, 0x02, 0x00, 0x0B], by rfl, key (secs := [.code [⟨[], []⟩]])
      (by rfl) (.inr ⟨[⟨[], []⟩], by simp, by simp [funcsOf]⟩)⟩⟩

end Whasm
