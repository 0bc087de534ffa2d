import Verif.Lemmas.DeclErrors
import Verif.Props.Declarative

/-!
# Property C89: the declarative grammar and the parsers fail for the same reason
-/

namespace Whasm
open Decl Spec

/-- A parser and a declarative parser fail on the same inputs, with errors that stand for the same reason. -/
def FailAlike {α β : Type} (p : P α) (q : Q β) : Prop :=
  ∀ s, (∀ e r, p s = (.error e, r) → ∃ d, q s = .error d ∧ SameReason e d) ∧
    (∀ d, q s = .error d → ∃ e r, p s = (.error e, r) ∧ SameReason e d)

theorem failAlike_of_eq {α : Type} {p : P α} {q : Q α} (h : ofP p = q) (hn : Named p) : FailAlike p q := by
  subst h
  intro s
  constructor
  · intro e r hp
    exact ⟨errorOf e, by unfold ofP; rw [hp], hn s e r hp⟩
  · intro d hd
    unfold ofP at hd
    match hp : p s with
    | (.ok x, r) => rw [hp] at hd; cases hd
    | (.error e, r) => rw [hp] at hd; cases hd; exact ⟨e, r, rfl, hn s e r hp⟩

theorem eq_of_alike {α : Type} {p : P α} {q : Q α} (h1 : Agree p q) (h2 : FailAlike p q) : ofP p = q ∧ Named p := by
  constructor
  · funext s
    unfold ofP
    match hp : p s with
    | (.ok x, r) => exact (((h1 s).1 x r).mpr hp).symm
    | (.error e, r) =>
      obtain ⟨d, hd, hs⟩ := (h2 s).1 e r hp
      simp only [hd, errorOf_same hs]
  · intro s e r hp
    obtain ⟨d, _, hs⟩ := (h2 s).1 e r hp
    rw [errorOf_same hs]; exact hs

theorem failAlike_of_tells {α : Type} {p : P α} {q : Q α} (h : ofP p = q) (ht : Tells (fun k => k = 12) [] p) (hg : Good p) (hf : NoFuel p) :
    FailAlike p q := failAlike_of_eq h (named_of_tells ht (hg.safe hf))

/-- **C89, types.** -/
theorem C89_types : FailAlike parseVal dVal ∧ FailAlike parseRetVal dBlockType ∧ FailAlike parseFuncTy dFuncTy ∧ FailAlike parseLimits dLimits ∧
    FailAlike parseMemTy dMemTy ∧ FailAlike parseElemTy dElemTy ∧ FailAlike parseTableTy dTableTy ∧ FailAlike parseMut dMut ∧
    FailAlike parseGlobalTy dGlobalTy :=
  ⟨failAlike_of_tells ofP_val tells_val good_val noFuel_val, failAlike_of_tells ofP_retVal tells_retVal good_retVal noFuel_retVal,
    failAlike_of_tells ofP_funcTy tells_funcTy good_funcTy noFuel_funcTy, failAlike_of_tells ofP_limits tells_limits good_limits noFuel_limits,
    failAlike_of_tells ofP_memTy tells_memTy good_memTy noFuel_memTy, failAlike_of_tells ofP_elemTy tells_elemTy good_elemTy noFuel_elemTy,
    failAlike_of_tells ofP_tableTy tells_tableTy good_tableTy noFuel_tableTy, failAlike_of_tells ofP_mut tells_mut good_mut noFuel_mut,
    failAlike_of_tells ofP_globalTy tells_globalTy good_globalTy noFuel_globalTy⟩

example : dGlobalTy [0x7E, 0x02] = .error (.invalidEnumDiscriminant 0x02) ∧
    ∃ ty, parseGlobalTy [0x7E, 0x02] = (.error (.invalidVariantId 0x02 ty), []) := ⟨rfl, _, rfl⟩
example : dLimits [0x00, 0xFF, 0xFF, 0xFF, 0xFF, 0x1F] = .error .outOfRangeUnsignedInteger := by rfl

/-- **C89, containers.** Names, and vectors, run-length vectors and sized elements of anything on which the two agree in values and in errors. -/
theorem C89_containers : FailAlike parseString dString ∧
    (∀ {α : Type} (p : P α) (q : Q α), Good p → Agree p q → FailAlike p q →
      FailAlike (parseVec p) (dVec q) ∧ FailAlike (parseCompactVec p) (dVecVec q) ∧ FailAlike (parseSized p) (dSized q)) := by
  refine ⟨failAlike_of_tells ofP_string tells_string good_string noFuel_string, fun p q hp h1 h2 => ?_⟩
  obtain ⟨h3, h4⟩ := eq_of_alike h1 h2
  exact ⟨failAlike_of_eq (ofP_vec h3) (named_vec h4), failAlike_of_eq (ofP_compactVec h3) (named_compactVec h4),
    failAlike_of_eq (ofP_sized hp.forward h3) (named_sized h4)⟩

example : dVec dVal [0x02, 0x7F, 0x6F] = .error (.invalidEnumDiscriminant 0x6F) ∧ dVec dVal [0x02, 0x7F] = .error .unexpectedEndOfStream ∧
    dString [0x01, 0x80] = .error .fromUtf8 ∧ dSized dVal [0x02, 0x7F, 0x7F] = .error .remainingBytesInStream := ⟨rfl, rfl, rfl, rfl⟩

/-- **C89, expressions.** -/
theorem C89_expr : FailAlike parseExpr dExpr := failAlike_of_tells ofP_expr tells_expr good_expr noFuel_expr

example : dExpr [0x41, 0xFF, 0xFF, 0xFF, 0xFF, 0x3F, 0x0B] = .error .outOfRangeSignedInteger ∧
    dExpr [0x04, 0x40, 0x05, 0x05, 0x0B, 0x0B] = .error .unexpectedInstruction := ⟨rfl, rfl⟩

/-- **C89, elements of sections.** -/
theorem C89_items : FailAlike parseImport dImport ∧ FailAlike parseTable dTable ∧ FailAlike parseMem dMem ∧ FailAlike parseGlobal dGlobal ∧
    FailAlike parseExport dExport ∧ FailAlike parseStart dStart ∧ FailAlike parseElem dElement ∧ FailAlike parseData dData ∧
    FailAlike (parseSized parseFunc) dFunction := by
  refine ⟨failAlike_of_tells ofP_import tells_import good_import noFuel_import, failAlike_of_tells ofP_table tells_table good_table noFuel_table,
    failAlike_of_tells ofP_mem tells_mem good_mem noFuel_mem, failAlike_of_tells ofP_global tells_global good_global noFuel_global,
    failAlike_of_tells ofP_export tells_export good_export noFuel_export, failAlike_of_tells ofP_start tells_start good_start noFuel_start,
    failAlike_of_tells ofP_elem tells_elem good_elem noFuel_elem, failAlike_of_tells ofP_data tells_data good_data noFuel_data, ?_⟩
  have h1 := failAlike_of_eq (ofP_sized good_func.forward ofP_func) named_func
  rw [dSized_map] at h1
  intro s
  constructor
  · intro e r hp
    obtain ⟨d, hd, hs⟩ := (h1 s).1 e r hp
    refine ⟨d, ?_, hs⟩
    match hq : dFunction s with
    | .ok (c, r') =>
      have := Q.map_ok (q := dFunction) Body.func hq
      exfalso
      exact absurd (this.symm.trans hd) (by simp)
    | .error d' =>
      have := Q.map_error (q := dFunction) Body.func hq
      cases this.symm.trans hd
      rfl
  · intro d hd
    exact (h1 s).2 d (Q.map_error (q := dFunction) Body.func hd)

example : dFunction [0x03, 0x00, 0x0B, 0x0B] = .error .remainingBytesInStream ∧ dFunction [0x02, 0x00, 0x05] = .error .unexpectedInstruction ∧
    dImport [0x00, 0x00, 0x04] = .error (.invalidEnumDiscriminant 0x04) := ⟨rfl, rfl, rfl⟩

/-- What `Module::parse` complains of and the declarative grammar does not, in the stream `s`: after a part of the stream that makes a module of its own
there is a section out of order, or a code section with another number of bodies than the function section has types. -/
def Early (s : List Byte) (e : Error) : Prop :=
  ∃ s1 s2 secs, s = s1 ++ s2 ∧ dModule s1 = .ok (secs, []) ∧ (ids secs).Pairwise (· < ·) ∧
    (∀ c, .code c ∈ secs → c.length = (funcsOf secs).length) ∧
    ((∃ id rest, s2 = id :: rest ∧ id ≠ 0 ∧ (∃ k ∈ ids secs, id ≤ k) ∧ e = .unexpectedSectionId id) ∨
     (∃ c rest, dSection s2 = .ok (.code c, rest) ∧ (∀ k ∈ ids secs, k < 10) ∧ c.length ≠ (funcsOf secs).length ∧ e = .unexpectedEndOfFile))

theorem early_iff (b : List Byte) (e : Error) : Early (preamble ++ b) e ↔ LoopEarly {} b e := by
  rw [loopEarly_iff]
  constructor
  · rintro ⟨s1, s2, secs, h1, h2, h3⟩
    rcases module_split s1 with ⟨b1, rfl⟩ | ⟨_, _, _, _, h4⟩
    · rw [List.append_assoc] at h1
      exact ⟨b1, s2, secs, List.append_cancel_left h1, h2, h3⟩
    · rw [h4] at h2; cases h2
  · rintro ⟨c, t, secs, rfl, h2, h3⟩
    exact ⟨preamble ++ c, t, secs, by rw [List.append_assoc], h2, h3⟩

theorem early_preamble {s : List Byte} {e : Error} (h : Early s e) : ∃ b, s = preamble ++ b := by
  obtain ⟨s1, s2, secs, rfl, h2, _⟩ := h
  rcases module_split s1 with ⟨b1, rfl⟩ | ⟨_, _, _, _, h4⟩
  · exact ⟨b1 ++ s2, by rw [List.append_assoc]⟩
  · rw [h4] at h2; cases h2

/-- **C89, modules.** Whenever there is something of which only `Module::parse` complains, it fails with that error. Any other error of `Module::parse` is an
error of the declarative grammar for the same reason, and an error of the declarative grammar is one of `Module::parse` for the same reason unless
`Module::parse` complained before. -/
theorem C89_module (s : List Byte) : (∀ e, Early s e → ∃ r, parseModule s = (.error e, r)) ∧
    (∀ e r, parseModule s = (.error e, r) → Early s e ∨ ∃ d, dModule s = .error d ∧ SameReason e d) ∧
    (∀ d, dModule s = .error d → ∃ e r, parseModule s = (.error e, r) ∧ (Early s e ∨ SameReason e d)) := by
  have h2 : ∀ e r, parseModule s = (.error e, r) → Early s e ∨ ∃ d, dModule s = .error d ∧ SameReason e d := by
    intro e r h
    rcases module_split s with ⟨b, rfl⟩ | ⟨e', r', h1, h2, h3⟩
    · rw [parseModule_preamble] at h
      rcases loop_fails (b.length + 1) {} b e r (by omega) h with h1 | ⟨h1, h2⟩
      · exact .inl ((early_iff b e).mpr h1)
      · exact .inr ⟨_, h2, h1⟩
    · rw [h1] at h; cases h; exact .inr ⟨_, h3, h2⟩
  refine ⟨fun e h => ?_, h2, fun d hd => ?_⟩
  · obtain ⟨b, rfl⟩ := early_preamble h
    rw [parseModule_preamble]
    exact loop_early (by omega) ((early_iff b e).mp h)
  · match h : parseModule s with
    | (.ok m, r) =>
      obtain ⟨secs, h1, _⟩ := (parseModule_sections s m r).mp h
      rw [hd] at h1; cases h1
    | (.error e, r) =>
      refine ⟨e, r, rfl, (h2 e r h).imp_right ?_⟩
      rintro ⟨d', h3, h4⟩
      rw [hd] at h3; cases h3; exact h4

/-- A type section of which the second entry starts with a wrong byte: the same reason. -/
example : dModule (preamble ++ [0x01, 0x05, 0x02, 0x60, 0x00, 0x00, 0x61]) = .error (.invalidEnumDiscriminant 0x61) ∧
    ∃ ty r, parseModule (preamble ++ [0x01, 0x05, 0x02, 0x60, 0x00, 0x00, 0x61]) = (.error (.invalidVariantId 0x61 ty), r) := ⟨rfl, _, _, rfl⟩

/-- Two empty type sections, the second with a length that is too large: the grammar misses bytes, `Module::parse` has complained of the order. -/
example : dModule (preamble ++ [0x01, 0x01, 0x00, 0x01, 0x07, 0x00]) = .error .remainingBytesInStream ∧
    Early (preamble ++ [0x01, 0x01, 0x00, 0x01, 0x07, 0x00]) (.unexpectedSectionId 0x01) :=
  ⟨rfl, preamble ++ [0x01, 0x01, 0x00], [0x01, 0x07, 0x00], [.types []], rfl, rfl, by decide +kernel, by simp,
    .inl ⟨0x01, _, rfl, by decide, ⟨0x01, by decide +kernel, by decide⟩, rfl⟩⟩

/-- A body without a type, then bytes that are no section: `Module::parse` complains of the number of bodies. -/
example : dModule (preamble ++ [0x0A, 0x04, 0x01, 0x02, 0x00, 0x0B, 0x0C]) = .error (.invalidEnumDiscriminant 0x0C) ∧
    Early (preamble ++ [0x0A, 0x04, 0x01, 0x02, 0x00, 0x0B, 0x0C]) .unexpectedEndOfFile :=
  ⟨rfl, preamble, [0x0A, 0x04, 0x01, 0x02, 0x00, 0x0B, 0x0C], [], rfl, rfl, by decide +kernel, by simp,
    .inr ⟨[⟨[], []⟩], [0x0C], rfl, by simp [ids], by simp [funcsOf], rfl⟩⟩

end Whasm
