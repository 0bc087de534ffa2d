import Verif.Lemmas.Sections
import Verif.Spec.Cut

/-!
# The parser on a stream that ends too early or goes on
-/

namespace Whasm
open Spec

/-! ## Errors that further bytes do not change -/

theorem good_section (id : Byte) (hid : id ≠ 0) (st : LoopState) : Good (parseSection id st) := by
  unfold parseSection
  split
  case h_1 h => exact (hid (byte_of_toNat h)).elim
  case h_9 => exact (good_sized good_start).bind fun _ => good_pure _
  case h_11 =>
    refine (good_sized ?_).bind fun x => ?_
    · rw [unwrappingVec_id]
      exact good_vec (good_sized good_func)
    · simp only
      split
      · exact good_fail (by simp)
      · rename_i hx
        rw [Decidable.not_not] at hx
        rw [assignTys_eq _ _ hx.symm]
        exact good_pure _
  case h_13 => exact good_fail (by simp)
  all_goals
    first
      | exact (good_sized (good_vec good_funcTy)).bind fun _ => good_pure _
      | exact (good_sized (good_vec good_import)).bind fun _ => good_pure _
      | exact (good_sized (good_vec good_idx)).bind fun _ => good_pure _
      | exact (good_sized (good_vec good_table)).bind fun _ => good_pure _
      | exact (good_sized (good_vec good_mem)).bind fun _ => good_pure _
      | exact (good_sized (good_vec good_global)).bind fun _ => good_pure _
      | exact (good_sized (good_vec good_export)).bind fun _ => good_pure _
      | exact (good_sized (good_vec good_elem)).bind fun _ => good_pure _
      | exact (good_sized (good_vec good_data)).bind fun _ => good_pure _

/-- `p` on `s` reports the end of the input or a wrong size at the end of the input, or what follows `s` makes no difference. -/
def Half {α : Type} (p : P α) (s : List Byte) : Prop :=
  p s = (.error .unexpectedEndOfFile, []) ∨ p s = (.error .sizeMissmatch, []) ∨ ∀ t, p (s ++ t) = ((p s).1, (p s).2 ++ t)

theorem Good.half {α : Type} {p : P α} (h : Good p) (s : List Byte) : Half p s := (h.stream s).imp_right .inr

theorem Half.bind {α β : Type} {p : P α} {f : α → P β} {s : List Byte} (hp : Half p s) (hf : ∀ x s, Half (f x) s) : Half (p >>= f) s := by
  rcases hp with h | h | h
  · exact .inl (bind_of_error h)
  · exact .inr (.inl (bind_of_error h))
  · rcases bind_cases p f s with ⟨x, s', h1, h2⟩ | ⟨e, s', h1, h2⟩
    · rw [h1] at h
      rcases hf x s' with h3 | h3 | h3
      · exact .inl (by rw [h2, h3])
      · exact .inr (.inl (by rw [h2, h3]))
      · exact .inr (.inr fun t => by rw [h2, bind_of_ok (h t), h3])
    · rw [h1] at h
      exact .inr (.inr fun t => by rw [h2, bind_of_error (h t)])

theorem custom_outcome (s : List Byte) : (∃ x, parseCustom s = (.ok x, [])) ∨ (∃ e r, parseString s = (.error e, r) ∧ parseCustom s = (.error e, r)) := by
  rcases bind_cases parseString (fun name => parseConsume >>= fun n => (pure (name, n) : P (Name × Nat))) s with ⟨x, s', h1, h2⟩ | ⟨e, s', h1, h2⟩
  · exact .inl ⟨(x, s'.length), h2⟩
  · exact .inr ⟨e, s', h1, h2⟩

theorem half_customBody (n : Nat) (s : List Byte) : Half (sizedBody parseCustom n) s := by
  by_cases hn : n ≤ s.length
  · refine .inr (.inr fun t => ?_)
    unfold sizedBody
    rw [List.take_append_of_le_length hn, List.drop_append_of_le_length hn]
    rcases parseCustom (s.take n) with ⟨e | x, r⟩
    · simp
    · simp only; split <;> simp
  · have ht : s.take n = s := List.take_of_length_le (by omega)
    have hd : s.drop n = [] := List.drop_of_length_le (by omega)
    rcases custom_outcome s with ⟨x, hx⟩ | ⟨e, r, h1, h2⟩
    · refine .inr (.inl ?_)
      unfold sizedBody
      rw [ht, hd, hx]
      simp only
      rw [if_pos (by simp; omega)]; rfl
    · rcases good_string.stream s with h3 | h3
      · refine .inl ?_
        rw [h3] at h1; cases h1
        unfold sizedBody
        rw [ht, hd, h2]; rfl
      · refine .inr (.inr fun t => ?_)
        obtain ⟨k, rfl⟩ : ∃ k, n = s.length + k := ⟨n - s.length, by omega⟩
        have h4 := h3 (t.take k)
        rw [h1] at h4
        have h5 : parseCustom (s ++ t.take k) = (.error e, r ++ t.take k) := bind_of_error h4
        unfold sizedBody
        rw [List.take_length_add_append, List.drop_length_add_append, h5, ht, hd, h2]
        simp

theorem half_section (id : Byte) (st : LoopState) (s : List Byte) : Half (parseSection id st) s := by
  by_cases hid : id = 0
  · subst hid
    show Half (parseSized parseCustom >>= fun _ => (pure st : P LoopState)) s
    rw [parseSized_eq]
    exact ((good_u32.half s).bind fun n s => half_customBody n.toNat s).bind fun _ s => (good_pure _).half s
  · exact (good_section id hid st).half s

theorem half_iteration (st : LoopState) (s : List Byte) : Half (parseIteration st) s := by
  refine (good_byte.half s).bind fun id s => ?_
  split
  · split
    · exact (good_fail (by simp)).half s
    · exact half_section _ _ s
  · exact half_section _ _ s

/-- An error that is neither an end of input nor a wrong size, or that leaves something unread. -/
def Definite (e : Error) (r : List Byte) : Prop := (e ≠ .unexpectedEndOfFile ∧ e ≠ .sizeMissmatch) ∨ r ≠ []

theorem sectionLoop_final : ∀ (fuel : Nat) (st : LoopState) (s : List Byte) (e : Error) (r : List Byte), s.length < fuel →
    sectionLoop fuel st s = (.error e, r) → Definite e r → ∀ t fuel', (s ++ t).length < fuel' →
    sectionLoop fuel' st (s ++ t) = (.error e, r ++ t) := by
  intro fuel
  induction fuel with
  | zero => intro st s e r h; omega
  | succ fuel ih =>
    intro st s e r hs h hd t fuel' hf
    cases s with
    | nil => cases h
    | cons c s =>
      obtain ⟨fuel', rfl⟩ : ∃ n, fuel' = n + 1 := ⟨fuel' - 1, by omega⟩
      show (parseIteration st >>= _) (c :: s ++ t) = _
      have h : (parseIteration st >>= sectionLoop fuel) (c :: s) = (.error e, r) := h
      rcases bind_cases (parseIteration st) (sectionLoop fuel) (c :: s) with ⟨st', s', h1, h2⟩ | ⟨e', s', h1, h2⟩
      · rw [h] at h2
        have hc := iteration_consumes st h1
        rcases half_iteration st (c :: s) with h3 | h3 | h3
        · rw [h1] at h3; cases h3
        · rw [h1] at h3; cases h3
        · rw [h1] at h3
          rw [bind_of_ok (h3 t)]
          refine ih st' s' e r ?_ h2.symm hd t fuel' ?_
          · simp only [List.length_cons] at hs hc; omega
          · simp only [List.length_append, List.length_cons] at hf hc ⊢; omega
      · rw [h] at h2; cases h2
        rcases half_iteration st (c :: s) with h3 | h3 | h3
        · rw [h1] at h3; cases h3; rcases hd with hd | hd
          · exact (hd.1 rfl).elim
          · exact (hd rfl).elim
        · rw [h1] at h3; cases h3; rcases hd with hd | hd
          · exact (hd.2 rfl).elim
          · exact (hd rfl).elim
        · rw [h1] at h3
          exact bind_of_error (h3 t)

theorem parseModule_final {s : List Byte} {e : Error} {r : List Byte} (h : parseModule s = (.error e, r)) (hd : Definite e r) (t : List Byte) :
    parseModule (s ++ t) = (.error e, r ++ t) := by
  have g4 := good_parseN good_byte 4
  have absurdEof : ∀ {α : Type} {x : Except Error α × List Byte}, x = (.error .unexpectedEndOfFile, []) → x ≠ (.error e, r) ∨ False := by
    intro α x hx
    refine .inl fun hc => ?_
    rw [hx] at hc; cases hc
    rcases hd with hd | hd
    · exact hd.1 rfl
    · exact hd rfl
  unfold parseModule at h ⊢
  rcases g4.stream s with h1 | h1
  · rw [bind_of_error h1] at h
    rcases absurdEof rfl with h' | h' <;> contradiction
  rcases bind_cases (parseN 4 parseByte) (fun magic => if magic.map (fun b => b.toNat) ≠ magicChars.map (fun c => c.toNat) then
      P.fail .invalidPreambleMagic
    else do
      let version ← parseN 4 parseByte
      if version ≠ [1, 0, 0, 0] then P.fail .invalidPreambleVersion
      else parseSections) s with ⟨x, s', h2, h3⟩ | ⟨e', s', h2, h3⟩
  · have h := h3.symm.trans h
    rw [h2] at h1
    refine (bind_of_ok (h1 t)).trans ?_
    split at h
    · rename_i hm; rw [if_pos hm]; cases h; rfl
    · rename_i hm
      rw [if_neg hm]
      rcases g4.stream s' with k1 | k1
      · rw [bind_of_error k1] at h
        rcases absurdEof rfl with h' | h' <;> contradiction
      rcases bind_cases (parseN 4 parseByte) (fun version => if version ≠ [1, 0, 0, 0] then P.fail .invalidPreambleVersion
        else parseSections) s' with ⟨y, s'', k2, k3⟩ | ⟨e', s'', k2, k3⟩
      · have h := k3.symm.trans h
        rw [k2] at k1
        refine (bind_of_ok (k1 t)).trans ?_
        split at h
        · rename_i hm; rw [if_pos hm]; cases h; rfl
        · rename_i hm
          rw [if_neg hm]
          exact sectionLoop_final _ _ _ _ _ (Nat.lt_succ_self _) h hd t _ (Nat.lt_succ_self _)
      · have h := k3.symm.trans h
        cases h
        rw [k2] at k1
        exact bind_of_error (k1 t)
  · have h := h3.symm.trans h
    cases h
    rw [h2] at h1
    exact bind_of_error (h1 t)

/-! ## Prefixes of accepted modules -/

/-- The sections before a cut are accepted on their own. -/
theorem loop_split {b1 b2 : List Byte} {secs : List (Byte × List Byte)} (h1 : RawSecs b1 secs) {j : Nat} {s : SecState} {m : Module}
    (h : Loop j s (b1 ++ b2) m) : ∃ m1, Loop j s b1 m1 := by
  induction h1 generalizing j s with
  | nil => exact ⟨s.2, .done⟩
  | cons hg hu _ ih =>
    rw [List.cons_append, List.append_assoc, List.append_assoc, loop_cons_iff hg hu] at h
    rcases h with ⟨rfl, h1, h2⟩ | ⟨s', h0, h1, h2⟩
    · obtain ⟨m1, k⟩ := ih h2
      exact ⟨m1, (loop_cons_iff hg hu).mpr (.inl ⟨rfl, h1, k⟩)⟩
    · obtain ⟨m1, k⟩ := ih h2
      exact ⟨m1, (loop_cons_iff hg hu).mpr (.inr ⟨s', h0, h1, k⟩)⟩

/-- A prefix of a sequence of sections ends between two sections or within one. -/
theorem rawSecs_cut {b : List Byte} {secs : List (Byte × List Byte)} (h : RawSecs b secs) : ∀ {x y : List Byte}, b = x ++ y →
    (∃ secs1 secs2, secs = secs1 ++ secs2 ∧ RawSecs x secs1) ∨
    ∃ b1 id g c x' y' bs secs1, RawSecs b1 secs1 ∧ Group g ∧ uval g = c.length ∧ g ++ c = x' ++ y' ∧ y' ≠ [] ∧
      x = b1 ++ id :: x' ∧ y = y' ++ bs := by
  induction h with
  | nil =>
    intro x y e
    obtain ⟨rfl, rfl⟩ := List.append_eq_nil_iff.mp e.symm
    exact .inl ⟨[], [], rfl, .nil⟩
  | @cons id g c bs secs hg hu hr ih =>
    intro x y e
    cases x with
    | nil => exact .inl ⟨[], _, rfl, .nil⟩
    | cons d x =>
      obtain ⟨rfl, e'⟩ := List.cons.inj (e : id :: (g ++ (c ++ bs)) = d :: (x ++ y))
      clear e
      rw [← List.append_assoc] at e'
      rcases List.append_eq_append_iff.mp e' with ⟨z, rfl, rfl⟩ | ⟨z, e1, rfl⟩
      · rcases ih rfl with ⟨s1, s2, rfl, k⟩ | ⟨b1, id', g', c', x', y', bs', secs1, k1, k2, k3, k4, k5, rfl, rfl⟩
        · refine .inl ⟨(id, c) :: s1, s2, rfl, ?_⟩
          rw [List.append_assoc]; exact .cons hg hu k
        · refine .inr ⟨id :: (g ++ (c ++ b1)), id', g', c', x', y', bs', (id, c) :: secs1, .cons hg hu k1, k2, k3, k4, k5, ?_, rfl⟩
          simp
      · by_cases hz : z = []
        · subst hz
          refine .inl ⟨[(id, c)], secs, rfl, ?_⟩
          have : x = g ++ (c ++ []) := by simpa using e1.symm
          rw [this]; exact .cons hg hu .nil
        · exact .inr ⟨[], id, g, c, x, z, bs, [], .nil, hg, hu, e1, hz, rfl, rfl⟩

theorem sec_unique {id : Byte} (hid : id ≠ 0) {s s1 s2 : SecState} {b : List Byte} (h1 : Sec id.toNat s b s1) (h2 : Sec id.toNat s b s2) :
    s1 = s2 := by
  have k1 := (parses_section id hid ⟨s.1, s.2, 0⟩ b _ []).mpr ⟨b, by simp, s1, h1, rfl⟩
  have k2 := (parses_section id hid ⟨s.1, s.2, 0⟩ b _ []).mpr ⟨b, by simp, s2, h2, rfl⟩
  rw [k1] at k2
  cases s1; cases s2
  cases k2
  rfl

/-- The state of the loop after an accepted sequence of sections. -/
theorem loop_reach {b : List Byte} {secs : List (Byte × List Byte)} (hb : RawSecs b secs) : ∀ {st : LoopState} {m : Module},
    Loop st.lastId.toNat (st.funcTypes, st.result) b m → ∃ st', st'.result = m ∧ st'.lastId.toNat = max st.lastId.toNat (topId secs) ∧
      (∀ t m', Loop st.lastId.toNat (st.funcTypes, st.result) (b ++ t) m' → Loop st'.lastId.toNat (st'.funcTypes, st'.result) t m') ∧
      ∀ t fuel, (b ++ t).length < fuel → ∃ fuel', sectionLoop fuel st (b ++ t) = sectionLoop fuel' st' t ∧ t.length < fuel' := by
  induction hb with
  | nil =>
    intro st m h
    cases h
    exact ⟨st, rfl, by simp [topId, secIds], fun t m' h => h, fun t fuel hf => ⟨fuel, rfl, hf⟩⟩
  | @cons id g c bs secs hg hu _ ih =>
    intro st m h
    have hstep : ∀ t fuel st', parseIteration st (id :: (g ++ c) ++ (bs ++ t)) = (.ok st', bs ++ t) →
        sectionLoop (fuel + 1) st (id :: (g ++ (c ++ bs)) ++ t) = sectionLoop fuel st' (bs ++ t) := by
      intro t fuel st' hs
      have : id :: (g ++ (c ++ bs)) ++ t = id :: (g ++ c) ++ (bs ++ t) := by simp
      rw [this]
      show (parseIteration st >>= _) _ = _
      rw [bind_of_ok hs]
    have hre : ∀ t, id :: (g ++ (c ++ bs)) ++ t = id :: (g ++ (c ++ (bs ++ t))) := by intro t; simp
    rcases (loop_cons_iff hg hu).mp h with ⟨rfl, h1, h2⟩ | ⟨s', h0, h1, h2⟩
    · obtain ⟨st', k1, k2, k3, k4⟩ := ih h2
      have he : topId ((0, c) :: secs) = topId secs := by simp [topId, secIds]
      refine ⟨st', k1, by rw [he, k2], fun t m' h => ?_, fun t fuel hf => ?_⟩
      · rw [hre] at h
        rcases (loop_cons_iff hg hu).mp h with ⟨_, _, h3⟩ | ⟨_, h3, _⟩
        · exact k3 t m' h3
        · simp at h3
      · obtain ⟨fuel, rfl⟩ : ∃ n, fuel = n + 1 := ⟨fuel - 1, by omega⟩
        rw [hstep t fuel st ((parses_iteration st _ st (bs ++ t)).mpr ⟨0 :: (g ++ c), rfl, .inl ⟨_, rfl, h1, rfl⟩⟩)]
        refine k4 t fuel ?_
        simp only [List.length_append, List.length_cons] at hf ⊢; omega
    · have hid : id.toNat ≠ 0 := by omega
      obtain ⟨st', k1, k2, k3, k4⟩ := ih (st := ⟨s'.1, s'.2, id⟩) h2
      have he : topId ((id, c) :: secs) = max id.toNat (topId secs) := by simp [topId, secIds, hid]
      refine ⟨st', k1, ?_, fun t m' h => ?_, fun t fuel hf => ?_⟩
      · rw [he, k2]; simp only; omega
      · rw [hre] at h
        rcases (loop_cons_iff hg hu).mp h with ⟨rfl, _, h3⟩ | ⟨s'', _, h4, h3⟩
        · simp at hid
        · obtain rfl := sec_unique (fun h => hid (by rw [h]; rfl)) h1 h4
          exact k3 t m' h3
      · obtain ⟨fuel, rfl⟩ : ∃ n, fuel = n + 1 := ⟨fuel - 1, by omega⟩
        rw [hstep t fuel _ ((parses_iteration st _ ⟨s'.1, s'.2, id⟩ (bs ++ t)).mpr ⟨id :: (g ++ c), rfl, .inr ⟨id, _, s', rfl, h0, h1, rfl⟩⟩)]
        refine k4 t fuel ?_
        simp only [List.length_append, List.length_cons] at hf ⊢; omega

theorem parseModule_reach {b1 : List Byte} {secs1 : List (Byte × List Byte)} (h1 : RawSecs b1 secs1) {m1 : Module}
    (h : parseModule (preamble ++ b1) = (.ok m1, [])) : ∃ st : LoopState, st.result = m1 ∧ st.lastId.toNat = topId secs1 ∧
      (∀ t m', parseModule (preamble ++ (b1 ++ t)) = (.ok m', []) → Loop st.lastId.toNat (st.funcTypes, st.result) t m') ∧
      ∀ t, ∃ fuel, t.length < fuel ∧ parseModule (preamble ++ (b1 ++ t)) = sectionLoop fuel st t := by
  obtain ⟨_, hl⟩ := (parseModule_loop b1 m1 []).mp h
  obtain ⟨st, k1, k2, k3, k4⟩ := loop_reach h1 (st := {}) hl
  refine ⟨st, k1, ?_, fun t m' h => k3 t m' ((parseModule_loop _ m' []).mp h).2, fun t => ?_⟩
  · rw [k2]; exact Nat.zero_max ..
  · obtain ⟨fuel, h1, h2⟩ := k4 t ((b1 ++ t).length + 1) (Nat.lt_succ_self _)
    refine ⟨fuel, h2, ?_⟩
    rw [parseModule_preamble]
    exact h1

/-- A custom section that is cut. -/
theorem cut_custom {g c x y : List Byte} (hg : Group g) (hu : uval g = c.length) (h : GSized .code (GCustom .code) (g ++ c) ())
    (hxy : g ++ c = x ++ y) (hy : y ≠ []) :
    (∀ n rest nm, x = g ++ (n ++ rest) → GName .code n nm → parseSized parseCustom x = (.error .sizeMissmatch, [])) ∧
    ((¬ ∃ n rest nm, x = g ++ (n ++ rest) ∧ GName .code n nm) → parseSized parseCustom x = (.error .unexpectedEndOfFile, [])) := by
  obtain ⟨g', c', e, hg', hu', hlt, hc⟩ := gsized_content.mp h
  obtain ⟨rfl, rfl⟩ := group_prefix hg hg' e
  have hpg : ∀ z, parseU32 (g ++ z) = (.ok (BitVec.ofNat 32 c.length), z) := fun z =>
    (parses_u32 _ _ _).mpr ⟨g, rfl, hg, by rw [hu, BitVec.toNat_ofNat, Nat.mod_eq_of_lt hlt]⟩
  have hN : (BitVec.ofNat 32 c.length).toNat = c.length := by rw [BitVec.toNat_ofNat, Nat.mod_eq_of_lt hlt]
  have body : ∀ z w, c = z ++ w → w ≠ [] → (∀ nm r, parseString z = (.ok nm, r) → parseSized parseCustom (g ++ z) = (.error .sizeMissmatch, [])) ∧
      (∀ r, parseString z = (.error .unexpectedEndOfFile, r) → parseSized parseCustom (g ++ z) = (.error .unexpectedEndOfFile, [])) := by
    intro z w hz hw
    have hlen : z.length < c.length := by
      rw [hz, List.length_append]
      have : w.length ≠ 0 := by simpa using hw
      omega
    have ht : z.take c.length = z := List.take_of_length_le (by omega)
    have hd : z.drop c.length = [] := List.drop_of_length_le (by omega)
    have heq : parseSized parseCustom (g ++ z) = sizedBody parseCustom c.length z := by
      rw [parseSized_eq, bind_of_ok (hpg z), hN]
    refine ⟨fun nm r hs => ?_, fun r hs => ?_⟩
    · have hcu : parseCustom z = (.ok (nm, r.length), []) := bind_of_ok hs
      rw [heq]; unfold sizedBody
      rw [ht, hd, hcu]
      simp only
      rw [if_pos (by simp; omega)]; rfl
    · have hcu : parseCustom z = (.error .unexpectedEndOfFile, r) := bind_of_error hs
      have : r = [] := by
        rcases good_string.stream z with k | k
        · rw [hs] at k; cases k; rfl
        · have := k w
          rw [← hz, hs] at this
          obtain ⟨rest, k2⟩ := hc
          rw [(parses_string _ _ _).mpr ⟨_, rfl, k2⟩] at this
          cases this
      rw [heq]; unfold sizedBody
      rw [ht, hd, hcu, this]; rfl
  rcases List.append_eq_append_iff.mp hxy with ⟨z, rfl, hz⟩ | ⟨z, rfl, rfl⟩
  · have hb := body z y hz hy
    refine ⟨fun n rest nm e hn => ?_, fun hno => ?_⟩
    · obtain rfl := List.append_cancel_left e
      exact hb.1 nm rest ((parses_string _ _ _).mpr ⟨n, rfl, hn⟩)
    · rcases good_string.stream z with k | k
      · exact hb.2 _ k
      · exfalso
        have := k y
        rw [← hz] at this
        obtain ⟨rest, k2⟩ := hc
        rw [(parses_string _ _ _).mpr ⟨_, rfl, k2⟩] at this
        rcases hq : parseString z with ⟨e | nm, r⟩
        · rw [hq] at this; cases this
        · obtain ⟨n, hn, hn2⟩ := (parses_string _ _ _).mp hq
          exact hno ⟨n, r, nm, by rw [hn], hn2⟩
  · by_cases hz0 : z = []
    · subst hz0
      have hb := body [] c rfl (by simpa using hy)
      simp only [List.append_nil] at hb ⊢
      refine ⟨fun n rest nm e hn => ?_, fun _ => hb.2 [] rfl⟩
      have : n = [] := by
        have := congrArg List.length e
        simp only [List.length_append] at this
        exact List.length_eq_zero_iff.mp (by omega)
      subst this
      exfalso
      have := (parses_string ([] ++ []) nm []).mpr ⟨[], rfl, hn⟩
      cases this
    · have heof : parseU32 x = (.error .unexpectedEndOfFile, []) := by
        refine good_u32.truncated hz0 (x := BitVec.ofNat 32 c.length) ?_
        have := hpg []
        simpa using this
      refine ⟨fun n rest nm e hn => ?_, fun _ => bind_of_error heof⟩
      have := congrArg List.length e
      simp only [List.length_append] at this
      have : z.length ≠ 0 := by simpa using hz0
      omega

/-- The parser on a module that is cut within a section. -/
theorem cut_section {b1 g c bs : List Byte} {id : Byte} {secs1 : List (Byte × List Byte)} {m : Module} (h1 : RawSecs b1 secs1)
    (hg : Group g) (hu : uval g = c.length) (h : parseModule (preamble ++ (b1 ++ id :: (g ++ (c ++ bs)))) = (.ok m, []))
    {x y : List Byte} (hxy : g ++ c = x ++ y) (hy : y ≠ []) :
    (id ≠ 0 → parseModule (preamble ++ (b1 ++ id :: x)) = (.error .unexpectedEndOfFile, [])) ∧
    (id = 0 → (∀ n rest nm, x = g ++ (n ++ rest) → GName .code n nm → parseModule (preamble ++ (b1 ++ id :: x)) = (.error .sizeMissmatch, [])) ∧
      ((¬ ∃ n rest nm, x = g ++ (n ++ rest) ∧ GName .code n nm) →
        parseModule (preamble ++ (b1 ++ id :: x)) = (.error .unexpectedEndOfFile, []))) := by
  obtain ⟨_, hl⟩ := (parseModule_loop _ m []).mp h
  obtain ⟨m1, hl1⟩ := loop_split h1 hl
  have hm1 := (parseModule_loop b1 m1 []).mpr ⟨rfl, hl1⟩
  obtain ⟨st, _, _, k3, k4⟩ := parseModule_reach h1 hm1
  obtain ⟨fuel, hf, k4⟩ := k4 (id :: x)
  obtain ⟨fuel, rfl⟩ : ∃ n, fuel = n + 1 := ⟨fuel - 1, by omega⟩
  have hstep : ∀ e, parseIteration st (id :: x) = (.error e, []) → parseModule (preamble ++ (b1 ++ id :: x)) = (.error e, []) := by
    intro e he
    rw [k4]
    exact bind_of_error he
  rcases (loop_cons_iff hg hu).mp (k3 _ _ h) with ⟨rfl, c1, _⟩ | ⟨s', c0, c1, _⟩
  · refine ⟨fun h => (h rfl).elim, fun _ => ?_⟩
    obtain ⟨q1, q2⟩ := cut_custom hg hu c1 hxy hy
    have hi : ∀ e, parseSized parseCustom x = (.error e, []) → parseIteration st (0 :: x) = (.error e, []) := by
      intro e he
      exact (bind_of_error he : (parseSized parseCustom >>= fun _ => (pure st : P LoopState)) x = _)
    exact ⟨fun n rest nm e hn => hstep _ (hi _ (q1 n rest nm e hn)), fun hno => hstep _ (hi _ (q2 hno))⟩
  · have hid : id ≠ 0 := by rintro rfl; simp at c0
    refine ⟨fun _ => hstep _ ?_, fun h => (hid h).elim⟩
    have hfull : parseSection id { st with lastId := id } (x ++ y) = (.ok ⟨s'.1, s'.2, id⟩, []) := by
      refine (parses_section id hid _ _ _ _).mpr ⟨g ++ c, ?_, s', c1, rfl⟩
      rw [hxy, List.append_nil]
    have hcut := (good_section id hid _).truncated hy hfull
    unfold parseIteration
    rw [bind_of_ok (rfl : parseByte (id :: x) = (.ok id, x)), if_pos hid, if_neg]
    · exact hcut
    · intro hle
      have := UInt8.le_iff_toNat_le.mp hle
      omega

/-! ## What is known after a prefix -/

theorem upTo_types {j : Nat} {m : Module} (h : upTo j m = m) (k : Nat) (hk : j < k) :
    (k ≤ 1 → m.types = []) ∧ (k ≤ 2 → m.imports = []) ∧ (k ≤ 4 → m.tables = []) ∧ (k ≤ 5 → m.mems = []) ∧ (k ≤ 6 → m.globals = []) ∧
    (k ≤ 7 → m.exports = []) ∧ (k ≤ 8 → m.start = none) ∧ (k ≤ 9 → m.elem = []) ∧ (k ≤ 10 → m.funcs = []) ∧ (k ≤ 11 → m.data = []) := by
  refine ⟨fun hi => ?_, fun hi => ?_, fun hi => ?_, fun hi => ?_, fun hi => ?_, fun hi => ?_, fun hi => ?_, fun hi => ?_, fun hi => ?_,
    fun hi => ?_⟩ <;> (rw [← h]; simp only [upTo]; rw [if_neg (by omega)])

theorem sec_upTo {k j : Nat} {s s' : SecState} {b : List Byte} (h : Sec k s b s') (hj : j < k) :
    upTo j s'.2 = upTo j s.2 ∧ (upTo j s.2 = s.2 → upTo k s'.2 = s'.2) := by
  unfold Sec at h
  split at h
  case h_10 =>
    obtain ⟨x, _, _, rfl⟩ := h
    refine ⟨by simp only [upTo]; simp (disch := omega) only [if_neg], fun hf => ?_⟩
    have := upTo_types hf 11 (by omega)
    simp_all [upTo]
  case h_3 =>
    obtain ⟨x, _, rfl⟩ := h
    refine ⟨rfl, fun hf => ?_⟩
    have q := upTo_types hf 4 (by omega)
    obtain ⟨_, ⟨⟩⟩ := s
    simp_all [upTo]
  case h_12 => exact h.elim
  all_goals
    obtain ⟨x, _, rfl⟩ := h
    refine ⟨by simp only [upTo]; simp (disch := omega) only [if_neg], fun hf => ?_⟩
    have q := upTo_types hf _ (Nat.lt_succ_of_lt hj)
    simp only [Nat.succ_eq_add_one] at q
    simp_all [upTo]

theorem loop_upTo {j : Nat} {s : SecState} {b : List Byte} {m : Module} (h : Loop j s b m) : upTo j m = upTo j s.2 := by
  have mono : ∀ {i k : Nat} {a b : Module}, upTo k a = upTo k b → i ≤ k → upTo i a = upTo i b := by
    intro i k a b h hik
    have hh : ∀ a : Module, upTo i a = upTo i (upTo k a) := by
      intro a
      simp only [upTo]
      congr 1 <;> (split <;> first | rfl | (rw [if_pos (by omega)]))
    rw [hh a, hh b, h]
  induction h with
  | done => rfl
  | custom _ _ ih => exact ih
  | sec hj hs _ ih => exact (mono ih (by omega)).trans (sec_upTo hs hj).1

theorem rawSecs_tail {id : Byte} {g c bs : List Byte} {secs : List (Byte × List Byte)} (hg : Group g) (hu : uval g = c.length)
    (h : RawSecs (id :: (g ++ c) ++ bs) secs) : ∃ secs', RawSecs bs secs' ∧ secs = (id, c) :: secs' := by
  generalize hb : id :: (g ++ c) ++ bs = b at h
  cases h with
  | nil => cases hb
  | cons hg' hu' h' =>
    obtain ⟨rfl, hb2⟩ := List.cons.inj hb
    obtain ⟨rfl, rfl, rfl⟩ := sized_unique hg hu hg' hu' ((List.append_assoc ..).symm.trans hb2)
    exact ⟨_, h', rfl⟩

theorem loop_fresh {j : Nat} {s : SecState} {b : List Byte} {m : Module} (h : Loop j s b m) (hs : upTo j s.2 = s.2)
    {secs : List (Byte × List Byte)} (hb : RawSecs b secs) : upTo (max j (topId secs)) m = m := by
  induction h generalizing secs with
  | done => cases hb; simpa [topId, secIds] using hs
  | @custom j s b bs m h _ ih =>
    obtain ⟨g, c, rfl, hg, hu⟩ := gsized_shape h
    obtain ⟨secs', hb', rfl⟩ := rawSecs_tail hg hu hb
    have := ih hs hb'
    simpa [topId, secIds] using this
  | @sec j s s' id b bs m hj h _ ih =>
    obtain ⟨g, c, rfl, hg, hu⟩ := sec_shape h
    obtain ⟨secs', hb', rfl⟩ := rawSecs_tail hg hu hb
    have := ih ((sec_upTo h hj).2 hs) hb'
    have hid : id.toNat ≠ 0 := by omega
    have he : topId ((id, c) :: secs') = max id.toNat (topId secs') := by simp [topId, secIds, hid]
    rw [he]
    have : max j (max id.toNat (topId secs')) = max id.toNat (topId secs') := by omega
    rw [this]; assumption

/-- The module of a prefix is the whole module without the later sections. -/
theorem parseModule_upTo {b1 t : List Byte} {secs1 : List (Byte × List Byte)} (h1 : RawSecs b1 secs1) {m1 m : Module}
    (hm1 : parseModule (preamble ++ b1) = (.ok m1, [])) (hm : parseModule (preamble ++ (b1 ++ t)) = (.ok m, [])) :
    m1 = upTo (topId secs1) m := by
  obtain ⟨st, k1, k2, k3, _⟩ := parseModule_reach h1 hm1
  have hl := loop_upTo (k3 t m hm)
  have hf := loop_fresh ((parseModule_loop b1 m1 []).mp hm1).2 (by rfl) h1
  rw [Nat.zero_max] at hf
  rw [k2] at hl
  rw [hl]
  simp only [k1]
  exact hf.symm

end Whasm
