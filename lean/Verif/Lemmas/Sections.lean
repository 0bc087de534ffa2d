import Verif.Lemmas.Modules
import Verif.Lemmas.Chain

/-!
# Sections by their number and content
-/

namespace Whasm
open Spec

/-- The content of a sized element. -/
theorem gsized_content {α : Type} {G : List Byte → α → Prop} {b : List Byte} {x : α} :
    GSized .code G b x ↔ ∃ g c, b = g ++ c ∧ Group g ∧ uval g = c.length ∧ c.length < 2 ^ 32 ∧ G c x := by
  constructor
  · rintro ⟨h1, h2, h3⟩
    rename_i g c len
    exact ⟨g, c, rfl, h1.1, by rw [h1.2, h2], by rw [h2]; exact len.isLt, h3⟩
  · rintro ⟨g, c, rfl, h1, h2, h3, h4⟩
    refine .mk (len := BitVec.ofNat 32 c.length) ⟨h1, ?_⟩ ?_ h4
    · rw [h2, BitVec.toNat_ofNat, Nat.mod_eq_of_lt h3]
    · rw [BitVec.toNat_ofNat, Nat.mod_eq_of_lt h3]

/-- The content is determined by size and content bytes. -/
theorem gsized_raw {α : Type} {G : List Byte → α → Prop} {g c : List Byte} {x : α} (hg : Group g)
    (h : GSized .code G (g ++ c) x) : G c x := by
  obtain ⟨g', c', e, h1, _, _, h4⟩ := gsized_content.mp h
  obtain ⟨rfl, rfl⟩ := group_prefix hg h1 e
  exact h4

theorem gsized_shape {α : Type} {G : List Byte → α → Prop} {b : List Byte} {x : α} (h : GSized .code G b x) :
    ∃ g c, b = g ++ c ∧ Group g ∧ uval g = c.length := by
  obtain ⟨g, c, h1, h2, h3, _⟩ := gsized_content.mp h
  exact ⟨g, c, h1, h2, h3⟩

theorem sec_shape {id : Nat} {s s' : SecState} {b : List Byte} (h : Sec id s b s') : ∃ g c, b = g ++ c ∧ Group g ∧ uval g = c.length := by
  unfold Sec at h
  split at h <;> first | exact h.elim | (obtain ⟨_, h, _⟩ := h; exact gsized_shape h)

theorem sized_unique {g c g' c' x y : List Byte} (hg : Group g) (hu : uval g = c.length) (hg' : Group g') (hu' : uval g' = c'.length)
    (e : g ++ (c ++ x) = g' ++ (c' ++ y)) : g = g' ∧ c = c' ∧ x = y := by
  obtain ⟨rfl, e2⟩ := group_prefix hg hg' e
  obtain ⟨k1, k2⟩ := List.append_inj e2 (by omega)
  exact ⟨rfl, k1, k2⟩

/-- Inversion: the first section of an accepted sequence. -/
theorem loop_cons_iff {j : Nat} {s : SecState} {id : Byte} {g c bs : List Byte} {m : Module} (hg : Group g) (hu : uval g = c.length) :
    Loop j s (id :: (g ++ (c ++ bs))) m ↔ (id = 0 ∧ GSized .code (GCustom .code) (g ++ c) () ∧ Loop j s bs m) ∨
      ∃ s', j < id.toNat ∧ Sec id.toNat s (g ++ c) s' ∧ Loop id.toNat s' bs m := by
  constructor
  · intro h
    generalize hb : id :: (g ++ (c ++ bs)) = b at h
    cases h with
    | done => cases hb
    | @custom _ _ b' bs' _ h1 h2 =>
      obtain ⟨rfl, hb2⟩ := List.cons.inj hb
      obtain ⟨g', c', rfl, hg', hu'⟩ := gsized_shape h1
      obtain ⟨rfl, rfl, rfl⟩ := sized_unique hg hu hg' hu' (hb2.trans (List.append_assoc ..))
      exact .inl ⟨rfl, h1, h2⟩
    | @sec _ _ s' id' b' bs' _ h0 h1 h2 =>
      obtain ⟨rfl, hb2⟩ := List.cons.inj hb
      obtain ⟨g', c', rfl, hg', hu'⟩ := sec_shape h1
      obtain ⟨rfl, rfl, rfl⟩ := sized_unique hg hu hg' hu' (hb2.trans (List.append_assoc ..))
      exact .inr ⟨s', h0, h1, h2⟩
  · rintro (⟨rfl, h1, h2⟩ | ⟨s', h0, h1, h2⟩)
    · have := Loop.custom h1 h2; simpa using this
    · have := Loop.sec h0 h1 h2; simpa using this

theorem loop_raw {j : Nat} {s : SecState} {b : List Byte} {m : Module} (h : Loop j s b m) : ∃ secs, RawSecs b secs ∧
    (j :: secIds secs).Pairwise (· < ·) ∧ ∀ x ∈ secs, x.1.toNat ≤ 11 := by
  induction h with
  | done => exact ⟨[], .nil, by simp [secIds], by simp⟩
  | @custom j s b bs m h _ ih =>
    obtain ⟨secs, h1, h2, h3⟩ := ih
    obtain ⟨g, c, rfl, hg, hu⟩ := gsized_shape h
    refine ⟨(0, c) :: secs, ?_, ?_, ?_⟩
    · have := RawSecs.cons (id := 0) hg hu h1; simpa using this
    · simpa [secIds] using h2
    · intro x hx
      rcases List.mem_cons.mp hx with rfl | hx
      · simp
      · exact h3 x hx
  | @sec j s s' id b bs m hj h _ ih =>
    obtain ⟨secs, h1, h2, h3⟩ := ih
    obtain ⟨g, c, rfl, hg, hu⟩ := sec_shape h
    refine ⟨(id, c) :: secs, ?_, ?_, ?_⟩
    · have := RawSecs.cons (id := id) hg hu h1; simpa using this
    · have hid : id.toNat ≠ 0 := by omega
      have : secIds ((id, c) :: secs) = id.toNat :: secIds secs := by simp [secIds, hid]
      rw [this]
      refine List.Pairwise.cons ?_ h2
      intro k hk
      rcases List.mem_cons.mp hk with rfl | hk
      · exact hj
      · have := (List.pairwise_cons.mp h2).1 k hk
        omega
    · intro x hx
      rcases List.mem_cons.mp hx with rfl | hx
      · exact (sec_le h).2
      · exact h3 x hx

theorem rawSecs_unique {b : List Byte} {secs secs' : List (Byte × List Byte)} (h : RawSecs b secs) (h' : RawSecs b secs') :
    secs = secs' := by
  induction h generalizing secs' with
  | nil => cases h'; rfl
  | @cons id g c bs secs hg hu _ ih =>
    generalize hb : id :: (g ++ (c ++ bs)) = b at h'
    cases h' with
    | nil => cases hb
    | cons hg' hu' h' =>
      obtain ⟨rfl, hb2⟩ := List.cons.inj hb
      obtain ⟨rfl, rfl, rfl⟩ := sized_unique hg hu hg' hu' hb2
      rw [ih h']

theorem loop_insert_customs {c b2 : List Byte} (hc : GCustoms .code c) {j : Nat} {s : SecState} {m : Module} :
    Loop j s (c ++ b2) m ↔ Loop j s b2 m := by
  induction hc generalizing j s with
  | nil => rfl
  | cons h1 _ ih =>
    cases h1 with
    | mk h1 =>
      obtain ⟨g, c, rfl, hg, hu⟩ := gsized_shape h1
      rw [List.append_assoc, List.cons_append, List.append_assoc, loop_cons_iff hg hu, ih]
      constructor
      · rintro (⟨_, _, h⟩ | ⟨_, h, _⟩)
        · exact h
        · simp at h
      · intro h; exact .inl ⟨rfl, h1, h⟩

theorem loop_insert {b1 c b2 : List Byte} {secs : List (Byte × List Byte)} (h1 : RawSecs b1 secs) (hc : GCustoms .code c) {j : Nat}
    {s : SecState} {m : Module} : Loop j s (b1 ++ (c ++ b2)) m ↔ Loop j s (b1 ++ b2) m := by
  induction h1 generalizing j s with
  | nil => exact loop_insert_customs hc
  | cons hg hu _ ih =>
    rw [List.cons_append, List.append_assoc, List.append_assoc, loop_cons_iff hg hu,
      List.cons_append, List.append_assoc, List.append_assoc, loop_cons_iff hg hu, ih]
    refine or_congr Iff.rfl ?_
    constructor
    · rintro ⟨s', h0, h1, h2⟩; exact ⟨s', h0, h1, ih.mp h2⟩
    · rintro ⟨s', h0, h1, h2⟩; exact ⟨s', h0, h1, ih.mpr h2⟩

theorem sec_funcs {id : Nat} {s s' : SecState} {b : List Byte} (h : Sec id s b s') :
    (id ≠ 3 → s'.1 = s.1) ∧ (id ≠ 10 → s'.2.funcs = s.2.funcs) := by
  unfold Sec at h
  split at h
  case h_10 => obtain ⟨x, _, _, rfl⟩ := h; exact ⟨fun _ => rfl, fun h => (h rfl).elim⟩
  case h_3 => obtain ⟨x, _, rfl⟩ := h; exact ⟨fun h => (h rfl).elim, fun _ => rfl⟩
  case h_12 => exact h.elim
  all_goals (obtain ⟨x, _, rfl⟩ := h; exact ⟨fun _ => rfl, fun _ => rfl⟩)

/-- After an accepted sequence of sections the loop goes on with what follows. -/
theorem loop_continue {b : List Byte} {secs : List (Byte × List Byte)} (hb : RawSecs b secs) : ∀ {st : LoopState} {m : Module},
    Loop st.lastId.toNat (st.funcTypes, st.result) b m → ∀ t fuel, (b ++ t).length < fuel → ∃ fuel' st',
      sectionLoop fuel st (b ++ t) = sectionLoop fuel' st' t ∧ t.length < fuel' ∧ st'.result = m ∧
      (∀ k ∈ st.lastId.toNat :: secIds secs, k ≤ st'.lastId.toNat) ∧ st'.lastId.toNat ∈ st.lastId.toNat :: secIds secs ∧
      ((st'.funcTypes = st.funcTypes ∧ ∀ c3, (0x03, c3) ∉ secs) ∨ ∃ c3, (0x03, c3) ∈ secs ∧ GVec .code Dialect.code.u32 c3 st'.funcTypes) := by
  induction hb with
  | nil =>
    intro st m h t fuel hf
    cases h
    exact ⟨fuel, st, rfl, hf, rfl, by simp [secIds], by simp, .inl ⟨rfl, by simp⟩⟩
  | @cons id g c bs secs hg hu _ ih =>
    intro st m h t fuel hf
    obtain ⟨fuel, rfl⟩ : ∃ n, fuel = n + 1 := ⟨fuel - 1, by omega⟩
    have hstep : ∀ st', parseIteration st (id :: (g ++ c) ++ (bs ++ t)) = (.ok st', bs ++ t) →
        sectionLoop (fuel + 1) st (id :: (g ++ (c ++ bs)) ++ t) = sectionLoop fuel st' (bs ++ t) := by
      intro st' hs
      have : id :: (g ++ (c ++ bs)) ++ t = id :: (g ++ c) ++ (bs ++ t) := by simp
      rw [this]
      show (parseIteration st >>= _) _ = _
      rw [bind_of_ok hs]
    have hlen : (bs ++ t).length < fuel := by
      simp only [List.length_append, List.length_cons] at hf ⊢; omega
    rcases (loop_cons_iff hg hu).mp h with ⟨rfl, h1, h2⟩ | ⟨s', h0, h1, h2⟩
    · have hs := (parses_iteration st _ st (bs ++ t)).mpr ⟨0 :: (g ++ c), rfl, .inl ⟨_, rfl, h1, rfl⟩⟩
      rw [hstep st hs]
      have he : secIds ((0, c) :: secs) = secIds secs := by simp [secIds]
      rw [he]
      obtain ⟨fuel', st', k1, k2, k3, k4, k5, k6⟩ := ih h2 t fuel hlen
      refine ⟨fuel', st', k1, k2, k3, k4, k5, ?_⟩
      rcases k6 with ⟨e, k6⟩ | ⟨c3, k6, k7⟩
      · exact .inl ⟨e, fun c3 hc3 => k6 c3 (by simpa using hc3)⟩
      · exact .inr ⟨c3, List.mem_cons_of_mem _ k6, k7⟩
    · have hs := (parses_iteration st _ ⟨s'.1, s'.2, id⟩ (bs ++ t)).mpr ⟨id :: (g ++ c), rfl, .inr ⟨id, _, s', rfl, h0, h1, rfl⟩⟩
      rw [hstep _ hs]
      have hid : id.toNat ≠ 0 := by omega
      have he : secIds ((id, c) :: secs) = id.toNat :: secIds secs := by simp [secIds, hid]
      rw [he]
      obtain ⟨fuel', st', k1, k2, k3, k4, k5, k6⟩ := ih (st := ⟨s'.1, s'.2, id⟩) h2 t fuel hlen
      refine ⟨fuel', st', k1, k2, k3, ?_, List.mem_cons_of_mem _ k5, ?_⟩
      · intro k hk
        rcases List.mem_cons.mp hk with rfl | hk
        · have := k4 _ (List.mem_cons_self ..)
          simp only at this; omega
        · exact k4 k hk
      · by_cases h3 : id = 0x03
        · subst h3
          obtain ⟨x, hx, rfl⟩ := (h1 : Sec 3 (st.funcTypes, st.result) (g ++ c) s')
          rcases k6 with ⟨e, _⟩ | ⟨c3, k6, k7⟩
          · refine .inr ⟨c, List.mem_cons_self .., ?_⟩
            rw [e]; exact gsized_raw hg hx
          · exact .inr ⟨c3, List.mem_cons_of_mem _ k6, k7⟩
        · rcases k6 with ⟨e, k6⟩ | ⟨c3, k6, k7⟩
          · refine .inl ⟨?_, fun c3 hc3 => ?_⟩
            · rw [e]; exact (sec_funcs h1).1 fun hid => h3 (byte_of_toNat hid)
            · rcases List.mem_cons.mp hc3 with e | e
              · cases e; exact h3 rfl
              · exact k6 c3 e
          · exact .inr ⟨c3, List.mem_cons_of_mem _ k6, k7⟩

/-- The parser after the preamble. -/
theorem parseModule_preamble (b : List Byte) : parseModule (preamble ++ b) = parseSections b := by
  unfold parseModule
  rw [bind_of_ok ((parses4 _ _ _).mpr ⟨[0x00, 0x61, 0x73, 0x6D], rfl, rfl, rfl⟩ :
    parseN 4 parseByte (preamble ++ b) = (.ok [0x00, 0x61, 0x73, 0x6D], [0x01, 0x00, 0x00, 0x00] ++ b))]
  rw [if_neg (by rw [Decidable.not_not, magic_iff])]
  rw [bind_of_ok ((parses4 _ _ _).mpr ⟨[0x01, 0x00, 0x00, 0x00], rfl, rfl, rfl⟩ :
    parseN 4 parseByte ([0x01, 0x00, 0x00, 0x00] ++ b) = (.ok [0x01, 0x00, 0x00, 0x00], b))]
  rw [if_neg (by rw [Decidable.not_not])]

theorem parseModule_loop (b : List Byte) (m : Module) (r : List Byte) :
    parseModule (preamble ++ b) = (.ok m, r) ↔ r = [] ∧ Loop 0 ([], {}) b m := by
  rw [parseModule_preamble]
  exact sectionLoop_iff _ _ _ _ _ (Nat.lt_succ_self _)

/-- Continuation after an accepted module. -/
theorem parseModule_continue {b : List Byte} {secs : List (Byte × List Byte)} (hb : RawSecs b secs) {m : Module}
    (h : parseModule (preamble ++ b) = (.ok m, [])) (t : List Byte) : ∃ fuel' st',
      parseModule (preamble ++ (b ++ t)) = sectionLoop (fuel' + 1) st' t ∧ st'.result = m ∧
      (∀ k ∈ secIds secs, k ≤ st'.lastId.toNat) ∧ st'.lastId.toNat ≤ 11 ∧ st'.lastId.toNat ∈ 0 :: secIds secs ∧
      ((st'.funcTypes = [] ∧ ∀ c3, (0x03, c3) ∉ secs) ∨ ∃ c3, (0x03, c3) ∈ secs ∧ GVec .code Dialect.code.u32 c3 st'.funcTypes) := by
  obtain ⟨_, hl⟩ := (parseModule_loop b m []).mp h
  obtain ⟨secs', hb', _, hle⟩ := loop_raw hl
  obtain rfl := rawSecs_unique hb hb'
  obtain ⟨fuel', st', k1, k2, k3, k4, k5, k6⟩ := loop_continue hb (st := {}) hl t ((b ++ t).length + 1) (Nat.lt_succ_self _)
  obtain ⟨fuel', rfl⟩ : ∃ n, fuel' = n + 1 := ⟨fuel' - 1, by omega⟩
  refine ⟨fuel', st', ?_, k3, fun k hk => k4 k (List.mem_cons_of_mem _ hk), ?_, k5, k6⟩
  · rw [parseModule_preamble]; exact k1
  · rcases List.mem_cons.mp k5 with h0 | h0
    · have : ({} : LoopState).lastId.toNat = 0 := rfl
      omega
    · simp only [secIds, List.mem_filter, List.mem_map] at h0
      obtain ⟨⟨x, hx, he⟩, _⟩ := h0
      rw [← he]; exact hle x hx

/-! ## The function and the code section -/

/-- Numbers of later sections are larger. -/
theorem loop_ids {j : Nat} {s : SecState} {b : List Byte} {m : Module} (h : Loop j s b m) {secs : List (Byte × List Byte)}
    (hb : RawSecs b secs) : ∀ x ∈ secs, x.1 = 0 ∨ j < x.1.toNat := by
  obtain ⟨secs', hb', hp, _⟩ := loop_raw h
  obtain rfl := rawSecs_unique hb hb'
  intro x hx
  by_cases h0 : x.1.toNat = 0
  · exact .inl (byte_of_toNat h0)
  · refine .inr ((List.pairwise_cons.mp hp).1 _ ?_)
    simp only [secIds, List.mem_filter, List.mem_map]
    exact ⟨⟨x, hx, rfl⟩, by simpa using h0⟩

theorem loop_noCode {b : List Byte} {secs : List (Byte × List Byte)} (hb : RawSecs b secs) : ∀ {j : Nat} {s : SecState} {m : Module},
    Loop j s b m → (∀ c, (0x0A, c) ∉ secs) → m.funcs = s.2.funcs := by
  induction hb with
  | nil => intro j s m h _; cases h; rfl
  | @cons id g c bs secs hg hu _ ih =>
    intro j s m h hno
    have hno' : ∀ c, (0x0A, c) ∉ secs := fun c hc => hno c (List.mem_cons_of_mem _ hc)
    rcases (loop_cons_iff hg hu).mp h with ⟨rfl, h1, h2⟩ | ⟨s', h0, h1, h2⟩
    · exact ih h2 hno'
    · rw [ih h2 hno']
      refine (sec_funcs h1).2 fun hid => ?_
      have : id = 0x0A := byte_of_toNat hid
      subst this
      exact hno c (List.mem_cons_self ..)

theorem loop_code {b : List Byte} {secs : List (Byte × List Byte)} (hb : RawSecs b secs) : ∀ {j : Nat} {s : SecState} {m : Module},
    Loop j s b m → ∀ c, (0x0A, c) ∈ secs → ∃ tys codes, GVec .code (GSized .code (GFunc .code)) c codes ∧
      codes.length = tys.length ∧ m.funcs = pairFuncs tys codes ∧
      ((tys = s.1 ∧ ∀ c3, (0x03, c3) ∉ secs) ∨ ∃ c3, (0x03, c3) ∈ secs ∧ GVec .code Dialect.code.u32 c3 tys) := by
  induction hb with
  | nil => intro j s m _ c hc; cases hc
  | @cons id g c0 bs secs hg hu hraw ih =>
    intro j s m h c hc
    rcases (loop_cons_iff hg hu).mp h with ⟨rfl, h1, h2⟩ | ⟨s', h0, h1, h2⟩
    · have hc' : (0x0A, c) ∈ secs := by simpa using hc
      obtain ⟨tys, codes, k1, k2, k3, k4⟩ := ih h2 c hc'
      refine ⟨tys, codes, k1, k2, k3, ?_⟩
      rcases k4 with ⟨e, k4⟩ | ⟨c3, k4, k5⟩
      · refine .inl ⟨e, fun c3 hc3 => ?_⟩
        exact k4 c3 (by simpa using hc3)
      · exact .inr ⟨c3, List.mem_cons_of_mem _ k4, k5⟩
    · have hids := loop_ids h2 hraw
      by_cases h10 : id = 0x0A
      · subst h10
        have hnot : (0x0A, c) ∉ secs := fun hc' => by
          rcases hids _ hc' with h | h
          · simp at h
          · simp at h
        have : c = c0 := by simpa [hnot] using hc
        subst this
        obtain ⟨x, hx, hl, rfl⟩ := (h1 : Sec 10 s (g ++ c) s')
        refine ⟨s.1, x, gsized_raw hg hx, hl, ?_, .inl ⟨rfl, ?_⟩⟩
        · rw [loop_noCode hraw h2 fun c' hc' => by rcases hids _ hc' with h | h <;> simp at h]
        · intro c3 hc3
          have hc3 : (0x03, c3) ∈ secs := by simpa using hc3
          rcases hids _ hc3 with h | h <;> simp at h
      · have hc' : (0x0A, c) ∈ secs := by
          rcases List.mem_cons.mp hc with e | e
          · cases e; exact (h10 rfl).elim
          · exact e
        obtain ⟨tys, codes, k1, k2, k3, k4⟩ := ih h2 c hc'
        refine ⟨tys, codes, k1, k2, k3, ?_⟩
        by_cases h3 : id = 0x03
        · subst h3
          obtain ⟨x, hx, rfl⟩ := (h1 : Sec 3 s (g ++ c0) s')
          rcases k4 with ⟨rfl, k4⟩ | ⟨c3, k4, k5⟩
          · exact .inr ⟨c0, List.mem_cons_self .., gsized_raw hg hx⟩
          · exact .inr ⟨c3, List.mem_cons_of_mem _ k4, k5⟩
        · rcases k4 with ⟨e, k4⟩ | ⟨c3, k4, k5⟩
          · refine .inl ⟨?_, fun c3 hc3 => ?_⟩
            · rw [e]; exact (sec_funcs h1).1 fun hid => h3 (byte_of_toNat hid)
            · rcases List.mem_cons.mp hc3 with e | e
              · cases e; exact h3 rfl
              · exact k4 c3 e
          · exact .inr ⟨c3, List.mem_cons_of_mem _ k4, k5⟩

end Whasm
