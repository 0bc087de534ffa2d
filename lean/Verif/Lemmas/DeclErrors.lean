import Verif.Lemmas.DeclModule
import Verif.Lemmas.Blame
import Verif.Spec.Reason

/-!
# Errors of the declarative grammar against those of `Module::parse`
-/

namespace Whasm.Decl
open Spec

/-! ## Errors with a counterpart -/

theorem blame_same {K : Nat → Prop} {read rest : List Byte} {e : Error} (h : Blame K read rest e) : SameReason e (errorOf e) := by
  cases h <;> constructor

theorem sizedBlame_same {K : Nat → Prop} {k : Nat} {read rest : List Byte} {e : Error} (h : SizedBlame K k read rest e) :
    SameReason e (errorOf e) := by
  cases h with
  | content _ _ h => exact blame_same h
  | _ => constructor

theorem errorOf_same {e : Error} {d : DErr} (h : SameReason e d) : errorOf e = d := by
  cases h <;> rfl

section
variable {α : Type}

/-- All errors of `p` have a counterpart. -/
def Named (p : P α) : Prop := ∀ s e r, p s = (.error e, r) → SameReason e (errorOf e)

theorem named_of_tells {p : P α} (h : Tells (fun k => k = 12) [] p) (hs : Safe p) : Named p := by
  intro s e r hp
  have h1 := hs.noFuel s
  have h2 := hs.noPanic s
  rw [hp] at h1 h2
  obtain ⟨_, _, hb⟩ := h s e r hp (fun he => h1 (by rw [he])) (fun he => h2 (by rw [he]))
  exact blame_same hb

theorem named_N {p : P α} (h : Named p) : ∀ n, Named (parseN n p)
  | 0 => fun _ _ _ h => by cases h
  | n + 1 => by
    intro s e r hp
    unfold parseN at hp
    rcases bind_cases p _ s with ⟨x, s', k1, k2⟩ | ⟨e', s', k1, k2⟩
    · rw [k2] at hp
      rcases bind_cases (parseN n p) (fun xs => pure (x :: xs)) s' with ⟨x, s'', k3, k4⟩ | ⟨e', s'', k3, k4⟩
      · rw [k4] at hp; cases hp
      · rw [k4] at hp; cases hp; exact named_N h n _ _ _ k3
    · rw [k2] at hp; cases hp; exact h _ _ _ k1

theorem Named.bind {β : Type} {p : P α} {f : α → P β} (h : Named p) (hf : ∀ x, Named (f x)) : Named (p >>= f) := by
  intro s e r hp
  rcases bind_cases p f s with ⟨x, s', k1, k2⟩ | ⟨e', s', k1, k2⟩
  · rw [k2] at hp; exact hf x _ _ _ hp
  · rw [k2] at hp; cases hp; exact h _ _ _ k1

theorem named_pure (x : α) : Named (pure x : P α) := fun _ _ _ h => by cases h

theorem named_u32 : Named parseU32 := named_of_tells tells_u32 (good_u32.safe noFuel_u32)

theorem named_vec {p : P α} (h : Named p) : Named (parseVec p) := named_u32.bind fun _ => named_N h _

theorem named_runs {p : P α} (h : Named p) : ∀ k, Named (parseRuns k p)
  | 0 => named_pure _
  | k + 1 => named_u32.bind fun _ => h.bind fun _ => (named_runs h k).bind fun _ => named_pure _

theorem named_compactVec {p : P α} (h : Named p) : Named (parseCompactVec p) := named_u32.bind fun _ => named_runs h _

theorem named_sized {p : P α} (h : Named p) : Named (parseSized p) := by
  refine named_u32.bind fun n => ?_
  intro s e r hp
  match hw : p (s.take n.toNat) with
  | (.error e', r') =>
    simp only [hw] at hp
    cases hp
    exact h _ _ _ hw
  | (.ok x, r') =>
    simp only [hw] at hp
    split at hp
    · cases hp; exact .size
    · cases hp

theorem named_func : Named (parseSized parseFunc) :=
  named_sized (named_of_tells tells_func (good_func.safe noFuel_func))

theorem named_section (id : Byte) (st : LoopState) : Named (parseSection id st) := by
  intro s e r hp
  have h1 := (safe_section id st).noFuel s
  have h2 := (safe_section id st).noPanic s
  rw [hp] at h1 h2
  rcases Whasm.section_error hp (fun he => h1 (by rw [he])) (fun he => h2 (by rw [he])) with ⟨_, rfl, _⟩ | ⟨_, _, _, hb⟩ | ⟨_, rfl, _⟩
  · constructor
  · exact sizedBlame_same hb
  · constructor

end

/-! ## One section -/

theorem dU32_exact {s r : List Byte} {n : U32} (h : dU32 s = .ok (n, r)) : ∃ b, s = b ++ r ∧ ∀ t, dU32 (b ++ t) = .ok (n, t) := by
  obtain ⟨b, rfl, hb⟩ := (parses_u32 s n r).mp (ofP_ok (p := parseU32) h)
  exact ⟨b, rfl, fun t => ofP_ok_iff.mpr ((parses_u32 _ _ _).mpr ⟨b, rfl, hb⟩)⟩

theorem dSized_exact {α : Type} {q : Q α} {s r : List Byte} {x : α} (h : dSized q s = .ok (x, r)) :
    ∃ b, s = b ++ r ∧ ∀ t, dSized q (b ++ t) = .ok (x, t) := by
  rw [dSized_eq, bind_ok_q] at h
  obtain ⟨n, s1, h1, h2⟩ := h
  obtain ⟨b, rfl, hb⟩ := dU32_exact h1
  unfold sizedQ at h2
  split at h2
  · cases h2
  next y r' hq =>
    split at h2
    next hc =>
      cases h2
      refine ⟨b ++ s1.take n.toNat, by rw [List.append_assoc, List.take_append_drop], fun t => ?_⟩
      rw [dSized_eq, bind_ok_q]
      refine ⟨n, _, by rw [List.append_assoc]; exact hb _, ?_⟩
      have hl : (s1.take n.toNat).length = n.toNat := by rw [List.length_take]; omega
      have ht : (s1.take n.toNat ++ t).take n.toNat = s1.take n.toNat := by
        rw [List.take_append_of_le_length (by omega), List.take_of_length_le (by omega)]
      have hd : (s1.take n.toNat ++ t).drop n.toNat = t := by
        rw [List.drop_append_of_le_length (by omega), List.drop_of_length_le (by omega)]; rfl
      have := sizedQ_ok (n := n.toNat) (s := s1.take n.toNat ++ t) (by rw [ht]; exact hq) ⟨hc.1, by rw [List.length_append]; omega⟩
      rw [hd] at this
      exact this
    · cases h2

theorem dSection_exact {s r : List Byte} {sec : Sec} (h : dSection s = .ok (sec, r)) :
    ∃ id b, s = id :: b ++ r ∧ ∀ t, dSection (id :: b ++ t) = .ok (sec, t) := by
  cases s with
  | nil => cases h
  | cons id s' =>
    unfold dSection dSizedEnum dEnum at h
    simp only at h
    split at h
    · cases h
    next v hv =>
      have hfw : v.forward = false := by
        have := List.mem_of_find?_eq_some hv
        simp only [List.map_cons, List.map_nil, List.mem_cons, List.not_mem_nil, or_false] at this
        rcases this with rfl | rfl | rfl | rfl | rfl | rfl | rfl | rfl | rfl | rfl | rfl | rfl <;> rfl
      obtain ⟨v', hv', rfl⟩ := List.mem_map.mp (List.mem_of_find?_eq_some hv)
      simp only at hfw
      simp only [hfw, Bool.false_eq_true, if_false] at h
      obtain ⟨b, rfl, hb⟩ := dSized_exact h
      refine ⟨id, b, rfl, fun t => ?_⟩
      unfold dSection dSizedEnum dEnum
      simp only [List.cons_append]
      rw [hv]
      simp only [hfw, Bool.false_eq_true, if_false]
      exact hb t

theorem applySec_none {st : LoopState} {sec : Sec} (h : applySec st sec = none) : ∃ x, sec = .code x ∧ x.length ≠ st.funcTypes.length := by
  cases sec <;> simp only [applySec] at h <;> first | cases h | skip
  split at h
  · cases h
  next x hne => exact ⟨x, rfl, hne⟩

/-- How an iteration fails. -/
theorem iteration_error {st : LoopState} {id : Byte} {s r : List Byte} {e : Error} (h : parseIteration st (id :: s) = (.error e, r)) :
    (id ≠ 0 ∧ id ≤ st.lastId ∧ e = .unexpectedSectionId id) ∨
    (¬ (id ≠ 0 ∧ id ≤ st.lastId) ∧ SameReason e (errorOf e) ∧ (dSection (id :: s) = .error (errorOf e) ∨
      ∃ x r', dSection (id :: s) = .ok (.code x, r') ∧ st.lastId < 10 ∧ x.length ≠ st.funcTypes.length ∧ e = .unexpectedEndOfFile)) := by
  have key : ∀ st', (id = 10 → st.lastId < 10) → st'.funcTypes = st.funcTypes → parseSection id st' s = (.error e, r) → SameReason e (errorOf e) ∧
      (dSection (id :: s) = .error (errorOf e) ∨
      ∃ x r', dSection (id :: s) = .ok (.code x, r') ∧ st.lastId < 10 ∧ x.length ≠ st.funcTypes.length ∧ e = .unexpectedEndOfFile) := by
    intro st' hid hft hp
    refine ⟨named_section _ _ _ _ _ hp, ?_⟩
    have h1 := ofP_section id st' s
    have h2 : ofP (parseSection id st') s = .error (errorOf e) := by unfold ofP; rw [hp]
    rw [h2] at h1
    match hd : dSection (id :: s) with
    | .error d => rw [hd] at h1; left; simpa [applyTo] using h1.symm
    | .ok (sec, r') =>
      rw [hd] at h1
      simp only [applyTo] at h1
      split at h1
      · cases h1
      next hn =>
        obtain ⟨x, rfl, hx⟩ := applySec_none hn
        right
        refine ⟨x, r', rfl, hid (dSection_id hd).symm, by rw [← hft]; exact hx, ?_⟩
        cases e <;> simp_all [errorOf]
  have h0 : parseIteration st (id :: s) = (if id ≠ 0x00 then
    if id ≤ st.lastId then P.fail (.unexpectedSectionId id)
    else parseSection id { st with lastId := id }
    else parseSection id st : P LoopState) s := rfl
  rw [h0] at h
  by_cases hid : id = 0
  · subst hid
    rw [if_neg (by simp)] at h
    exact .inr ⟨by simp, key _ (by intro h; cases h) rfl h⟩
  · rw [if_pos hid] at h
    by_cases hle : id ≤ st.lastId
    · rw [if_pos hle] at h
      cases h
      exact .inl ⟨hid, hle, rfl⟩
    · rw [if_neg hle] at h
      exact .inr ⟨fun hc => hle hc.2, key { st with lastId := id } (fun h => by rw [h] at hle; exact UInt8.not_le.mp hle) rfl h⟩

/-- An iteration fails in these two ways. -/
theorem iteration_order {st : LoopState} {id : Byte} (s : List Byte) (h0 : id ≠ 0) (h1 : id ≤ st.lastId) :
    ∃ r, parseIteration st (id :: s) = (.error (.unexpectedSectionId id), r) := by
  have h2 : parseIteration st (id :: s) = (if id ≠ 0x00 then
    if id ≤ st.lastId then P.fail (.unexpectedSectionId id)
    else parseSection id { st with lastId := id }
    else parseSection id st : P LoopState) s := rfl
  rw [h2, if_pos h0, if_pos h1]
  exact ⟨s, rfl⟩

theorem iteration_count {st : LoopState} {s r : List Byte} {x : List Body} (hd : dSection s = .ok (.code x, r)) (h0 : st.lastId < 10)
    (h1 : x.length ≠ st.funcTypes.length) : ∃ r, parseIteration st s = (.error .unexpectedEndOfFile, r) := by
  cases s with
  | nil => cases hd
  | cons id s =>
    have hid : id = 10 := (dSection_id hd).symm
    subst hid
    match hp : parseIteration st (10 :: s) with
    | (.ok st', r') =>
      obtain ⟨sec, h2, h3⟩ := (iteration_iff _ _ _ _).mp hp
      rw [hd] at h2
      simp only [Except.ok.injEq, Prod.mk.injEq] at h2
      obtain ⟨rfl, rfl⟩ := h2
      unfold stepSec at h3
      have h4 : ¬ (10 : Byte) ≤ st.lastId := UInt8.not_le.mpr h0
      simp [secId, applySec, h1, h4] at h3
    | (.error e, r') =>
      rcases iteration_error hp with ⟨_, h2, _⟩ | ⟨_, _, h2 | ⟨_, _, _, _, _, rfl⟩⟩
      · exact absurd h2 (UInt8.not_le.mpr h0)
      · rw [hd] at h2; cases h2
      · exact ⟨r', rfl⟩

/-! ## All sections -/

/-- The loop fails for a reason that the grammar does not know, at some section. -/
def LoopEarly (st : LoopState) (s : List Byte) (e : Error) : Prop :=
  ∃ c t secs st1, s = c ++ t ∧ (∀ n, c.length < n → listLoop dSection n c = .ok (secs, [])) ∧ secs.foldlM stepSec st = some st1 ∧
    ((∃ id rest, t = id :: rest ∧ id ≠ 0 ∧ id ≤ st1.lastId ∧ e = .unexpectedSectionId id) ∨
     (∃ x r, dSection t = .ok (.code x, r) ∧ st1.lastId < 10 ∧ x.length ≠ st1.funcTypes.length ∧ e = .unexpectedEndOfFile))

theorem listLoop_cons {n : Nat} {s r : List Byte} {sec : Sec} (h : dSection s = .ok (sec, r)) :
    listLoop dSection (n + 1) s = (listLoop dSection n >>= fun xs => pure (sec :: xs) : Q (List Sec)) r := by
  cases s with
  | nil => cases h
  | cons b s =>
    show Q.bind dSection _ (b :: s) = _
    unfold Q.bind; rw [h]

theorem listLoop_error {n : Nat} {b : Byte} {s : List Byte} {d : DErr} (h : dSection (b :: s) = .error d) :
    listLoop dSection (n + 1) (b :: s) = .error d := by
  show Q.bind dSection _ (b :: s) = _
  unfold Q.bind; rw [h]

/-- The fuel does not matter. -/
theorem listLoop_fuel : ∀ (n : Nat) (s : List Byte) (secs : List Sec) (r : List Byte), listLoop dSection n s = .ok (secs, r) →
    ∀ m, s.length < m → listLoop dSection m s = .ok (secs, r)
  | 0, _, _, _, h, _, _ => by cases h
  | n + 1, [], _, _, h, m + 1, _ => h
  | _, _, _, _, _, 0, h => by omega
  | n + 1, b :: s, secs, r, h, m + 1, hm => by
    match hd : dSection (b :: s) with
    | .error d => rw [listLoop_error hd] at h; cases h
    | .ok (sec, r1) =>
      have hlt := dSection_consumes hd
      rw [listLoop_cons hd, bind_ok_q] at h
      obtain ⟨secs', r2, h2, h3⟩ := h
      cases h3
      rw [listLoop_cons hd]
      exact Q.map_ok (fun xs => sec :: xs) (listLoop_fuel n r1 secs' r h2 m (by simp at hm hlt; omega))

theorem early_cons {st st' : LoopState} {s r : List Byte} {sec : Sec} {e : Error} (h : dSection s = .ok (sec, r)) (hst : stepSec st sec = some st')
    (he : LoopEarly st' r e) : LoopEarly st s e := by
  obtain ⟨c, t, secs, st1, rfl, h1, h2, h3⟩ := he
  obtain ⟨id, b, rfl, hb⟩ := dSection_exact h
  refine ⟨id :: b ++ c, t, sec :: secs, st1, by simp, fun n hn => ?_, by simp [List.foldlM_cons, hst, h2], h3⟩
  cases n with
  | zero => simp at hn
  | succ n =>
    rw [listLoop_cons (hb c)]
    exact Q.map_ok (fun xs => sec :: xs) (h1 n (by simp at hn; omega))

theorem early_nil : ∀ n, ([] : List Byte).length < n → listLoop dSection n [] = .ok ([], [])
  | 0, h => by simp at h
  | _ + 1, _ => rfl

theorem loop_fails : ∀ (n : Nat) (st : LoopState) (s : List Byte) (e : Error) (r : List Byte), s.length < n →
    sectionLoop n st s = (.error e, r) → LoopEarly st s e ∨ (SameReason e (errorOf e) ∧ listLoop dSection n s = .error (errorOf e))
  | 0, _, _, _, _, h, _ => by omega
  | n + 1, st, [], e, r, _, h => by cases h
  | n + 1, st, b :: s, e, r, hn, h => by
    have h0 : sectionLoop (n + 1) st (b :: s) = (parseIteration st >>= sectionLoop n) (b :: s) := rfl
    rw [h0] at h
    rcases bind_cases (parseIteration st) (sectionLoop n) (b :: s) with ⟨st', s', k1, k2⟩ | ⟨e', s', k1, k2⟩
    · rw [k2] at h
      obtain ⟨sec, hd, hst⟩ := (iteration_iff _ _ _ _).mp k1
      have hlt := dSection_consumes hd
      rcases loop_fails n st' s' e r (by simp at hn hlt; omega) h with h1 | ⟨h1, h2⟩
      · exact .inl (early_cons hd hst h1)
      · right
        refine ⟨h1, ?_⟩
        rw [listLoop_cons hd]
        exact Q.map_error (fun xs => sec :: xs) h2
    · rw [k2] at h
      cases h
      rcases iteration_error k1 with ⟨h1, h2, rfl⟩ | ⟨_, h1, h2 | ⟨x, r', h2, h3, h4, rfl⟩⟩
      · exact .inl ⟨[], b :: s, [], st, rfl, early_nil, rfl, .inl ⟨b, s, rfl, h1, h2, rfl⟩⟩
      · right
        refine ⟨h1, ?_⟩
        show Q.bind dSection _ (b :: s) = _
        unfold Q.bind; rw [h2]
      · exact .inl ⟨[], b :: s, [], st, rfl, early_nil, rfl, .inr ⟨x, r', h2, h3, h4, rfl⟩⟩

/-- The loop goes past sections that are in order. -/
theorem loop_past : ∀ (n : Nat) (c t : List Byte) (secs : List Sec) (st st1 : LoopState) (m : Nat), listLoop dSection n c = .ok (secs, []) →
    secs.foldlM stepSec st = some st1 → (c ++ t).length < m → ∃ m', t.length < m' ∧ sectionLoop m st (c ++ t) = sectionLoop m' st1 t
  | 0, _, _, _, _, _, _, h, _, _ => by cases h
  | n + 1, [], t, secs, st, st1, m, h, h1, hm => by
    cases h
    change some st = some st1 at h1
    cases h1
    exact ⟨m, hm, rfl⟩
  | n + 1, b :: c, t, secs, st, st1, m, h, h1, hm => by
    match hd : dSection (b :: c) with
    | .error d =>
      rw [listLoop_error hd] at h; cases h
    | .ok (sec, r1) =>
      rw [listLoop_cons hd, bind_ok_q] at h
      obtain ⟨secs', r2, h2, h3⟩ := h
      cases h3
      obtain ⟨id, b', hb, hex⟩ := dSection_exact hd
      obtain ⟨rfl, rfl⟩ : b = id ∧ c = b' ++ r1 := by simpa using hb
      rw [List.foldlM_cons] at h1
      match hst : stepSec st sec with
      | none => rw [hst] at h1; cases h1
      | some st' =>
        rw [hst] at h1
        cases m with
        | zero => simp at hm
        | succ m =>
          obtain ⟨m', h4, h5⟩ := loop_past n r1 t secs' st' st1 m h2 h1 (by simp at hm ⊢; omega)
          refine ⟨m', h4, ?_⟩
          rw [← h5]
          have h6 : parseIteration st (b :: (b' ++ r1) ++ t) = (.ok st', r1 ++ t) := by
            refine (iteration_iff _ _ _ _).mpr ⟨sec, ?_, hst⟩
            have := hex (r1 ++ t)
            simpa using this
          show (parseIteration st >>= sectionLoop m) (b :: (b' ++ r1) ++ t) = _
          exact bind_of_ok h6

theorem loop_early {n : Nat} {st : LoopState} {s : List Byte} {e : Error} (hn : s.length < n) (h : LoopEarly st s e) :
    ∃ r, sectionLoop n st s = (.error e, r) := by
  obtain ⟨c, t, secs, st1, rfl, h1, h2, h3⟩ := h
  obtain ⟨m, hm, heq⟩ := loop_past (c.length + 1) c t secs st st1 n (h1 _ (by omega)) h2 hn
  rw [heq]
  have : t ≠ [] ∧ ∃ r, parseIteration st1 t = (.error e, r) := by
    rcases h3 with ⟨id, rest, rfl, h4, h5, rfl⟩ | ⟨x, r, h4, h5, h6, rfl⟩
    · exact ⟨by simp, iteration_order rest h4 h5⟩
    · exact ⟨(by rintro rfl; cases h4), iteration_count h4 h5 h6⟩
  obtain ⟨hne, r, hr⟩ := this
  cases m with
  | zero => omega
  | succ m =>
    cases t with
    | nil => exact absurd rfl hne
    | cons b t => exact ⟨r, bind_of_error (f := sectionLoop m) hr⟩

/-! ## The state after sections -/

theorem step_state {st st' : LoopState} {sec : Sec} (hf : st.lastId < 3 → st.funcTypes = []) (h : stepSec st sec = some st') :
    (if secId sec = 0 then st'.lastId = st.lastId else st.lastId < secId sec ∧ st'.lastId = secId sec) ∧
    st'.funcTypes = st.funcTypes ++ funcsOf [sec] ∧ (st'.lastId < 3 → st'.funcTypes = []) := by
  unfold stepSec at h
  by_cases h0 : secId sec = 0
  · rw [if_pos h0] at h
    cases sec <;> simp [secId] at h0
    cases h
    exact ⟨by simp [secId], by simp [funcsOf], hf⟩
  · rw [if_neg h0] at h
    by_cases h1 : secId sec ≤ st.lastId
    · rw [if_pos h1] at h; cases h
    · rw [if_neg h1] at h
      have h2 : st.lastId < secId sec := UInt8.not_le.mp h1
      rw [if_neg h0]
      have h3 : st'.lastId = secId sec := by
        cases sec <;> simp only [applySec] at h <;> first | (cases h; rfl) | (split at h <;> cases h; rfl)
      refine ⟨⟨h2, h3⟩, ?_⟩
      rw [h3]
      cases sec with
      | custom n p => exact absurd rfl h0
      | types x => cases h; exact ⟨by simp [funcsOf], fun _ => hf (UInt8.lt_trans h2 (by simp [secId]))⟩
      | imports x => cases h; exact ⟨by simp [funcsOf], fun _ => hf (UInt8.lt_trans h2 (by simp [secId]))⟩
      | funcs x => cases h; exact ⟨by simp [funcsOf, hf h2], fun h => absurd h (by simp [secId])⟩
      | code x =>
        simp only [applySec] at h
        split at h
        · cases h; exact ⟨by simp [funcsOf], fun h => absurd h (by simp [secId])⟩
        · cases h
      | _ => cases h; exact ⟨by simp [funcsOf], fun h => absurd h (by simp [secId])⟩

theorem fold_state : ∀ (secs : List Sec) (st st1 : LoopState), (st.lastId < 3 → st.funcTypes = []) → secs.foldlM stepSec st = some st1 →
    (∀ k ∈ ids secs, k ≤ st1.lastId) ∧ st.lastId ≤ st1.lastId ∧ (st1.lastId = st.lastId ∨ st1.lastId ∈ ids secs) ∧
      st1.funcTypes = st.funcTypes ++ funcsOf secs
  | [], st, st1, _, h => by
    change some st = some st1 at h
    cases h
    exact ⟨by simp [ids], UInt8.le_refl _, .inl rfl, by simp [funcsOf]⟩
  | sec :: secs, st, st1, hf, h => by
    rw [List.foldlM_cons] at h
    match hst : stepSec st sec with
    | none => rw [hst] at h; cases h
    | some st' =>
      rw [hst] at h
      obtain ⟨h1, h2, h3⟩ := step_state hf hst
      obtain ⟨h4, h5, h6, h7⟩ := fold_state secs st' st1 h3 h
      have h8 : st1.funcTypes = st.funcTypes ++ funcsOf (sec :: secs) := by
        rw [h7, h2, List.append_assoc]; simp [funcsOf]
      rw [ids_cons]
      by_cases h0 : secId sec = 0
      · rw [if_pos h0] at h1 ⊢
        rw [h1] at h5 h6
        exact ⟨h4, h5, h6, h8⟩
      · rw [if_neg h0] at h1 ⊢
        rw [h1.2] at h5 h6
        refine ⟨fun k hk => ?_, UInt8.le_trans (UInt8.le_of_lt h1.1) h5, .inr ?_, h8⟩
        · rcases List.mem_cons.mp hk with rfl | hk
          · exact h5
          · exact h4 k hk
        · rcases h6 with h6 | h6
          · rw [h6]; simp
          · exact List.mem_cons_of_mem _ h6

/-! ## Modules -/

/-- `LoopEarly` in terms of the sections. -/
theorem loopEarly_iff (s : List Byte) (e : Error) : LoopEarly {} s e ↔ ∃ c t secs, s = c ++ t ∧ dList dSection c = .ok (secs, []) ∧
    (ids secs).Pairwise (· < ·) ∧ (∀ c, .code c ∈ secs → c.length = (funcsOf secs).length) ∧
    ((∃ id rest, t = id :: rest ∧ id ≠ 0 ∧ (∃ k ∈ ids secs, id ≤ k) ∧ e = .unexpectedSectionId id) ∨
     (∃ x r, dSection t = .ok (.code x, r) ∧ (∀ k ∈ ids secs, k < 10) ∧ x.length ≠ (funcsOf secs).length ∧ e = .unexpectedEndOfFile)) := by
  have hfr : Fresh {} := by constructor <;> intro _ <;> rfl
  have hcond : ∀ secs : List Sec, (∃ st1, secs.foldlM stepSec {} = some st1) ↔ (ids secs).Pairwise (· < ·) ∧
      (∀ c, .code c ∈ secs → c.length = (funcsOf secs).length) := by
    intro secs
    constructor
    · rintro ⟨st1, h⟩
      obtain ⟨h1, h2, _⟩ := (fold_iff secs {} hfr st1.result).mp ⟨st1, h, rfl⟩
      exact ⟨(List.pairwise_cons.mp h1).2, by simpa using h2⟩
    · rintro ⟨h1, h2⟩
      have h6 : ∀ k ∈ ids secs, (0 : Byte) < k := fun k hk => by
        have h7 := (List.mem_filter.mp hk).2
        exact UInt8.pos_iff_ne_zero.mpr (by simpa using h7)
      obtain ⟨st', h, _⟩ := (fold_iff secs {} hfr _).mpr ⟨List.pairwise_cons.mpr ⟨h6, h1⟩, by simpa using h2, rfl⟩
      exact ⟨st', h⟩
  have hend : ∀ (secs : List Sec) (st1 : LoopState) (t : List Byte), secs.foldlM stepSec {} = some st1 →
      (((∃ id rest, t = id :: rest ∧ id ≠ 0 ∧ id ≤ st1.lastId ∧ e = .unexpectedSectionId id) ∨
        (∃ x r, dSection t = .ok (.code x, r) ∧ st1.lastId < 10 ∧ x.length ≠ st1.funcTypes.length ∧ e = .unexpectedEndOfFile)) ↔
       ((∃ id rest, t = id :: rest ∧ id ≠ 0 ∧ (∃ k ∈ ids secs, id ≤ k) ∧ e = .unexpectedSectionId id) ∨
        (∃ x r, dSection t = .ok (.code x, r) ∧ (∀ k ∈ ids secs, k < 10) ∧ x.length ≠ (funcsOf secs).length ∧ e = .unexpectedEndOfFile))) := by
    intro secs st1 t h
    obtain ⟨h1, _, h3, h4⟩ := fold_state secs {} st1 (fun _ => rfl) h
    have h5 : st1.funcTypes = funcsOf secs := by rw [h4]; rfl
    rw [h5]
    have h6 : ∀ id : Byte, id ≠ 0 → (id ≤ st1.lastId ↔ ∃ k ∈ ids secs, id ≤ k) := by
      intro id h0
      constructor
      · intro hle
        rcases h3 with h3 | h3
        · rw [h3] at hle
          exact absurd (UInt8.le_antisymm hle (UInt8.zero_le)) h0
        · exact ⟨_, h3, hle⟩
      · rintro ⟨k, hk, hle⟩
        exact UInt8.le_trans hle (h1 k hk)
    have h7 : st1.lastId < 10 ↔ ∀ k ∈ ids secs, k < 10 := by
      constructor
      · intro h k hk
        exact UInt8.lt_of_le_of_lt (h1 k hk) h
      · intro h
        rcases h3 with h3 | h3
        · rw [h3]; decide
        · exact h _ h3
    rw [h7]
    refine or_congr_left ?_
    refine exists_congr fun id => exists_congr fun rest => and_congr_right fun _ => ?_
    constructor
    · rintro ⟨h8, h9, h10⟩; exact ⟨h8, (h6 id h8).mp h9, h10⟩
    · rintro ⟨h8, h9, h10⟩; exact ⟨h8, (h6 id h8).mpr h9, h10⟩
  constructor
  · rintro ⟨c, t, secs, st1, rfl, h1, h2, h3⟩
    obtain ⟨h4, h5⟩ := (hcond secs).mp ⟨st1, h2⟩
    exact ⟨c, t, secs, rfl, h1 _ (by omega), h4, h5, (hend secs st1 t h2).mp h3⟩
  · rintro ⟨c, t, secs, rfl, h1, h4, h5, h3⟩
    obtain ⟨st1, h2⟩ := (hcond secs).mpr ⟨h4, h5⟩
    exact ⟨c, t, secs, st1, rfl, fun n hn => listLoop_fuel _ c secs [] h1 n hn, h2, (hend secs st1 t h2).mpr h3⟩

theorem dModule_preamble (b : List Byte) : dModule (preamble ++ b) = dList dSection b := rfl

/-- A stream starts with the preamble, or both give up in it. -/
theorem module_split (s : List Byte) : (∃ b, s = preamble ++ b) ∨
    ∃ e r, parseModule s = (.error e, r) ∧ SameReason e (errorOf e) ∧ dModule s = .error (errorOf e) := by
  have four : ∀ {s r : List Byte} {e : Error}, parseN 4 parseByte s = (.error e, r) →
      SameReason e (errorOf e) ∧ dN 4 dByte s = .error (errorOf e) := by
    intro s r e h
    refine ⟨named_N (fun s e r h => ?_) 4 _ _ _ h, ?_⟩
    · cases s with
      | nil => cases h; exact .endOfInput
      | cons b s => cases h
    · rw [← ofP_N ofP_byte 4]; unfold ofP; rw [h]
  have four' : ∀ {s r : List Byte} {xs : List Byte}, parseN 4 parseByte s = (.ok xs, r) → dN 4 dByte s = .ok (xs, r) := by
    intro s r xs h
    rw [← ofP_N ofP_byte 4]; exact ofP_ok_iff.mpr h
  have bindE : ∀ {α β : Type} {q : Q α} {f : α → Q β} {s : List Byte} {d : DErr}, q s = .error d → (q >>= f) s = .error d := by
    intro α β q f s d h
    show Q.bind q f s = _
    unfold Q.bind; rw [h]
  have bindO : ∀ {α β : Type} {q : Q α} {f : α → Q β} {s r : List Byte} {x : α}, q s = .ok (x, r) → (q >>= f) s = f x r := by
    intro α β q f s r x h
    show Q.bind q f s = _
    unfold Q.bind; rw [h]
  unfold parseModule dModule
  match h1 : parseN 4 parseByte s with
  | (.error e, r) =>
    obtain ⟨h2, h3⟩ := four h1
    exact .inr ⟨e, r, bind_of_error h1, h2, bindE (bindE h3)⟩
  | (.ok m1, s1) =>
    by_cases hm : m1.map (fun b => b.toNat) = magicChars.map (fun c => c.toNat)
    · have hd : dMatching (fun m => m.map (fun b => b.toNat) == magicChars.map (fun c => c.toNat)) (dN 4 dByte) s = .ok (m1, s1) :=
        matching_ok.mpr ⟨four' h1, by simpa using hm⟩
      match h2 : parseN 4 parseByte s1 with
      | (.error e, r) =>
        obtain ⟨h3, h4⟩ := four h2
        refine .inr ⟨e, r, ?_, h3, ?_⟩
        · rw [bind_of_ok h1, if_neg (not_not_intro hm)]; exact bind_of_error h2
        · rw [bindO hd]; exact bindE (bindE h4)
      | (.ok v, s2) =>
        by_cases hv : v = [1, 0, 0, 0]
        · left
          obtain ⟨_, rfl, _, rfl⟩ := (parses4 _ _ _).mp h1
          obtain ⟨_, rfl, _, rfl⟩ := (parses4 _ _ _).mp h2
          rw [magic_iff] at hm
          subst hm hv
          exact ⟨s2, rfl⟩
        · refine .inr ⟨.invalidPreambleVersion, s2, ?_, .version, ?_⟩
          · rw [bind_of_ok h1, if_neg (not_not_intro hm), bind_of_ok h2, if_pos hv]; rfl
          · rw [bindO hd]
            refine bindE ?_
            unfold dMatching
            rw [bindO (four' h2), if_neg (by simpa using hv)]; rfl
    · refine .inr ⟨.invalidPreambleMagic, s1, ?_, .magic, ?_⟩
      · rw [bind_of_ok h1, if_pos hm]; rfl
      · refine bindE ?_
        unfold dMatching
        rw [bindO (four' h1), if_neg (by simpa using hm)]; rfl

end Whasm.Decl
