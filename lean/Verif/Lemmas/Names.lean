import Verif.Model.ValidModule

/-!
# The check for duplicate export names
-/

namespace Whasm

theorem nameLe_total : ∀ a b : Name, nameLe a b = true ∨ nameLe b a = true
  | [], _ => .inl rfl
  | _ :: _, [] => .inr rfl
  | a :: as, b :: bs => by
    simp only [nameLe]
    by_cases h1 : a < b
    · simp [h1]
    · by_cases h2 : b < a
      · simp [h1, h2]
      · simp only [h1, h2, if_false]; exact nameLe_total as bs

theorem byte_antisymm {a b : Byte} (h1 : ¬ a < b) (h2 : ¬ b < a) : a = b := by
  rw [UInt8.lt_iff_toNat_lt] at h1 h2
  exact UInt8.toNat_inj.mp (by omega)

theorem nameLe_antisymm : ∀ {a b : Name}, nameLe a b = true → nameLe b a = true → a = b
  | [], [], _, _ => rfl
  | [], _ :: _, _, h => by cases h
  | _ :: _, [], h, _ => by cases h
  | a :: as, b :: bs, h, h' => by
    simp only [nameLe] at h h'
    by_cases h1 : a < b
    · have h2 : ¬ b < a := by rw [UInt8.lt_iff_toNat_lt] at h1 ⊢; omega
      simp [h1, h2] at h'
    · by_cases h2 : b < a
      · simp [h1, h2] at h
      · simp only [h1, h2, if_false] at h h'
        rw [byte_antisymm h1 h2, nameLe_antisymm h h']

theorem nameLe_trans : ∀ {a b c : Name}, nameLe a b = true → nameLe b c = true → nameLe a c = true
  | [], _, _, _, _ => rfl
  | _ :: _, [], _, h, _ => by cases h
  | _ :: _, _ :: _, [], _, h => by cases h
  | a :: as, b :: bs, c :: cs, h, h' => by
    simp only [nameLe] at h h' ⊢
    by_cases h1 : a < b
    · have : ¬ c < b → a < c := by rw [UInt8.lt_iff_toNat_lt] at *; rw [UInt8.lt_iff_toNat_lt]; omega
      by_cases h3 : b < c
      · have : a < c := by rw [UInt8.lt_iff_toNat_lt] at *; omega
        simp [this]
      · by_cases h4 : c < b
        · simp [h3, h4] at h'
        · simp [this h4]
    · by_cases h2 : b < a
      · simp [h1, h2] at h
      · obtain rfl := byte_antisymm h1 h2
        simp only [h1, if_false] at h
        by_cases h3 : a < c
        · simp [h3]
        · by_cases h4 : c < a
          · simp [h3, h4] at h'
          · simp only [h3, h4, if_false] at h' ⊢
            exact nameLe_trans h h'

theorem dedup_length_le : ∀ l : List Name, (dedup l).length ≤ l.length
  | [] => Nat.le_refl _
  | [_] => Nat.le_refl _
  | a :: b :: rest => by
    simp only [dedup]
    have := dedup_length_le (b :: rest)
    split
    · simp only [List.length_cons] at *; omega
    · simp only [List.length_cons] at *; omega

theorem dedup_length : ∀ l : List Name, l.Pairwise (fun a b => nameLe a b = true) → ((dedup l).length = l.length ↔ l.Nodup)
  | [], _ => by simp [dedup]
  | [_], _ => by simp [dedup]
  | a :: b :: rest, h => by
    have h2 := (List.pairwise_cons.mp h).2
    have ih := dedup_length (b :: rest) h2
    simp only [dedup]
    split
    · next hab =>
      have := dedup_length_le (b :: rest)
      constructor
      · intro he; simp only [List.length_cons] at *; omega
      · intro hn; rw [List.nodup_cons] at hn; exact (hn.1 (by simp [hab])).elim
    · next hab =>
      rw [List.nodup_cons, ← ih]
      simp only [List.length_cons, Nat.add_right_cancel_iff]
      constructor
      · intro he
        refine ⟨fun hm => ?_, he⟩
        rcases List.mem_cons.mp hm with rfl | hm
        · exact hab rfl
        · have k1 := (List.pairwise_cons.mp h).1 b (List.mem_cons_self)
          have k2 := (List.pairwise_cons.mp h2).1 a hm
          exact hab (nameLe_antisymm k1 k2)
      · exact fun he => he.2

theorem insertName_perm (a : Name) : ∀ l : List Name, (insertName a l).Perm (a :: l)
  | [] => .refl _
  | b :: rest => by
    unfold insertName
    split
    · exact .refl _
    · exact ((insertName_perm a rest).cons b).trans (.swap a b rest)

theorem sortNames_perm : ∀ l : List Name, (sortNames l).Perm l
  | [] => .refl _
  | a :: rest => (insertName_perm a _).trans ((sortNames_perm rest).cons a)

theorem insertName_sorted (a : Name) : ∀ l : List Name, l.Pairwise (fun a b => nameLe a b = true) →
    (insertName a l).Pairwise (fun a b => nameLe a b = true)
  | [], _ => by simp [insertName]
  | b :: rest, h => by
    obtain ⟨h1, h2⟩ := List.pairwise_cons.mp h
    unfold insertName
    split
    · next hab =>
      refine List.pairwise_cons.mpr ⟨fun c hc => ?_, h⟩
      rcases List.mem_cons.mp hc with rfl | hc
      · exact hab
      · exact nameLe_trans hab (h1 c hc)
    · next hab =>
      refine List.pairwise_cons.mpr ⟨fun c hc => ?_, insertName_sorted a rest h2⟩
      rcases List.mem_cons.mp ((insertName_perm a rest).mem_iff.mp hc) with rfl | hc
      · exact (nameLe_total b c).resolve_right hab
      · exact h1 c hc

theorem sortNames_sorted : ∀ l : List Name, (sortNames l).Pairwise (fun a b => nameLe a b = true)
  | [] => .nil
  | a :: rest => insertName_sorted a _ (sortNames_sorted rest)

/-- The comparison made by the code detects duplicates exactly. -/
theorem names_check (names : List Name) : (dedup (sortNames names)).length = names.length ↔ names.Nodup := by
  have hp := sortNames_perm names
  rw [← hp.length_eq, dedup_length _ (sortNames_sorted names), hp.nodup_iff]

end Whasm
