import Verif.Lemmas.Utf8

/-!
# Parsers of types
-/

namespace Whasm
open Spec

theorem byte_of_toNat {c : Byte} {n : Nat} (h : c.toNat = n) : c = UInt8.ofNat n := by
  rw [← h]; simp

/-- A parser that switches on its first byte. -/
theorem parses_switch {α : Type} {f : Byte → P α} {G : List Byte → α → Prop} (hne : ∀ y, ¬ G [] y)
    (hf : ∀ c, Parses (f c) fun b y => G (c :: b) y) : Parses (parseByte >>= f) G := by
  refine (Parses.byte_bind hf).congr fun b y => ?_
  constructor
  · rintro ⟨c, b', h, rfl⟩; exact h
  · intro h
    cases b with
    | nil => exact (hne y h).elim
    | cons c b => exact ⟨c, b, h, rfl⟩

theorem gval_head {b : List Byte} {t : Val} (h : GVal b t) : ∃ c, b = [c] ∧
    ((c.toNat = 0x7F ∧ t = .i32) ∨ (c.toNat = 0x7E ∧ t = .i64) ∨ (c.toNat = 0x7D ∧ t = .f32) ∨ (c.toNat = 0x7C ∧ t = .f64)) := by
  cases h <;> exact ⟨_, rfl, by simp⟩

theorem parses_val : Parses parseVal GVal := by
  refine parses_switch (fun y h => by cases h) fun c => ?_
  split
  case h_5 =>
    refine (parses_fail _).congr fun b y => ⟨False.elim, fun h => ?_⟩
    obtain ⟨c', e, h⟩ := gval_head h
    cases e
    simp_all
  all_goals
    rename_i hc
    obtain rfl := byte_of_toNat hc
    refine (parses_pure _).congr fun b y => ⟨?_, fun h => ?_⟩
    · rintro ⟨rfl, rfl⟩; constructor
    · obtain ⟨c', e, h⟩ := gval_head h
      cases e
      simp_all

theorem good_val : Good parseVal :=
  good_byte.bind fun c => by split <;> first | exact good_pure _ | exact good_fail (by simp)

theorem noFuel_val : NoFuel parseVal :=
  noFuel_byte.bind fun c => by split <;> first | exact noFuel_pure _ | exact noFuel_fail (by simp)

theorem parses_elemTy : Parses parseElemTy GElemTy := by
  refine parses_switch (fun y h => by cases h) fun c => ?_
  split
  case h_1 hc =>
    obtain rfl := byte_of_toNat hc
    refine (parses_pure _).congr fun b y => ⟨?_, fun h => ?_⟩
    · rintro ⟨rfl, rfl⟩; constructor
    · generalize hb : (UInt8.ofNat 0x70 :: b) = l at h
      cases h; exact ⟨by simpa using hb, rfl⟩
  case h_2 hc =>
    refine (parses_fail _).congr fun b y => ⟨False.elim, fun h => ?_⟩
    cases h; simp at hc

theorem good_elemTy : Good parseElemTy :=
  good_byte.bind fun c => by split <;> first | exact good_pure _ | exact good_fail (by simp)

theorem noFuel_elemTy : NoFuel parseElemTy :=
  noFuel_byte.bind fun c => by split <;> first | exact noFuel_pure _ | exact noFuel_fail (by simp)

theorem glimits_inv {D : Dialect} {c : Byte} {b : List Byte} {y : Limits} (h : GLimits D (c :: b) y) :
    (c.toNat = 0 ∧ ∃ n, D.u32 b n ∧ y = ⟨n, none⟩) ∨
    (c.toNat = 1 ∧ ∃ b1 b2 n m, D.u32 b1 n ∧ D.u32 b2 m ∧ b = b1 ++ b2 ∧ y = ⟨n, some m⟩) := by
  cases h with
  | min h => exact .inl ⟨rfl, _, h, rfl⟩
  | minMax h1 h2 => exact .inr ⟨rfl, _, _, _, _, h1, h2, rfl, rfl⟩

theorem parses_limits : Parses parseLimits (GLimits .code) := by
  refine parses_switch (fun y h => by cases h) fun c => ?_
  split
  case h_1 hc =>
    obtain rfl := byte_of_toNat hc
    refine (Parses.map _ parses_u32).congr fun b y => ⟨?_, fun h => ?_⟩
    · rintro ⟨n, h, rfl⟩; exact .min h
    · rcases glimits_inv h with ⟨_, n, h1, rfl⟩ | ⟨h, _⟩
      · exact ⟨n, h1, rfl⟩
      · simp at h
  case h_2 hc =>
    obtain rfl := byte_of_toNat hc
    refine (Parses.bind parses_u32 fun n => Parses.map _ parses_u32).congr fun b y => ⟨?_, fun h => ?_⟩
    · rintro ⟨b1, n, b2, h1, ⟨m, h2, rfl⟩, rfl⟩; exact .minMax h1 h2
    · rcases glimits_inv h with ⟨h, _⟩ | ⟨_, b1, b2, n, m, h1, h2, rfl, rfl⟩
      · simp at h
      · exact ⟨b1, n, b2, h1, ⟨m, h2, rfl⟩, rfl⟩
  case h_3 h1 h2 =>
    refine (parses_fail _).congr fun b y => ⟨False.elim, fun h => ?_⟩
    rcases glimits_inv h with ⟨h, _⟩ | ⟨h, _⟩
    · exact h1 h
    · exact h2 h

theorem good_limits : Good parseLimits :=
  good_byte.bind fun c => by
    split
    · exact good_u32.bind fun _ => good_pure _
    · exact good_u32.bind fun _ => good_u32.bind fun _ => good_pure _
    · exact good_fail (by simp)

theorem noFuel_limits : NoFuel parseLimits :=
  noFuel_byte.bind fun c => by
    split
    · exact noFuel_u32.bind fun _ => noFuel_pure _
    · exact noFuel_u32.bind fun _ => noFuel_u32.bind fun _ => noFuel_pure _
    · exact noFuel_fail (by simp)

/-- What follows the first byte of a result type. -/
def retTail (c : Byte) : P RetVal :=
  if c.toNat = 0x40 then pure []
  else match parseVal [c] with
    | (.ok v, _) => pure [v]
    | (.error e, _) => P.fail e

theorem parseRetVal_eq : parseRetVal = (parseByte >>= retTail) := by
  unfold parseRetVal
  congr 1
  funext c
  unfold retTail
  split
  next hc => rw [if_pos hc]
  next hc => rw [if_neg hc]; rcases parseVal [c] with ⟨_ | _, _⟩ <;> rfl

theorem parses_retVal : Parses parseRetVal GRetVal := by
  rw [parseRetVal_eq]
  refine parses_switch (fun y h => by rcases h with _ | ⟨h⟩; cases h) fun c => ?_
  unfold retTail
  split
  case isTrue hc =>
    obtain rfl := byte_of_toNat hc
    refine (parses_pure _).congr fun b y => ⟨?_, fun h => ?_⟩
    · rintro ⟨rfl, rfl⟩; constructor
    · generalize hb : (UInt8.ofNat 0x40 :: b) = l at h
      rcases h with _ | ⟨h⟩
      · exact ⟨by simpa using hb, rfl⟩
      · obtain ⟨c', e, h⟩ := gval_head h
        rw [e] at hb
        obtain ⟨rfl, _⟩ := List.cons.inj hb
        simp at h
  case isFalse hc =>
    have hp := parses_val [c]
    split
    case h_1 v q hv =>
      obtain ⟨b0, e, hb0⟩ := (hp _ _).mp hv
      obtain ⟨c0, rfl, _⟩ := gval_head hb0
      cases e
      refine (parses_pure _).congr fun b y => ⟨?_, fun h => ?_⟩
      · rintro ⟨rfl, rfl⟩; exact .val hb0
      · generalize hb : c :: b = l at h
        rcases h with _ | ⟨h⟩
        · cases hb; exact (hc rfl).elim
        · obtain ⟨c', e, _⟩ := gval_head h
          rw [e] at hb
          cases hb
          rw [e] at h
          have := (hp _ []).mpr ⟨_, rfl, h⟩
          rw [hv] at this
          cases this
          exact ⟨rfl, rfl⟩
    case h_2 er q hv =>
      refine (parses_fail _).congr fun b y => ⟨False.elim, fun h => ?_⟩
      generalize hb : c :: b = l at h
      rcases h with _ | ⟨h⟩
      · cases hb; exact (hc rfl).elim
      · obtain ⟨c', e, _⟩ := gval_head h
        rw [e] at hb
        cases hb
        rw [e] at h
        have := (hp _ []).mpr ⟨_, rfl, h⟩
        rw [hv] at this
        cases this

theorem good_retVal : Good parseRetVal := by
  rw [parseRetVal_eq]
  refine good_byte.bind fun c => ?_
  unfold retTail
  split
  · exact good_pure _
  · have h := good_val.noPanic [c]
    split
    · exact good_pure _
    · rename_i hv
      rw [hv] at h
      exact good_fail (fun he => h (by rw [he]))

theorem noFuel_retVal : NoFuel parseRetVal := by
  rw [parseRetVal_eq]
  refine noFuel_byte.bind fun c => ?_
  unfold retTail
  split
  · exact noFuel_pure _
  · have h := noFuel_val [c]
    split
    · exact noFuel_pure _
    · rename_i hv
      rw [hv] at h
      exact noFuel_fail (fun he => h (by rw [he]))

theorem parses_funcTy : Parses parseFuncTy (GFuncTy .code) := by
  refine parses_switch (fun y h => by cases h) fun c => ?_
  split
  case h_1 hc =>
    obtain rfl := byte_of_toNat hc
    refine (Parses.bind (parses_vec parses_val) fun n => Parses.map _ (parses_vec parses_val)).congr fun b y => ⟨?_, fun h => ?_⟩
    · rintro ⟨b1, n, b2, h1, ⟨m, h2, rfl⟩, rfl⟩; exact .mk h1 h2
    · generalize hb : (UInt8.ofNat 0x60 :: b) = l at h
      cases h with
      | mk h1 h2 =>
        rw [List.cons_append] at hb
        exact ⟨_, _, _, h1, ⟨_, h2, rfl⟩, (List.cons.inj hb).2⟩
  case h_2 hc =>
    refine (parses_fail _).congr fun b y => ⟨False.elim, fun h => ?_⟩
    cases h; simp at hc

theorem good_funcTy : Good parseFuncTy :=
  good_byte.bind fun c => by
    split
    · exact (good_vec good_val).bind fun _ => (good_vec good_val).bind fun _ => good_pure _
    · exact good_fail (by simp)

theorem noFuel_funcTy : NoFuel parseFuncTy :=
  noFuel_byte.bind fun c => by
    split
    · exact (noFuel_vec noFuel_val).bind fun _ => (noFuel_vec noFuel_val).bind fun _ => noFuel_pure _
    · exact noFuel_fail (by simp)

theorem parses_tableTy : Parses parseTableTy (GTableTy .code) := by
  refine (Parses.bind parses_elemTy fun e => Parses.map _ parses_limits).congr fun b y => ⟨?_, fun h => ?_⟩
  · rintro ⟨b1, n, b2, h1, ⟨m, h2, rfl⟩, rfl⟩; exact .mk h1 h2
  · cases h with
    | mk h1 h2 => exact ⟨_, _, _, h1, ⟨_, h2, rfl⟩, rfl⟩

theorem good_tableTy : Good parseTableTy := good_elemTy.bind fun _ => good_limits.bind fun _ => good_pure _
theorem noFuel_tableTy : NoFuel parseTableTy :=
  noFuel_elemTy.bind fun _ => noFuel_limits.bind fun _ => noFuel_pure _

theorem parses_memTy : Parses parseMemTy (GMemTy .code) := by
  refine (Parses.map _ parses_limits).congr fun b y => ⟨?_, fun h => ?_⟩
  · rintro ⟨m, h2, rfl⟩; exact .mk h2
  · cases h with
    | mk h2 => exact ⟨_, h2, rfl⟩

theorem good_memTy : Good parseMemTy := good_limits.bind fun _ => good_pure _
theorem noFuel_memTy : NoFuel parseMemTy := noFuel_limits.bind fun _ => noFuel_pure _

theorem gmut_head {c : Byte} {b : List Byte} {t : Mut} (h : GMut (c :: b) t) :
    b = [] ∧ ((c.toNat = 0 ∧ t = .const) ∨ (c.toNat = 1 ∧ t = .var)) := by
  cases h <;> simp

theorem parses_mut : Parses parseMut GMut := by
  refine parses_switch (fun y h => by cases h) fun c => ?_
  split
  case h_3 =>
    refine (parses_fail _).congr fun b y => ⟨False.elim, fun h => ?_⟩
    have := gmut_head h
    simp_all
  all_goals
    rename_i hc
    obtain rfl := byte_of_toNat hc
    refine (parses_pure _).congr fun b y => ⟨?_, fun h => ?_⟩
    · rintro ⟨rfl, rfl⟩; constructor
    · have := gmut_head h
      simp_all

theorem good_mut : Good parseMut :=
  good_byte.bind fun c => by split <;> first | exact good_pure _ | exact good_fail (by simp)

theorem noFuel_mut : NoFuel parseMut :=
  noFuel_byte.bind fun c => by split <;> first | exact noFuel_pure _ | exact noFuel_fail (by simp)

theorem parses_globalTy : Parses parseGlobalTy GGlobalTy := by
  refine (Parses.bind parses_val fun e => Parses.map _ parses_mut).congr fun b y => ⟨?_, fun h => ?_⟩
  · rintro ⟨b1, n, b2, h1, ⟨m, h2, rfl⟩, rfl⟩; exact .mk h1 h2
  · cases h with
    | mk h1 h2 => exact ⟨_, _, _, h1, ⟨_, h2, rfl⟩, rfl⟩

theorem good_globalTy : Good parseGlobalTy := good_val.bind fun _ => good_mut.bind fun _ => good_pure _
theorem noFuel_globalTy : NoFuel parseGlobalTy :=
  noFuel_val.bind fun _ => noFuel_mut.bind fun _ => noFuel_pure _

end Whasm
