import Verif.Lemmas.Cut
import Verif.Lemmas.DecEq

/-!
# C65: streams that end too early, streams that go on
-/

namespace Whasm
open Spec

/-- **C65, final errors.** An error that is neither an end of input nor a wrong size, or that leaves something unread, is reported whatever
follows: reading more bytes does not help. -/
theorem C65_final {s r : List Byte} {e : Error} (h : parseModule s = (.error e, r))
    (he : (e ≠ .unexpectedEndOfFile ∧ e ≠ .sizeMissmatch) ∨ r ≠ []) (t : List Byte) : parseModule (s ++ t) = (.error e, r ++ t) :=
  parseModule_final h he t

/-- **C65, cut between sections.** If an accepted module is cut after some of its sections, what remains is accepted; the result is the
module without the sections that are missing. -/
theorem C65_between {b t : List Byte} {secs : List (Byte × List Byte)} (hb : RawSecs b secs) {m : Module}
    (h : parseModule (preamble ++ (b ++ t)) = (.ok m, [])) : parseModule (preamble ++ b) = (.ok (upTo (topId secs) m), []) := by
  obtain ⟨m1, hl⟩ := loop_split hb ((parseModule_loop _ m []).mp h).2
  have hm1 := (parseModule_loop b m1 []).mpr ⟨rfl, hl⟩
  rw [hm1, parseModule_upTo hb hm1 h]

/-- **C65, cut within a section.** `b` are the sections before, `id` the number of the section, `g ++ c` its size and content; of these
the stream has `x` only. The error is an end of input, except in a custom section after its name. -/
theorem C65_within {b g c bs : List Byte} {id : Byte} {secs : List (Byte × List Byte)} {m : Module} (hb : RawSecs b secs)
    (hg : Group g) (hu : uval g = c.length) (h : parseModule (preamble ++ (b ++ id :: (g ++ (c ++ bs)))) = (.ok m, []))
    {x y : List Byte} (hxy : g ++ c = x ++ y) (hy : y ≠ []) :
    (id = 0 ∧ (∃ n rest nm, x = g ++ (n ++ rest) ∧ GName .code n nm) ∧ parseModule (preamble ++ (b ++ id :: x)) = (.error .sizeMissmatch, [])) ∨
    (¬ (id = 0 ∧ ∃ n rest nm, x = g ++ (n ++ rest) ∧ GName .code n nm) ∧
      parseModule (preamble ++ (b ++ id :: x)) = (.error .unexpectedEndOfFile, [])) := by
  obtain ⟨k1, k2⟩ := cut_section hb hg hu h hxy hy
  by_cases hid : id = 0
  · by_cases hn : ∃ n rest nm, x = g ++ (n ++ rest) ∧ GName .code n nm
    · obtain ⟨n, rest, nm, e, hn'⟩ := hn
      exact .inl ⟨hid, ⟨n, rest, nm, e, hn'⟩, (k2 hid).1 n rest nm e hn'⟩
    · exact .inr ⟨fun h => hn h.2, (k2 hid).2 hn⟩
  · exact .inr ⟨fun h => hid h.1, k1 hid⟩

/-- **C65, all prefixes.** Every proper prefix of an accepted module is an end of input, or an accepted module without the later sections,
or a wrong size; the latter only within a custom section whose name is complete. -/
theorem C65_prefix {s t : List Byte} {m : Module} (ht : t ≠ []) (h : parseModule (s ++ t) = (.ok m, [])) :
    parseModule s = (.error .unexpectedEndOfFile, []) ∨
    (∃ b secs, s = preamble ++ b ∧ RawSecs b secs ∧ parseModule s = (.ok (upTo (topId secs) m), [])) ∨
    (∃ b secs g n rest nm, s = preamble ++ (b ++ 0x00 :: (g ++ (n ++ rest))) ∧ RawSecs b secs ∧ Group g ∧ GName .code n nm ∧
      (n ++ rest).length < uval g ∧ parseModule s = (.error .sizeMissmatch, [])) := by
  obtain ⟨_, hm⟩ := (parseModule_iff _ _ _).mp h
  obtain ⟨b, hb⟩ : ∃ b, s ++ t = preamble ++ b := by
    generalize s ++ t = l at hm
    cases hm; exact ⟨_, rfl⟩
  rcases List.append_eq_append_iff.mp hb with ⟨z, hz, rfl⟩ | ⟨x, rfl, rfl⟩
  · by_cases hz0 : z = []
    · subst hz0
      have hs : s = preamble := by simpa using hz.symm
      subst hs
      exact .inr (.inl ⟨[], [], rfl, .nil, rfl⟩)
    · left
      have hlen : s.length < 8 := by
        have := congrArg List.length hz
        rw [List.length_append] at this
        have h2 : z.length ≠ 0 := by simpa using hz0
        have h3 : preamble.length = 8 := rfl
        omega
      match s, hz, hlen with
      | [], _, _ => rfl
      | [_], hz, _ => rfl
      | [_, _], hz, _ => rfl
      | [_, _, _], hz, _ => rfl
      | [_, _, _, _], hz, _ => cases hz; rfl
      | [_, _, _, _, _], hz, _ => cases hz; rfl
      | [_, _, _, _, _, _], hz, _ => cases hz; rfl
      | [_, _, _, _, _, _, _], hz, _ => cases hz; rfl
      | _ :: _ :: _ :: _ :: _ :: _ :: _ :: _ :: _, _, h => simp at h; omega
  · rw [hb] at h
    obtain ⟨secs, hsecs, _⟩ := loop_raw ((parseModule_loop _ m []).mp h).2
    rcases rawSecs_cut hsecs rfl with ⟨secs1, _, _, k⟩ | ⟨b1, id, g, c, x', y', bs, secs1, k1, k2, k3, k4, k5, rfl, rfl⟩
    · exact .inr (.inl ⟨x, secs1, rfl, k, C65_between k h⟩)
    · have e : b1 ++ id :: x' ++ (y' ++ bs) = b1 ++ id :: (g ++ (c ++ bs)) := by
        rw [← List.append_assoc g, k4]; simp
      rw [e] at h
      rcases C65_within k1 k2 k3 h k4 k5 with ⟨rfl, ⟨n, rest, nm, rfl, hn⟩, hr⟩ | ⟨_, hr⟩
      · refine .inr (.inr ⟨b1, secs1, g, n, rest, nm, rfl, k1, k2, hn, ?_, hr⟩)
        rw [k3]
        have := congrArg List.length k4
        have h2 : y'.length ≠ 0 := by simpa using k5
        simp only [List.length_append] at this ⊢
        omega
      · exact .inl hr

/-! ### Examples -/

/-- A module with a type, a custom section and a memory. -/
def cutExample : List Byte := preamble ++ [0x01, 0x04, 0x01, 0x60, 0x00, 0x00, 0x00, 0x05, 0x02, 0x61, 0x62, 0x07, 0x08, 0x05, 0x03, 0x01, 0x00, 0x01]

-- exactly the cuts between sections are accepted
example : (List.range 27).map (fun n => (parseModule (cutExample.take n)).1.toOption.isSome) =
    (List.range 27).map (fun n => [8, 14, 21, 26].contains n) := by decide +kernel

example : parseModule cutExample = (.ok { types := [⟨[], []⟩], mems := [⟨⟨⟨1, none⟩⟩⟩] }, []) ∧
    parseModule (cutExample.take 21) = (.ok { types := [⟨[], []⟩] }, []) ∧
    parseModule (cutExample.take 13) = (.error .unexpectedEndOfFile, []) ∧
    parseModule (cutExample.take 18) = (.error .unexpectedEndOfFile, []) ∧
    parseModule (cutExample.take 19) = (.error .sizeMissmatch, []) ∧
    parseModule (cutExample.take 23) = (.error .unexpectedEndOfFile, []) := by decide +kernel

-- a final error: section 1 after section 5, with and without something after it
example : parseModule (cutExample ++ [0x01]) = (.error (.unexpectedSectionId 0x01), []) ∧
    parseModule (cutExample ++ [0x01] ++ [0x04, 0x01]) = (.error (.unexpectedSectionId 0x01), [0x04, 0x01]) := by decide +kernel

-- the condition of `C65_final` is needed: both errors can be cured by further bytes
example : ∃ s t e, parseModule s = (.error e, []) ∧ e = .sizeMissmatch ∧ (parseModule (s ++ t)).1.toOption.isSome :=
  ⟨cutExample.take 19, cutExample.drop 19, _, by decide +kernel, rfl, by decide +kernel⟩

-- and an end of input that nothing cures: the code section has more bodies than the function section announces
example : parseModule (preamble ++ [0x0A, 0x04, 0x01, 0x02, 0x00, 0x0B]) = (.error .unexpectedEndOfFile, []) ∧
    parseModule (preamble ++ [0x0A, 0x04, 0x01, 0x02, 0x00, 0x0B] ++ [0x0B, 0x01, 0x00]) = (.error .unexpectedEndOfFile, [0x0B, 0x01, 0x00]) := by
  decide +kernel

end Whasm
