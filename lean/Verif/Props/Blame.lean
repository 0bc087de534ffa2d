import Verif.Lemmas.Blame
import Verif.Lemmas.DecEq
import Verif.Props.Parsing

/-!
# C78: Parse errors are true statements about the bytes read
-/

namespace Whasm
open Spec

/-- When the parser rejects an input, the bytes it has read and the bytes it has not read make up the input, and its error is a true statement about
the end of the bytes read: the sections before the one at fault are a complete module, the bytes of the section at fault end where the error
says that something is wrong.

Full statement: `∃ read, s = read ++ r ∧ ModuleBlame read r e`. What is missing: `UnexpectedEndOfFile` is also reported, with input left, when a complete code
section has not as many bodies as the function section announces (`binary/module.rs:58-60`); see `C78_negation` and `C78_bodies`. -/
theorem C78_errors_partial {s r : List Byte} {e : Error} (h : parseModule s = (.error e, r)) :
    ∃ read, s = read ++ r ∧ (ModuleBlame read r e ∨ e = .unexpectedEndOfFile ∧ BodyCount read) :=
  parseModule_error h (fun he => (C15_module s).2 (by rw [h, he])) fun he => (C15_module s).1 (by rw [h, he])

/-- The exception: whatever follows. -/
theorem C78_bodies {read : List Byte} (h : BodyCount read) (rest : List Byte) :
    parseModule (read ++ rest) = (.error .unexpectedEndOfFile, rest) := by
  obtain ⟨⟨hraw, m, hm⟩, hlt, htys, ⟨hv⟩, hne⟩ := h
  rename_i b secs tys codes sec
  have hok := (parseModule_iff _ _ _).mpr ⟨rfl, hm⟩
  obtain ⟨fuel, st, k1, _, k3, _, k5, k6⟩ := parseModule_continue hraw hok (0x0A :: sec ++ rest)
  have e : preamble ++ b ++ 0x0A :: sec ++ rest = preamble ++ (b ++ (0x0A :: sec ++ rest)) := by simp
  rw [e, k1]
  have htl : st.funcTypes.length = tys.length := by
    obtain ⟨_, hl⟩ := (parseModule_loop b m []).mp hok
    obtain ⟨secs', hb', hpair, _⟩ := loop_raw hl
    obtain rfl := rawSecs_unique hraw hb'
    rcases k6 with ⟨e1, n1⟩ | ⟨c1, m1, g1⟩ <;> rcases htys with ⟨e2, n2⟩ | ⟨c2, m2, g2⟩
    · rw [e1, e2]
    · exact (n1 _ m2).elim
    · exact (n2 _ m1).elim
    · obtain rfl := section_unique (List.pairwise_cons.mp hpair).2 (by decide) m1 m2
      have h1 := (parses_vec parses_u32).complete g1 []
      rw [(parses_vec parses_u32).complete g2 []] at h1
      rw [Except.ok.inj (congrArg Prod.fst h1)]
  have hlast : ¬ (0x0A : Byte) ≤ st.lastId := by
    intro hle
    have hle := UInt8.le_iff_toNat_le.mp hle
    rcases List.mem_cons.mp k5 with h0 | h0
    · rw [h0] at hle; simp at hle
    · have := hlt _ h0
      simp at hle; omega
  have hp := (parses_codeContent (sec ++ rest) (codes.map preFunc) rest).mpr ⟨sec, rfl, codes, hv, rfl⟩
  show (parseIteration st >>= sectionLoop fuel) (0x0A :: (sec ++ rest)) = _
  refine bind_of_error ?_
  show (if (0x0A : Byte) ≠ 0x00 then if (0x0A : Byte) ≤ st.lastId then P.fail (.unexpectedSectionId 0x0A)
    else parseSection 0x0A { st with lastId := 0x0A } else parseSection 0x0A st) (sec ++ rest) = _
  rw [if_pos (by decide), if_neg hlast]
  show (parseSized (parseUnwrappingVec (fun f : Func => f) (parseSized parseFunc)) >>= _) _ = _
  rw [bind_of_ok hp]
  simp only [List.length_map]
  rw [if_pos (by rw [htl]; exact hne)]
  rfl

/-- The witness: the code section holds one body, there is no function section, a data section follows. -/
def oneBody : List Byte := preamble ++ [0x0A, 0x04, 0x01, 0x02, 0x00, 0x0B] ++ [0x0B, 0x01, 0x00]

theorem oneBody_parses : parseModule oneBody = (.error .unexpectedEndOfFile, [0x0B, 0x01, 0x00]) := by decide +kernel

theorem group_single {g x : List Byte} {a : Byte} {y : List Byte} (hg : Group g) (ha : a.toNat < 128) (e : g ++ x = a :: y) : g = [a] ∧ x = y :=
  group_prefix (h := [a]) hg (show Group [a] from ha) e

/-- The code reports an end of the file although neither the input nor the section has ended. -/
theorem C78_negation : ¬ ∀ (s r : List Byte) (e : Error), parseModule s = (.error e, r) → ∃ read, s = read ++ r ∧ ModuleBlame read r e := by
  intro hall
  obtain ⟨read, e, h⟩ := hall _ _ _ oneBody_parses
  have e := List.append_cancel_right e
  clear hall
  have hbody : Content 12 [0x00, 0x0B] := by
    have h : parseFunc [0x00, 0x0B] = (.ok ⟨0, [], []⟩, []) := by decide +kernel
    exact (content_func _).mpr ⟨_, (parses_func.nil_iff _ _).mp h⟩
  have hcode : Content 10 [0x01, 0x02, 0x00, 0x0B] := by
    have h : parseVec (parseSized parseFunc) [0x01, 0x02, 0x00, 0x0B] = (.ok [⟨0, [], []⟩], []) := by decide +kernel
    exact (content_code _).mpr ⟨_, ((parses_vec (parses_sized good_func parses_func)).nil_iff _ _).mp h⟩
  generalize hr : [0x0B, 0x01, (0x00 : Byte)] = rest at h
  generalize he : Error.unexpectedEndOfFile = err at h
  cases h with
  | shortMagic => cases hr
  | shortVersion => cases hr
  | magic => cases he
  | version => cases he
  | sectionId => cases he
  | sectionOrder => cases he
  | @content b x _ secs id _ hc hid hord hb =>
    subst he
    rw [List.append_assoc] at e
    have e := List.append_cancel_left e
    cases hc.1 with
    | @cons id' g c bs secs' hg hu _ =>
      have e2 : g ++ (c ++ bs ++ id :: x) = (0x04 : Byte) :: [0x01, 0x02, 0x00, 0x0B] := by
        have := (List.cons.inj e).2
        simpa using this.symm
      obtain ⟨rfl, e3⟩ := group_single hg (by decide) e2
      have := congrArg List.length e3
      simp [uval] at this hu
      omega
    | nil =>
      obtain ⟨rfl, rfl⟩ := List.cons.inj e
      generalize hx : [(0x04 : Byte), 0x01, 0x02, 0x00, 0x0B] = x at hb
      generalize he : Error.unexpectedEndOfFile = err at hb
      cases hb with
      | endOfInput => cases hr
      | unsigned => cases he
      | size => cases he
      | endOfPart h1 h2 h3 =>
        obtain ⟨rfl, rfl⟩ := group_single h1.1 (by decide) hx.symm
        exact h3 _ [] rfl hcode
      | content h1 h2 h3 =>
        obtain ⟨rfl, rfl⟩ := group_single h1.1 (by decide) hx.symm
        generalize hx' : [(0x01 : Byte), 0x02, 0x00, 0x0B] = x at h3
        cases h3 with
        | endOfInput => cases hr
        | variant => cases he
        | unsigned => cases he
        | signed32 => cases he
        | signed64 => cases he
        | name => cases he
        | strayElse => cases he
        | secondElse => cases he
        | size => cases he
        | @endOfPart pre size part _ k n hk h4 h5 h6 =>
          obtain ⟨_, rfl⟩ := hk
          rw [List.append_assoc] at hx'
          rcases pre with _ | ⟨a, _ | ⟨b, _ | ⟨c, _ | ⟨d, pre⟩⟩⟩⟩
          · obtain ⟨rfl, rfl⟩ := group_single h4.1 (by decide) hx'.symm
            have := h4.2
            simp [uval] at this h5; omega
          · obtain ⟨rfl, rfl⟩ := group_single h4.1 (by decide) (List.cons.inj hx').2.symm
            exact h6 _ [] rfl hbody
          · obtain ⟨rfl, rfl⟩ := group_single h4.1 (by decide) (List.cons.inj (List.cons.inj hx').2).2.symm
            have := h4.2
            simp [uval] at this h5; omega
          · obtain ⟨rfl, rfl⟩ := group_single h4.1 (by decide) (List.cons.inj (List.cons.inj (List.cons.inj hx').2).2).2.symm
            have := h4.2
            simp [uval] at this h5; omega
          · have := (List.cons.inj (List.cons.inj (List.cons.inj (List.cons.inj hx').2).2).2).2
            have h7 : size = [] := by
              have := (List.append_eq_nil_iff.mp this.symm).2
              exact (List.append_eq_nil_iff.mp this).1
            subst h7
            exact h4.1

/-! ### Consequences -/

/-- Two kinds of error are declared and never used. -/
theorem C78_never {s r : List Byte} {e : Error} (h : parseModule s = (.error e, r)) :
    (∀ id, e ≠ .sectionSizeMissmatch id) ∧ e ≠ .functionSizeMissmatch := by
  obtain ⟨read, _, h | ⟨rfl, _⟩⟩ := C78_errors_partial h
  · constructor
    · rintro id rfl
      cases h with
      | content _ _ _ hb => cases hb with
        | content _ _ hb => cases hb
    · rintro rfl
      cases h with
      | content _ _ _ hb => cases hb with
        | content _ _ hb => cases hb
  · exact ⟨fun _ h => (by cases h), fun h => (by cases h)⟩

/-- A byte that is shown in the message is the last byte read. -/
theorem C78_last {s r : List Byte} {e : Error} (h : parseModule s = (.error e, r)) {id : Byte}
    (he : (∃ ty, e = .invalidVariantId id ty) ∨ e = .unexpectedSectionId id ∨ e = .invalidSectionId id) : ∃ read, s = read ++ id :: r := by
  obtain ⟨read, rfl, h | ⟨rfl, _⟩⟩ := C78_errors_partial h
  · rcases he with ⟨ty, rfl⟩ | rfl | rfl
    · cases h with
      | content _ _ _ hb => cases hb with
        | content _ _ hb => cases hb with
          | variant hb => exact ⟨_, by rw [← List.singleton_append (l := r)]; simp only [← List.append_assoc, ← List.cons_append]; rfl⟩
    · cases h with
      | sectionOrder => exact ⟨_, List.append_assoc _ [id] r⟩
      | content _ _ _ hb => cases hb with
        | content _ _ hb => cases hb
    · cases h with
      | sectionId => exact ⟨_, List.append_assoc _ [id] r⟩
      | content _ _ _ hb => cases hb with
        | content _ _ hb => cases hb
  · rcases he with ⟨_, h⟩ | h | h <;> cases h

/-- The types that are named in the messages, and the two words for an `else` in the wrong place. -/
theorem C78_names {s r : List Byte} {e : Error} (h : parseModule s = (.error e, r)) :
    (∀ id ty, e = .invalidVariantId id ty → Unknown id ty) ∧ (∀ op, e = .unexpectedOpcode op → op = "Else" ∨ op = "Unknown") := by
  obtain ⟨read, _, h | ⟨rfl, _⟩⟩ := C78_errors_partial h
  · constructor
    · rintro id ty rfl
      cases h with
      | content _ _ _ hb => cases hb with
        | content _ _ hb => cases hb with
          | variant hb => exact hb
    · rintro op rfl
      cases h with
      | content _ _ _ hb => cases hb with
        | content _ _ hb => cases hb with
          | strayElse => exact .inl rfl
          | secondElse => exact .inr rfl
  · exact ⟨fun _ _ h => (by cases h), fun _ h => (by cases h)⟩

/-! ### Examples -/

-- bad types: the byte at fault is the last one read
example : parseModule (preamble ++ [0x01, 0x05, 0x01, 0x60, 0x01, 0x7B, 0x00]) = (.error (.invalidVariantId 0x7B "ty::Val"), [0x00]) ∧
    parseModule (preamble ++ [0x05, 0x03, 0x01, 0x02, 0x01]) = (.error (.invalidVariantId 0x02 "ty::Limits"), [0x01]) ∧
    parseModule (preamble ++ [0x04, 0x04, 0x01, 0x6F, 0x00, 0x01]) = (.error (.invalidVariantId 0x6F "ty::Elem"), [0x00, 0x01]) := by decide +kernel

-- the content of the memory section is complete after 3 bytes, the size says 4; a type section that ends within a function type
example : parseModule (preamble ++ [0x05, 0x04, 0x01, 0x00, 0x01, 0x0B]) = (.error .sizeMissmatch, [0x0B]) ∧
    parseModule (preamble ++ [0x01, 0x03, 0x01, 0x60, 0x00, 0x00]) = (.error .unexpectedEndOfFile, [0x00]) := by decide +kernel

-- the fifth byte makes the count too large, whatever follows
example : parseModule (preamble ++ [0x01, 0x06, 0xFF, 0xFF, 0xFF, 0xFF, 0x1F, 0x00]) = (.error .outOfRangeUnsignedInteger, [0x00]) := by decide +kernel

-- `else` where there is no `if`; a second `else`
example : parseModule (preamble ++ [0x03, 0x02, 0x01, 0x00, 0x0A, 0x06, 0x01, 0x04, 0x00, 0x01, 0x05, 0x0B]) = (.error (.unexpectedOpcode "Else"), [0x0B]) ∧
    parseModule (preamble ++ [0x03, 0x02, 0x01, 0x00, 0x0A, 0x0B, 0x01, 0x09, 0x00, 0x04, 0x40, 0x05, 0x01, 0x05, 0x0B, 0x0B, 0x0B]) =
      (.error (.unexpectedOpcode "Unknown"), [0x0B, 0x0B, 0x0B]) := by decide +kernel

-- what the statement says in one case: the sections before are a module, and no function type begins with the byte 0x61
example : ModuleBlame (preamble ++ [] ++ 0x01 :: ([0x04] ++ [0x01, 0x61])) [0x00, 0x00] (.invalidVariantId 0x61 "ty::Func") := by
  refine .content (b := []) (secs := []) ⟨.nil, {}, ((parseModule_iff preamble {} []).mp (by decide +kernel)).2⟩ (by decide) (fun _ => by simp [secIds])
    (.content (n := 4) ⟨by decide, by decide⟩ (by decide) (.variant (pre := [0x01]) (.func ?_)))
  rintro more x h
  cases h

-- the exception
example : BodyCount (preamble ++ [] ++ [0x0A, 0x04, 0x01, 0x02, 0x00, 0x0B]) := by
  have h : parseVec (parseSized parseFunc) [0x01, 0x02, 0x00, 0x0B] = (.ok [⟨0, [], []⟩], []) := by decide +kernel
  obtain ⟨codes, hc⟩ := (content_code _).mpr ⟨_, ((parses_vec (parses_sized good_func parses_func)).nil_iff _ _).mp h⟩
  refine .mk (secs := []) (tys := []) (codes := codes) ⟨.nil, {}, ((parseModule_iff preamble {} []).mp (by decide +kernel)).2⟩ (by simp [secIds])
    (.inl ⟨rfl, by simp⟩) (.mk (gsized_content.mpr ⟨[0x04], _, rfl, (by decide : (0x04 : Byte).toNat < 128), by decide, by decide, hc⟩)) ?_
  intro h0
  have : codes = [] := List.eq_nil_of_length_eq_zero h0
  subst this
  have h1 := (parses_vec (parses_sized good_func parses_func)).nil_iff [0x01, 0x02, 0x00, 0x0B] []
  rw [h] at h1
  have : GVec Dialect.code (GSized Dialect.code fun b f => ∃ c, GFunc Dialect.code b c ∧ f = ({ ty := 0, locals := c.1, body := c.2 } : Func))
      [0x01, 0x02, 0x00, 0x0B] [] := by
    generalize hb : [(0x01 : Byte), 0x02, 0x00, 0x0B] = b at hc
    generalize hx : ([] : List (List Val × Expr)) = xs at hc
    cases hc with
    | mk k1 k2 k3 =>
      subst hx
      cases k3
      exact .mk k1 k2 .nil
  exact absurd (h1.mpr this) (by decide +kernel)

end Whasm
