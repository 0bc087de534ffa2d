import Verif.Lemmas.Sections
import Verif.Lemmas.Dialect
import Verif.Lemmas.DecEq
import Verif.Spec.Size

/-!
# C21 – C26, C29: modules
-/

namespace Whasm
open Spec

/-! ## C21 -/

theorem four_short {s : List Byte} (h : s.length < 4) : parseN 4 parseByte s = (.error .unexpectedEndOfFile, []) := by
  match s, h with
  | [], _ => rfl
  | [_], _ => rfl
  | [_, _], _ => rfl
  | [_, _, _], _ => rfl
  | _ :: _ :: _ :: _ :: _, h => simp at h; omega

/-- **C21, magic.** -/
theorem C21_magic :
    (∀ s : List Byte, s.length < 4 → parseModule s = (.error .unexpectedEndOfFile, [])) ∧
    (∀ b t : List Byte, b.length = 4 → b ≠ [0x00, 0x61, 0x73, 0x6D] → parseModule (b ++ t) = (.error .invalidPreambleMagic, t)) := by
  refine ⟨fun s h => bind_of_error (four_short h), fun b t h hne => ?_⟩
  unfold parseModule
  rw [bind_of_ok ((parses4 _ _ _).mpr ⟨b, rfl, h, rfl⟩ : parseN 4 parseByte (b ++ t) = (.ok b, t)),
    if_pos (fun h => hne ((magic_iff b).mp h))]
  rfl

/-- **C21, version**, looked at only if the magic number is right. -/
theorem C21_version :
    (∀ s : List Byte, s.length < 4 → parseModule ([0x00, 0x61, 0x73, 0x6D] ++ s) = (.error .unexpectedEndOfFile, [])) ∧
    (∀ b t : List Byte, b.length = 4 → b ≠ [0x01, 0x00, 0x00, 0x00] →
      parseModule ([0x00, 0x61, 0x73, 0x6D] ++ (b ++ t)) = (.error .invalidPreambleVersion, t)) := by
  constructor
  · intro s h
    unfold parseModule
    rw [bind_of_ok ((parses4 _ _ _).mpr ⟨_, rfl, rfl, rfl⟩), if_neg (by rw [Decidable.not_not, magic_iff])]
    exact bind_of_error (four_short h)
  · intro b t h hne
    unfold parseModule
    rw [bind_of_ok ((parses4 _ _ _).mpr ⟨_, rfl, rfl, rfl⟩), if_neg (by rw [Decidable.not_not, magic_iff]),
      bind_of_ok ((parses4 _ _ _).mpr ⟨b, rfl, h, rfl⟩ : parseN 4 parseByte (b ++ t) = (.ok b, t)), if_pos hne]
    rfl

/-- Every accepted module starts with the preamble. -/
theorem C21_accepted {s r : List Byte} {m : Module} (h : parseModule s = (.ok m, r)) : ∃ b, s = preamble ++ b := by
  obtain ⟨_, h⟩ := (parseModule_iff _ _ _).mp h
  cases h
  exact ⟨_, rfl⟩

example : parseModule [0x00, 0x61, 0x73, 0x6E, 0xFF] = (.error .invalidPreambleMagic, [0xFF]) ∧
    parseModule [0x00, 0x61, 0x73, 0x6D, 0x02, 0x00, 0x00, 0x00, 0xFF] = (.error .invalidPreambleVersion, [0xFF]) ∧
    parseModule [0x00, 0x61, 0x73, 0x6D, 0x01] = (.error .unexpectedEndOfFile, []) := by decide +kernel

/-! ## C22 -/

/-- **C22, accepted modules.** A module that is accepted is a sequence of sections; the numbers of those that are not custom sections
increase strictly and lie between 1 and 11. (The decomposition is unique.) -/
theorem C22_order {b r : List Byte} {m : Module} (h : parseModule (preamble ++ b) = (.ok m, r)) :
    ∃ secs, RawSecs b secs ∧ (∀ secs', RawSecs b secs' → secs' = secs) ∧ (secIds secs).Pairwise (· < ·) ∧
      ∀ k ∈ secIds secs, 1 ≤ k ∧ k ≤ 11 := by
  obtain ⟨_, hl⟩ := (parseModule_loop b m r).mp h
  obtain ⟨secs, h1, h2, h3⟩ := loop_raw hl
  refine ⟨secs, h1, fun s' h' => rawSecs_unique h' h1, (List.pairwise_cons.mp h2).2, fun k hk => ?_⟩
  refine ⟨(List.pairwise_cons.mp h2).1 k hk, ?_⟩
  simp only [secIds, List.mem_filter, List.mem_map] at hk
  obtain ⟨⟨x, hx, rfl⟩, _⟩ := hk
  exact h3 x hx

/-- **C22, out of order.** After sections that were fine, a section whose number is not larger than an earlier one is rejected; nothing
after its number is looked at. -/
theorem C22_unexpected {b : List Byte} {secs : List (Byte × List Byte)} (hb : RawSecs b secs) {m : Module}
    (h : parseModule (preamble ++ b) = (.ok m, [])) {id : Byte} (hid : id ≠ 0) {k : Nat} (hk : k ∈ secIds secs) (hle : id.toNat ≤ k)
    (t : List Byte) : parseModule (preamble ++ (b ++ id :: t)) = (.error (.unexpectedSectionId id), t) := by
  obtain ⟨fuel, st, h1, _, h3, _⟩ := parseModule_continue hb h (id :: t)
  rw [h1]
  show (parseIteration st >>= _) (id :: t) = _
  refine bind_of_error ?_
  unfold parseIteration
  rw [bind_of_ok (rfl : parseByte (id :: t) = (.ok id, t)), if_pos hid, if_pos]
  · rfl
  · have := h3 k hk
    exact UInt8.le_iff_toNat_le.mpr (by omega)

/-- **C22, unknown section.** -/
theorem C22_invalid {b : List Byte} {secs : List (Byte × List Byte)} (hb : RawSecs b secs) {m : Module}
    (h : parseModule (preamble ++ b) = (.ok m, [])) {id : Byte} (hid : 11 < id.toNat) (t : List Byte) :
    parseModule (preamble ++ (b ++ id :: t)) = (.error (.invalidSectionId id), t) := by
  obtain ⟨fuel, st, h1, _, _, h4, _⟩ := parseModule_continue hb h (id :: t)
  rw [h1]
  show (parseIteration st >>= _) (id :: t) = _
  refine bind_of_error ?_
  unfold parseIteration
  have hne : id ≠ 0 := by rintro rfl; simp at hid
  rw [bind_of_ok (rfl : parseByte (id :: t) = (.ok id, t)), if_pos hne, if_neg]
  · show parseSection id _ t = P.fail (.invalidSectionId id) t
    refine congrFun ?_ t
    unfold parseSection
    split
    case h_13 => rfl
    all_goals (exfalso; omega)
  · intro hle
    have := UInt8.le_iff_toNat_le.mp hle
    omega

-- type section, custom section, memory section; then again a type section
example : RawSecs [0x01, 0x01, 0x00, 0x00, 0x02, 0x01, 0x61, 0x05, 0x01, 0x00] [(1, [0x00]), (0, [0x01, 0x61]), (5, [0x00])] ∧
    parseModule (preamble ++ [0x01, 0x01, 0x00, 0x00, 0x02, 0x01, 0x61, 0x05, 0x01, 0x00]) = (.ok {}, []) ∧
    parseModule (preamble ++ [0x01, 0x01, 0x00, 0x00, 0x02, 0x01, 0x61, 0x05, 0x01, 0x00, 0x01, 0xAA])
      = (.error (.unexpectedSectionId 1), [0xAA]) ∧
    parseModule (preamble ++ [0x01, 0x01, 0x00, 0x0C, 0xAA]) = (.error (.invalidSectionId 0x0C), [0xAA]) :=
  ⟨.cons (id := 1) (g := [0x01]) (c := [0x00]) (by decide) rfl (.cons (id := 0) (g := [0x02]) (c := [0x01, 0x61]) (by decide) rfl
    (.cons (id := 5) (g := [0x01]) (c := [0x00]) (by decide) rfl .nil)), by decide +kernel, by decide +kernel, by decide +kernel⟩

/-! ## C23 -/

/-- **C23.** `Dialect.code`: the grammar of the W3C document with the liberties of C05, C26, C29 and C54. -/
theorem C23_module (s : List Byte) (m : Module) (r : List Byte) :
    parseModule s = (.ok m, r) ↔ r = [] ∧ GModule .code s m := parseModule_iff s m r

/-- **C23, the document.** Every module of the W3C grammar is accepted with the module it denotes. -/
theorem C23_w3c {s : List Byte} {m : Module} (h : GModule .w3c s m) : parseModule s = (.ok m, []) :=
  (C23_module _ _ _).mpr ⟨rfl, gmodule_mono w3c_le_code h⟩

/-- The module denoted is unique. -/
theorem C23_unambiguous {s : List Byte} {m m' : Module} (h : GModule .w3c s m) (h' : GModule .w3c s m') : m = m' := by
  have h1 := C23_w3c h
  rw [C23_w3c h'] at h1
  cases h1; rfl

-- (module (func (export "f") (result i32) i32.const 42))
example : parseModule (preamble ++ [0x01, 0x05, 0x01, 0x60, 0x00, 0x01, 0x7F, 0x03, 0x02, 0x01, 0x00,
      0x07, 0x05, 0x01, 0x01, 0x66, 0x00, 0x00, 0x0A, 0x06, 0x01, 0x04, 0x00, 0x41, 0x2A, 0x0B]) =
    (.ok { types := [⟨[], [.i32]⟩], funcs := [⟨0, [], [.constI32 42]⟩], exports := [⟨[0x66], .func 0⟩] }, []) := by decide +kernel

/-! ## C24 -/

/-- **C24.** Custom sections `c` inserted after any number of sections `b1`, whatever follows. -/
theorem C24_customs {b1 c b2 : List Byte} {secs : List (Byte × List Byte)} (h1 : RawSecs b1 secs) (hc : GCustoms .code c) (m : Module) :
    parseModule (preamble ++ (b1 ++ (c ++ b2))) = (.ok m, []) ↔ parseModule (preamble ++ (b1 ++ b2)) = (.ok m, []) := by
  rw [parseModule_loop, parseModule_loop, loop_insert h1 hc]

example : GCustoms .code [0x00, 0x03, 0x01, 0x61, 0xFF] :=
  .cons (b := [0x00, 0x03, 0x01, 0x61, 0xFF]) (bs := []) (.mk (.mk (n := [0x03]) (b := [0x01, 0x61, 0xFF]) (len := 3) ⟨by decide, rfl⟩ rfl
    (.mk (b := [0x01, 0x61]) [0xFF] (.mk (n := [0x61]) (.mk (n := [0x01]) (len := 1) ⟨by decide, rfl⟩ rfl (gseq_byte.mpr rfl))
      ⟨['a'], by decide⟩)))) .nil

/-! ## C25 -/

/-- **C25, pairing.** -/
theorem C25_paired {b r : List Byte} {m : Module} (h : parseModule (preamble ++ b) = (.ok m, r))
    {secs : List (Byte × List Byte)} (hb : RawSecs b secs) {c : List Byte} (hc : (0x0A, c) ∈ secs) :
    ∃ tys codes, GVec .code (GSized .code (GFunc .code)) c codes ∧ codes.length = tys.length ∧
      ((tys = [] ∧ ∀ c3, (0x03, c3) ∉ secs) ∨ ∃ c3, (0x03, c3) ∈ secs ∧ GVec .code Dialect.code.u32 c3 tys) ∧
      m.funcs.length = tys.length ∧
      ∀ i : Nat, m.funcs[i]? = tys[i]?.bind fun t => codes[i]?.map fun c => { ty := t, locals := c.1, body := c.2 } := by
  obtain ⟨_, hl⟩ := (parseModule_loop b m r).mp h
  obtain ⟨tys, codes, k1, k2, k3, k4⟩ := loop_code hb hl c hc
  refine ⟨tys, codes, k1, k2, k4, ?_, fun i => ?_⟩
  · rw [k3, pairFuncs, List.length_zipWith]; omega
  · rw [k3, pairFuncs, List.getElem?_zipWith]
    cases tys[i]? <;> cases codes[i]? <;> rfl

theorem content_unique {id : Byte} (hid : id ≠ 0) {c c' : List Byte} : ∀ {secs : List (Byte × List Byte)},
    (secIds secs).Pairwise (· < ·) → (id, c) ∈ secs → (id, c') ∈ secs → c = c'
  | [], _, h, _ => by cases h
  | x :: secs, hp, h, h' => by
    have hn : id.toNat ≠ 0 := fun h0 => hid (UInt8.toNat_inj.mp (by simpa using h0))
    have later : ∀ {d : List Byte}, (id, d) ∈ secs → id.toNat ∈ secIds secs := by
      intro d hd
      simp only [secIds, List.mem_filter, List.mem_map]
      exact ⟨⟨_, hd, rfl⟩, by simpa using hn⟩
    by_cases hx : x.1.toNat = 0
    · have e : secIds (x :: secs) = secIds secs := by simp [secIds, hx]
      rw [e] at hp
      rcases List.mem_cons.mp h with rfl | h
      · exact (hn hx).elim
      rcases List.mem_cons.mp h' with rfl | h'
      · exact (hn hx).elim
      exact content_unique hid hp h h'
    · have e : secIds (x :: secs) = x.1.toNat :: secIds secs := by simp [secIds, hx]
      rw [e] at hp
      obtain ⟨hp1, hp2⟩ := List.pairwise_cons.mp hp
      rcases List.mem_cons.mp h with k | k
      · rcases List.mem_cons.mp h' with k' | k'
        · rw [← k'] at k; exact (Prod.mk.inj k).2
        · have := hp1 _ (later k'); rw [← k] at this; exact (Nat.lt_irrefl _ this).elim
      · rcases List.mem_cons.mp h' with k' | k'
        · have := hp1 _ (later k); rw [← k'] at this; exact (Nat.lt_irrefl _ this).elim
        · exact content_unique hid hp2 k k'

theorem gvec_unique {α : Type} {p : P α} {G : List Byte → α → Prop} (hp : Parses p G) {b : List Byte} {xs ys : List α}
    (h : GVec .code G b xs) (h' : GVec .code G b ys) : xs = ys := by
  have h1 := (parses_vec hp b xs []).mpr ⟨b, by simp, h⟩
  rw [(parses_vec hp b ys []).mpr ⟨b, by simp, h'⟩] at h1
  cases h1; rfl

theorem gcode_unique {c : List Byte} {xs ys : List (List Val × Expr)} (h : GVec .code (GSized .code (GFunc .code)) c xs)
    (h' : GVec .code (GSized .code (GFunc .code)) c ys) : xs = ys := by
  have key : ∀ zs, GVec .code (GSized .code (GFunc .code)) c zs → GVec .code (GSized .code (fun b f => ∃ c, GFunc .code b c ∧ f = { ty := 0, locals := c.1, body := c.2 })) c (zs.map preFunc) := by
    intro zs hz
    have : GSized Dialect.code (fun b f => ∃ c, GFunc .code b c ∧ f = { ty := 0, locals := c.1, body := c.2 }) =
        fun b y => ∃ x, GSized .code (GFunc .code) b x ∧ y = preFunc x := by
      funext b x; exact propext (gsized_map preFunc)
    rw [this]
    exact (gvec_map preFunc).mpr ⟨zs, hz, rfl⟩
  have h1 := gvec_unique (parses_sized good_func parses_func) (key xs h) (key ys h')
  refine (List.map_inj_right ?_).mp h1
  rintro ⟨a1, a2⟩ ⟨b1, b2⟩ hab
  simp only [preFunc, Func.mk.injEq] at hab
  simp [hab.2.1, hab.2.2]

/-- The code section is read whatever the number of functions declared. -/
theorem code_parses {c : List Byte} {codes : List (List Val × Expr)} (h : GSized .code (GVec .code (GSized .code (GFunc .code))) c codes)
    (t : List Byte) : parseSized (parseUnwrappingVec (fun f : Func => f) (parseSized parseFunc)) (c ++ t) = (.ok (codes.map preFunc), t) :=
  (parses_codeContent _ _ _).mpr ⟨c, rfl, codes, h, rfl⟩

/-- **C25, mismatch.** If the numbers differ the module is rejected. -/
theorem C25_mismatch {b : List Byte} {secs : List (Byte × List Byte)} (hb : RawSecs b secs) {c : List Byte} (hc : (0x0A, c) ∈ secs)
    {codes : List (List Val × Expr)} (hcodes : GVec .code (GSized .code (GFunc .code)) c codes)
    {tys : List Idx} (htys : (tys = [] ∧ ∀ c3, (0x03, c3) ∉ secs) ∨ ∃ c3, (0x03, c3) ∈ secs ∧ GVec .code Dialect.code.u32 c3 tys)
    (hne : codes.length ≠ tys.length) (m : Module) (r : List Byte) : parseModule (preamble ++ b) ≠ (.ok m, r) := by
  intro h
  obtain ⟨secs', hb', _, hp, _⟩ := C22_order h
  obtain rfl := rawSecs_unique hb hb'
  obtain ⟨tys', codes', k1, k2, k3, _⟩ := C25_paired h hb hc
  obtain rfl := gcode_unique hcodes k1
  apply hne
  rw [k2]
  rcases htys with ⟨rfl, h3⟩ | ⟨c3, h3, h4⟩
  · rcases k3 with ⟨rfl, _⟩ | ⟨c3, k3, _⟩
    · rfl
    · exact (h3 c3 k3).elim
  · rcases k3 with ⟨_, k3⟩ | ⟨c3', k3, k4⟩
    · exact (k3 c3 h3).elim
    · -- the function section is unique
      have : c3 = c3' := content_unique (by decide) hp h3 k3
      subst this
      rw [gvec_unique parses_idx h4 k4]

/-- **C25, the error.** After sections that were fine, a code section with another number of bodies than functions declared is rejected with
`UnexpectedEndOfFile`, whatever follows. -/
theorem C25_error {b : List Byte} {secs : List (Byte × List Byte)} (hb : RawSecs b secs) {m : Module}
    (h : parseModule (preamble ++ b) = (.ok m, [])) (hlt : ∀ k ∈ secIds secs, k < 10) {tys : List Idx}
    (htys : (tys = [] ∧ ∀ c3, (0x03, c3) ∉ secs) ∨ ∃ c3, (0x03, c3) ∈ secs ∧ GVec .code Dialect.code.u32 c3 tys)
    {c : List Byte} {codes : List (List Val × Expr)} (hcodes : GSized .code (GVec .code (GSized .code (GFunc .code))) c codes)
    (hne : codes.length ≠ tys.length) (t : List Byte) :
    parseModule (preamble ++ (b ++ 0x0A :: (c ++ t))) = (.error .unexpectedEndOfFile, t) := by
  obtain ⟨_, hb', _, hp, _⟩ := C22_order h
  obtain rfl := rawSecs_unique hb hb'
  obtain ⟨fuel, st, h1, _, _, _, h5, h6⟩ := parseModule_continue hb h (0x0A :: (c ++ t))
  have hty : st.funcTypes = tys := by
    rcases htys with ⟨rfl, h3⟩ | ⟨c3, h3, h4⟩
    · rcases h6 with ⟨e, _⟩ | ⟨c3, k3, _⟩
      · exact e
      · exact (h3 c3 k3).elim
    · rcases h6 with ⟨_, k3⟩ | ⟨c3', k3, k4⟩
      · exact (k3 c3 h3).elim
      · obtain rfl := content_unique (by decide) hp h3 k3
        exact gvec_unique parses_idx k4 h4
  have hlast : st.lastId.toNat < 10 := by
    rcases List.mem_cons.mp h5 with h0 | h0
    · omega
    · exact hlt _ h0
  rw [h1]
  show (parseIteration st >>= _) (0x0A :: (c ++ t)) = _
  refine bind_of_error ?_
  unfold parseIteration
  rw [bind_of_ok (rfl : parseByte (0x0A :: (c ++ t)) = (.ok 0x0A, c ++ t)), if_pos (by decide), if_neg]
  · show (parseSized (parseUnwrappingVec (fun f : Func => f) (parseSized parseFunc)) >>= _) (c ++ t) = _
    rw [bind_of_ok (code_parses hcodes t), if_pos]
    · rfl
    · rw [List.length_map, hty]; exact hne
  · intro hle
    have := UInt8.le_iff_toNat_le.mp hle
    have h10 : (0x0A : UInt8).toNat = 10 := rfl
    omega

-- types 1, 0 for two bodies, then the same with one body only
example : parseModule (preamble ++ [0x03, 0x03, 0x02, 0x01, 0x00, 0x0A, 0x09, 0x02, 0x02, 0x00, 0x0B, 0x04, 0x01, 0x01, 0x7F, 0x0B])
      = (.ok { funcs := [⟨1, [], []⟩, ⟨0, [.i32], []⟩] }, []) ∧
    parseModule (preamble ++ [0x03, 0x03, 0x02, 0x01, 0x00, 0x0A, 0x04, 0x01, 0x02, 0x00, 0x0B])
      = (.error .unexpectedEndOfFile, []) := by decide +kernel

/-! ## C26 -/

/-- **C26 is false of the code.** The function section declares one function, there is no code section, and the module is accepted; the
declared function is dropped. -/
theorem C26_negation : ∃ b c tys, parseModule (preamble ++ b) = (.ok { types := [⟨[], []⟩] }, []) ∧
    ∃ secs, RawSecs b secs ∧ (0x03, c) ∈ secs ∧ GVec .code Dialect.code.u32 c tys ∧ tys ≠ [] ∧ ∀ d, (0x0A, d) ∉ secs := by
  refine ⟨[0x01, 0x04, 0x01, 0x60, 0x00, 0x00, 0x03, 0x02, 0x01, 0x00], [0x01, 0x00], [0], by decide +kernel,
    [(1, [0x01, 0x60, 0x00, 0x00]), (3, [0x01, 0x00])],
    .cons (id := 1) (g := [0x04]) (c := [0x01, 0x60, 0x00, 0x00]) (by decide) rfl
      (.cons (id := 3) (g := [0x02]) (c := [0x01, 0x00]) (by decide) rfl .nil), by decide, ?_, by decide, ?_⟩
  · exact .mk (n := [0x01]) (len := 1) ⟨by decide, rfl⟩ rfl (.cons (b := [0x00]) ⟨by decide, rfl⟩ .nil)
  · intro d hd
    simp at hd

/-- In general: without a code section the functions are lost, whatever the function section says. -/
theorem C26_dropped {b r : List Byte} {m : Module} (h : parseModule (preamble ++ b) = (.ok m, r)) {secs : List (Byte × List Byte)}
    (hb : RawSecs b secs) (hno : ∀ c, (0x0A, c) ∉ secs) : m.funcs = [] :=
  loop_noCode hb ((parseModule_loop b m r).mp h).2 hno

/-- **C26, what holds.** If there is a code section, none of the declared functions is lost: a module whose function section announces `n`
functions is accepted with exactly `n` functions or not at all. Missing: rejection when there is no code section (false, see above). -/
theorem C26_kept_partial {b r : List Byte} {m : Module} (h : parseModule (preamble ++ b) = (.ok m, r)) {secs : List (Byte × List Byte)}
    (hb : RawSecs b secs) {c : List Byte} (hc : (0x0A, c) ∈ secs) {c3 : List Byte} (h3 : (0x03, c3) ∈ secs) {tys : List Idx}
    (ht : GVec .code Dialect.code.u32 c3 tys) : m.funcs.map (·.ty) = tys := by
  obtain ⟨tys', codes, k1, k2, k3, k4, k5⟩ := C25_paired h hb hc
  obtain ⟨secs', hb', _, hp, _⟩ := C22_order h
  obtain rfl := rawSecs_unique hb hb'
  have e : tys' = tys := by
    rcases k3 with ⟨_, k3⟩ | ⟨c3', k3, k6⟩
    · exact (k3 c3 h3).elim
    · obtain rfl := content_unique (by decide) hp h3 k3
      exact gvec_unique parses_idx k6 ht
  subst e
  refine List.ext_getElem? fun i => ?_
  rw [List.getElem?_map, k5 i]
  rcases Nat.lt_or_ge i tys'.length with hi | hi
  · rw [List.getElem?_eq_getElem hi, List.getElem?_eq_getElem (by omega)]; rfl
  · rw [List.getElem?_eq_none hi]; rfl

/-! ## C29 -/

theorem ginstrs_bounds {D : Dialect} {b : List Byte} {is : List Instr} (h : GInstrs D b is) :
    sizeL is ≤ b.length ∧ depthL is ≤ b.length := by
  refine GInstrs.rec (D := D) (motive_1 := fun b i _ => sizeI i ≤ b.length ∧ depthI i ≤ b.length)
    (motive_2 := fun b is _ => sizeL is ≤ b.length ∧ depthL is ≤ b.length)
    ?_ ?_ ?_ ?_ ?_ ?_ ?_ ?_ ?_ ?_ ?_ ?_ ?_ ?_ ?_ ?_ ?_ ?_ ?_ ?_ ?_ ?_ ?_ ?_ ?_ ?_ ?_ ?_ ?_ ?_ h
  all_goals (intros; simp only [sizeI, sizeL, depthI, depthL, List.length_append, List.length_cons, List.length_nil] at *; omega)

/-- **C29, expressions.** -/
theorem C29_expr {s r : List Byte} {e : Expr} (h : parseExpr s = (.ok e, r)) :
    sizeL e ≤ s.length - r.length ∧ depthL e ≤ s.length - r.length := by
  obtain ⟨b, rfl, hb⟩ := (parses_expr s e r).mp h
  cases hb with
  | mk hb =>
    have := ginstrs_bounds hb
    simp only [List.length_append, List.length_singleton]
    omega

/-- Sharper: each instruction takes at least one byte, each block two more, and the closing byte counts. -/
theorem C29_expr_strict {s r : List Byte} {e : Expr} (h : parseExpr s = (.ok e, r)) : sizeL e < s.length - r.length := by
  obtain ⟨b, rfl, hb⟩ := (parses_expr s e r).mp h
  cases hb with
  | mk hb =>
    have := ginstrs_bounds hb
    simp only [List.length_append, List.length_singleton]
    omega

theorem retVal_byte {b : List Byte} {t : RetVal} (h : GRetVal b t) : b.length = 1 := by
  cases h with
  | empty => rfl
  | val h => cases h <;> rfl

theorem ginstrs_depth {D : Dialect} {b : List Byte} {is : List Instr} (h : GInstrs D b is) : 3 * depthL is ≤ b.length := by
  refine GInstrs.rec (D := D) (motive_1 := fun b i _ => 3 * depthI i ≤ b.length) (motive_2 := fun b is _ => 3 * depthL is ≤ b.length)
    ?_ ?_ ?_ ?_ ?_ ?_ ?_ ?_ ?_ ?_ ?_ ?_ ?_ ?_ ?_ ?_ ?_ ?_ ?_ ?_ ?_ ?_ ?_ ?_ ?_ ?_ ?_ ?_ ?_ ?_ h
  all_goals intros
  all_goals (try have := retVal_byte ‹GRetVal _ _›)
  all_goals (simp only [depthI, depthL, List.length_append, List.length_cons, List.length_nil] at *; omega)

/-- **C29, nesting.** Each level of nesting takes three bytes at least. -/
theorem C29_depth {s r : List Byte} {e : Expr} (h : parseExpr s = (.ok e, r)) : 3 * depthL e + 1 ≤ s.length - r.length := by
  obtain ⟨b, rfl, hb⟩ := (parses_expr s e r).mp h
  cases hb with
  | mk hb =>
    have := ginstrs_depth hb
    simp only [List.length_append, List.length_singleton]
    omega

/-- `k` empty blocks, each inside the one before. -/
def deep : Nat → Expr
  | 0 => []
  | k + 1 => [.block [] (deep k)]

/-- Their bytes. -/
def deepBytes : Nat → List Byte
  | 0 => []
  | k + 1 => [0x02, 0x40] ++ deepBytes k ++ [0x0B]

theorem gdeep : ∀ k, GInstrs .code (deepBytes k) (deep k)
  | 0 => .nil
  | k + 1 => by
    have := GInstrs.cons (.block .empty (gdeep k)) GInstrs.nil
    simpa [deep, deepBytes] using this

/-- **C29, nesting is not limited** otherwise: the bound is reached at every depth. The parser is recursive, so is everything done
with the result. -/
theorem C29_deep (k : Nat) : ∃ s e, s.length = 3 * k + 1 ∧ parseExpr s = (.ok e, []) ∧ depthL e = k := by
  refine ⟨deepBytes k ++ [0x0B], deep k, ?_, (parses_expr _ _ []).mpr ⟨_, (List.append_nil _).symm, .mk (gdeep k)⟩, ?_⟩
  · induction k with
    | zero => rfl
    | succ k ih => simp [deepBytes] at ih ⊢; omega
  · induction k with
    | zero => rfl
    | succ k ih => simp [deep, depthL, depthI, ih]; omega

theorem expand_replicate (k n : Nat) (t : Val) : (expand (List.replicate k (n, t))).length = k * n := by
  induction k with
  | zero => simp [expand]
  | succ k ih =>
    have : expand (List.replicate (k + 1) (n, t)) = List.replicate n t ++ expand (List.replicate k (n, t)) := rfl
    rw [this, List.length_append, List.length_replicate, ih, Nat.succ_mul, Nat.add_comm]

/-- **C29, locals.** A function of `6 k + 2` bytes that the parser accepts with `k (2^32 - 1)` local variables. -/
theorem C29_locals {k : Nat} (hk : k < 128) : ∃ s f, s.length = 6 * k + 2 ∧ parseFunc s = (.ok f, []) ∧ f.locals.length = k * (2 ^ 32 - 1) := by
  have run : GLocals .code [0xFF, 0xFF, 0xFF, 0xFF, 0x0F, 0x7F] (2 ^ 32 - 1, .i32) :=
    .mk (b1 := [0xFF, 0xFF, 0xFF, 0xFF, 0x0F]) (n := 0xFFFFFFFF) (t := .i32) ⟨by decide, rfl⟩ .i32
  have seq : ∀ k, GSeq (GLocals .code) (List.replicate k [0xFF, 0xFF, 0xFF, 0xFF, 0x0F, 0x7F]).flatten (List.replicate k (2 ^ 32 - 1, .i32)) := by
    intro k
    induction k with
    | zero => exact .nil
    | succ k ih => exact .cons run ih
  have hv : GVec .code (GLocals .code) ([UInt8.ofNat k] ++ (List.replicate k [0xFF, 0xFF, 0xFF, 0xFF, 0x0F, 0x7F]).flatten)
      (List.replicate k (2 ^ 32 - 1, .i32)) := by
    have hn : (UInt8.ofNat k).toNat = k := by simp; omega
    refine .mk (len := BitVec.ofNat 32 k) ⟨show (UInt8.ofNat k).toNat < 128 by rw [hn]; exact hk, ?_⟩ ?_ (seq k)
    · simp [uval, hn]; omega
    · simp; omega
  refine ⟨_, _, ?_, (parses_func _ _ []).mpr ⟨_, (List.append_nil _).symm, _, .mk hv trivial (.mk .nil), rfl⟩, ?_⟩
  · simp; omega
  · exact expand_replicate _ _ _

/-- More locals than the 2^32 - 1 that WebAssembly allows, from 14 bytes. -/
theorem C29_too_many : ∃ s f, s.length = 14 ∧ parseFunc s = (.ok f, []) ∧ 2 ^ 32 ≤ f.locals.length := by
  obtain ⟨s, f, h1, h2, h3⟩ := C29_locals (k := 2) (by decide)
  exact ⟨s, f, h1, h2, by omega⟩

example : parseExpr [0x02, 0x40, 0x03, 0x40, 0x01, 0x0B, 0x01, 0x0B, 0x0B] = (.ok [.block [] [.loop [] [.nop], .nop]], []) ∧
    sizeL [.block [] [.loop [] [.nop], .nop]] = 4 ∧ depthL [.block [] [.loop [] [.nop], .nop]] = 2 := by decide +kernel

end Whasm
