import Verif.Model.Inline
import Verif.Spec.Reflow
import Verif.Lemmas.Show
import Verif.Lemmas.Printed

/-!
# The two layouts of the text of a module
-/

namespace Whasm.Reflow
open Spec Spec.Show Shown

/-! ## Words -/

/-- Characters with no meaning for the layout. -/
def Dull (c : Char) : Prop := c ∉ "\"()[]{}, \n".toList

instance (c : Char) : Decidable (Dull c) := inferInstanceAs (Decidable (¬ _))

theorem dull_ne {c : Char} (h : Dull c) : c ≠ '"' ∧ c ≠ '(' ∧ c ≠ ')' ∧ c ≠ '[' ∧ c ≠ ']' ∧ c ≠ '{' ∧ c ≠ '}' ∧ c ≠ ',' ∧ c ≠ ' ' ∧ c ≠ '\n' := by
  have e : "\"()[]{}, \n".toList = ['"', '(', ')', '[', ']', '{', '}', ',', ' ', '\n'] := by decide
  unfold Dull at h
  rw [e] at h
  simpa using h

theorem flow_dull {c : Char} (h : Dull c) (d : Nat) (cs : List Char) : reflow .out d (c :: cs) = c :: reflow .out d cs := by
  obtain ⟨h1, h2, h3, h4, h5, h6, _, h8, h9, _⟩ := dull_ne h
  simp [reflow, h1, h2, h3, h4, h5, h6, h8, h9]

theorem flow_word {w : List Char} (h : ∀ c ∈ w, Dull c) (d : Nat) (cs : List Char) : reflow .out d (w ++ cs) = w ++ reflow .out d cs := by
  induction w with
  | nil => rfl
  | cons c w ih => rw [List.cons_append, flow_dull (h c (by simp)), ih fun x hx => h x (by simp [hx])]; rfl

theorem back_dull {c : Char} (h : Dull c) (cs : List Char) : unflow .line (c :: cs) = c :: unflow .line cs := by
  obtain ⟨h1, h2, h3, h4, h5, h6, _, h8, h9, h10⟩ := dull_ne h
  simp [unflow, h6, h8, h10]

theorem back_word {w : List Char} (h : ∀ c ∈ w, Dull c) (cs : List Char) : unflow .line (w ++ cs) = w ++ unflow .line cs := by
  induction w with
  | nil => rfl
  | cons c w ih => rw [List.cons_append, back_dull (h c (by simp)), ih fun x hx => h x (by simp [hx])]; rfl

theorem nl_word {w : List Char} (h : ∀ c ∈ w, Dull c) : '\n' ∉ w := fun hm => absurd (h _ hm) (by decide)

/-! ## Pairs of texts -/

/-- Characters that a value can begin with. -/
def First (c : Char) : Prop := c ∉ ")]}{, \n".toList

instance (c : Char) : Decidable (First c) := inferInstanceAs (Decidable (¬ _))

theorem first_ne {c : Char} (h : First c) : c ≠ ')' ∧ c ≠ ']' ∧ c ≠ '}' ∧ c ≠ '{' ∧ c ≠ ',' ∧ c ≠ ' ' ∧ c ≠ '\n' := by
  have e : ")]}{, \n".toList = [')', ']', '}', '{', ',', ' ', '\n'] := by decide
  unfold First at h
  rw [e] at h
  simpa using h

theorem first_dull {c : Char} (h : Dull c) : First c := by
  obtain ⟨h1, h2, h3, h4, h5, h6, h7, h8, h9, h10⟩ := dull_ne h
  have e : ")]}{, \n".toList = [')', ']', '}', '{', ',', ' ', '\n'] := by decide
  unfold First
  rw [e]
  simp [h3, h5, h6, h7, h8, h9, h10]

/-- A value on one line, and on many. -/
structure Both (p q : List Char) : Prop where
  head : ∃ c t u, First c ∧ p = c :: t ∧ q = c :: u
  flow : ∀ d rest, reflow .out d (p ++ rest) = shift d q ++ reflow .out d rest
  back : ∀ d rest, unflow .line (shift d q ++ rest) = p ++ unflow .line rest
  line : '\n' ∉ p
  short : p.length ≤ q.length

theorem both_word {w : List Char} (hn : w ≠ []) (h : ∀ c ∈ w, Dull c) : Both w w where
  head := by
    cases w with
    | nil => exact absurd rfl hn
    | cons c t => exact ⟨c, t, t, first_dull (h c (by simp)), rfl, rfl⟩
  flow d rest := by rw [shift_line d (nl_word h), flow_word h]
  back d rest := by rw [shift_line d (nl_word h), back_word h]
  line := nl_word h
  short := Nat.le_refl _

theorem both_text (s : String) (hn : s.toList ≠ []) (h : ∀ c ∈ s.toList, Dull c) : Both (text s) (text s) := by
  unfold text; exact both_word hn h

/-- A name of a field before a value. -/
theorem both_label {l : List Char} (hn : l ≠ []) (hl : ∀ c ∈ l, Dull c) {p q : List Char} (h : Both p q) : Both (l ++ [':', ' '] ++ p) (l ++ [':', ' '] ++ q) where
  head := by
    cases l with
    | nil => exact absurd rfl hn
    | cons c t => exact ⟨c, t ++ [':', ' '] ++ p, t ++ [':', ' '] ++ q, first_dull (hl c (by simp)), rfl, rfl⟩
  flow d rest := by
    obtain ⟨c, t, u, hc, e1, e2⟩ := h.head
    have h1 : reflow .out d (':' :: ' ' :: (p ++ rest)) = ':' :: ' ' :: reflow .out d (p ++ rest) := by
      rw [flow_dull (by decide), e1]
      simp [reflow, (first_ne hc).2.2.1]
    rw [shift_append, shift_append, shift_line d (nl_word hl), shift_line d (by decide), List.append_assoc, List.append_assoc, flow_word hl]
    show l ++ reflow .out d (':' :: ' ' :: (p ++ rest)) = _
    rw [h1, h.flow]
    simp
  back d rest := by
    have h1 : unflow .line (':' :: ' ' :: (shift d q ++ rest)) = ':' :: ' ' :: unflow .line (shift d q ++ rest) := by
      rw [back_dull (by decide)]; simp [unflow]
    rw [shift_append, shift_append, shift_line d (nl_word hl), shift_line d (by decide), List.append_assoc, List.append_assoc, back_word hl]
    show l ++ unflow .line (':' :: ' ' :: (shift d q ++ rest)) = _
    rw [h1, h.back]
    simp
  line := by
    have := h.line
    have := nl_word hl
    simp [*]
  short := by
    have := h.short
    simp only [List.length_append]; omega

/-- Items, by pairs. -/
def Pairs : List (List Char) → List (List Char) → Prop
  | [], [] => True
  | p :: ps, q :: qs => Both p q ∧ Pairs ps qs
  | _, _ => False

theorem pairs_map {α : Type} {f g : α → List Char} : ∀ xs : List α, (∀ x ∈ xs, Both (f x) (g x)) → Pairs (xs.map f) (xs.map g)
  | [], _ => trivial
  | x :: xs, h => ⟨h x (by simp), pairs_map xs fun y hy => h y (by simp [hy])⟩

/-! ## Brackets -/

/-- The items after the first, at depth `d`. -/
def more (d : Nat) (qs : List (List Char)) : List Char := qs.flatMap fun q => [',', '\n'] ++ indent d ++ shift d q

theorem flow_more (d : Nat) (rest : List Char) : ∀ {ps qs : List (List Char)}, Pairs ps qs →
    reflow .out d ((ps.flatMap fun w => [',', ' '] ++ w) ++ rest) = more d qs ++ reflow .out d rest
  | [], [], _ => rfl
  | p :: ps, q :: qs, h => by
    have ih := flow_more d rest h.2
    rw [List.flatMap_cons, List.append_assoc, List.append_assoc]
    show reflow .out d (',' :: ' ' :: (p ++ _)) = _
    have h1 : ∀ t, reflow .out d (',' :: ' ' :: t) = [',', '\n'] ++ indent d ++ reflow .out d t := fun t => by simp [reflow]
    rw [h1, h.1.flow, ih]
    simp [more]

theorem flow_items (d : Nat) (rest : List Char) {p q : List Char} {ps qs : List (List Char)} (h : Both p q) (hs : Pairs ps qs) :
    reflow .out d (lineItems (p :: ps) ++ rest) = shift d q ++ more d qs ++ reflow .out d rest := by
  rw [lineItems, List.append_assoc, h.flow, flow_more d rest hs, List.append_assoc]

theorem shift_items (d : Nat) (q : List Char) (qs : List (List Char)) :
    indent d ++ shift d ((q :: qs).flatMap dbgField) = indent (d + 1) ++ shift (d + 1) q ++ more (d + 1) qs ++ [',', '\n'] ++ indent d := by
  have h2 : shift d [',', '\n'] = [',', '\n'] ++ indent d := by simp [shift]
  have h1 : ∀ (q : List Char) (r : List Char), indent d ++ shift d (dbgField q ++ r) = indent (d + 1) ++ shift (d + 1) q ++ [',', '\n'] ++ (indent d ++ shift d r) := by
    intro q r
    rw [shift_append, field_shift, shift_append, shift_append, shift_line d (nl_indent 1), shift_shift, h2, indent_succ d]
    simp
  induction qs generalizing q with
  | nil =>
    rw [List.flatMap_cons, h1]
    simp [more, shift]
  | cons q' qs ih =>
    rw [List.flatMap_cons, h1, ih q']
    simp [more]

theorem next_indent (n : Nat) (t : List Char) : unflow .next (List.replicate n ' ' ++ t) = unflow .next t := by
  induction n with
  | zero => rfl
  | succ n ih => rw [List.replicate_succ, List.cons_append, ← ih]; simp [unflow]

theorem opened_indent (n : Nat) (t : List Char) : unflow .opened (List.replicate n ' ' ++ t) = unflow .opened t := by
  induction n with
  | zero => rfl
  | succ n ih => rw [List.replicate_succ, List.cons_append, ← ih]; simp [unflow]

theorem line_first {c : Char} (h : First c) (t : List Char) : unflow .line (c :: t) = c :: unflow .line t := by
  obtain ⟨_, _, _, h4, h5, _, h7⟩ := first_ne h
  simp [unflow, h4, h5, h7]

theorem shift_first {c : Char} (h : First c) (d : Nat) (u : List Char) : shift d (c :: u) = c :: shift d u := by
  rw [shift_cons, if_neg (first_ne h).2.2.2.2.2.2]; rfl

/-- A value in the first line after an opening bracket. -/
theorem opened_both {p q : List Char} (h : Both p q) (d : Nat) (rest : List Char) : unflow .opened (shift d q ++ rest) = unflow .line (shift d q ++ rest) := by
  obtain ⟨c, t, u, hc, _, e2⟩ := h.head
  rw [e2, shift_first hc, List.cons_append, line_first hc]
  simp [unflow, (first_ne hc).2.2.2.2.2.1]

theorem next_both {p q : List Char} (h : Both p q) (d : Nat) (rest : List Char) : unflow .next (shift d q ++ rest) = [',', ' '] ++ unflow .line (shift d q ++ rest) := by
  obtain ⟨c, t, u, hc, _, e2⟩ := h.head
  obtain ⟨h1, h2, h3, _, _, h6, _⟩ := first_ne hc
  rw [e2, shift_first hc, List.cons_append, line_first hc]
  simp [unflow, h1, h2, h3, h6]

theorem back_more (d : Nat) (rest : List Char) : ∀ {ps qs : List (List Char)}, Pairs ps qs →
    unflow .line (more d qs ++ rest) = (ps.flatMap fun w => [',', ' '] ++ w) ++ unflow .line rest
  | [], [], _ => rfl
  | p :: ps, q :: qs, h => by
    have ih := back_more d rest h.2
    have e : more d (q :: qs) ++ rest = ',' :: '\n' :: (indent d ++ (shift d q ++ (more d qs ++ rest))) := by simp [more]
    have h1 : ∀ t, unflow .line (',' :: '\n' :: t) = unflow .next t := fun t => by simp [unflow]
    rw [e, h1]
    unfold indent
    rw [next_indent, next_both h.1, h.1.back, ih]
    simp

theorem back_items (d : Nat) (rest : List Char) {p q : List Char} {ps qs : List (List Char)} (h : Both p q) (hs : Pairs ps qs) :
    unflow .opened (indent d ++ shift d q ++ more d qs ++ rest) = lineItems (p :: ps) ++ unflow .line rest := by
  have e : indent d ++ shift d q ++ more d qs ++ rest = indent d ++ (shift d q ++ (more d qs ++ rest)) := by simp
  rw [e]
  unfold indent
  rw [opened_indent, opened_both h, h.back, back_more d rest hs, lineItems, List.append_assoc]

theorem line_items : ∀ {ps qs : List (List Char)}, Pairs ps qs → '\n' ∉ lineItems ps
  | [], [], _ => by simp [lineItems]
  | p :: ps, q :: qs, h => by
    have : ∀ {ps qs : List (List Char)}, Pairs ps qs → '\n' ∉ ps.flatMap fun w => [',', ' '] ++ w := by
      intro ps
      induction ps with
      | nil => intro qs _; simp
      | cons p ps ih =>
        intro qs h
        cases qs with
        | nil => exact h.elim
        | cons q qs =>
          have h1 := ih h.2
          have h2 := h.1.line
          rw [List.flatMap_cons]
          simp only [List.mem_append, not_or]
          exact ⟨⟨by decide, h2⟩, h1⟩
    rw [lineItems, List.mem_append, not_or]
    exact ⟨h.1.line, this h.2⟩

theorem short_items {p q : List Char} {ps qs : List (List Char)} (h : Pairs (p :: ps) (q :: qs)) :
    (lineItems (p :: ps)).length + 2 ≤ ((q :: qs).flatMap dbgField).length := by
  have : ∀ {ps qs : List (List Char)}, Pairs ps qs → (ps.flatMap fun w => [',', ' '] ++ w).length ≤ (qs.flatMap dbgField).length := by
    intro ps
    induction ps with
    | nil => intro qs _; simp
    | cons p ps ih =>
      intro qs h
      cases qs with
      | nil => exact h.elim
      | cons q qs =>
        have h1 := ih h.2
        have h2 := h.1.short
        have h3 := Printed.length_field q
        rw [List.flatMap_cons, List.flatMap_cons]
        simp only [List.length_append, List.length_cons, List.length_nil] at h1 ⊢
        omega
  have h1 := this h.2
  have h2 := h.1.short
  have h3 := Printed.length_field q
  rw [lineItems, List.flatMap_cons]
  simp only [List.length_append] at h1 ⊢
  omega

/-- The text with brackets, at depth `d`. -/
theorem shift_bracket (d : Nat) {a z : List Char} (ha : '\n' ∉ a) (hz : '\n' ∉ z) (q : List Char) (qs : List (List Char)) :
    shift d (a ++ ['\n'] ++ (q :: qs).flatMap dbgField ++ z) =
      a ++ ['\n'] ++ (indent (d + 1) ++ shift (d + 1) q ++ more (d + 1) qs ++ ([',', '\n'] ++ (indent d ++ z))) := by
  have h1 : shift d ['\n'] = ['\n'] ++ indent d := by simp [shift]
  have := shift_items d q qs
  rw [shift_append, shift_append, shift_append, shift_line d ha, shift_line d hz, h1]
  simp only [List.append_assoc] at this ⊢
  rw [← List.append_assoc (indent d), this]
  simp

theorem both_tuple {name : String} (hn : name.toList ≠ []) (h : ∀ c ∈ name.toList, Dull c) {ps qs : List (List Char)} (hs : Pairs ps qs) :
    Both (lineTuple (text name) ps) (dbgTuple (text name) qs) := by
  match ps, qs, hs with
  | [], [], _ => exact both_text name hn h
  | p :: ps, q :: qs, ⟨h1, h2⟩ =>
    have ep : lineTuple (text name) (p :: ps) = name.toList ++ '(' :: (lineItems (p :: ps) ++ [')']) := by simp [lineTuple, text]
    have eq : dbgTuple (text name) (q :: qs) = (name.toList ++ ['(']) ++ ['\n'] ++ (q :: qs).flatMap dbgField ++ [')'] := by simp [dbgTuple, text]
    have hl := nl_word h
    refine ⟨?_, fun d rest => ?_, fun d rest => ?_, ?_, ?_⟩
    · cases hw : name.toList with
      | nil => exact absurd hw hn
      | cons c t =>
        refine ⟨c, t ++ '(' :: (lineItems (p :: ps) ++ [')']), (t ++ ['(']) ++ ['\n'] ++ (q :: qs).flatMap dbgField ++ [')'],
          first_dull (h c (by simp [hw])), ?_, ?_⟩
        · rw [ep, hw]; simp
        · rw [eq, hw]; simp
    · rw [ep, eq, shift_bracket d (by simp [hl]) (by decide), List.append_assoc, flow_word h]
      have e1 : ∀ t, reflow .out d ('(' :: t) = ['(', '\n'] ++ indent (d + 1) ++ reflow .out (d + 1) t := fun t => by simp [reflow]
      have e2 : ∀ t, reflow .out (d + 1) (')' :: t) = [',', '\n'] ++ indent d ++ [')'] ++ reflow .out d t := fun t => by simp [reflow]
      rw [List.cons_append, e1, List.append_assoc (lineItems _), flow_items (d + 1) _ h1 h2, List.singleton_append, e2]
      simp
    · rw [ep, eq, shift_bracket d (by simp [hl]) (by decide), List.append_assoc, List.append_assoc, List.append_assoc, back_word h]
      have e1 : ∀ t, unflow .line (['('] ++ (['\n'] ++ t)) = '(' :: unflow .opened t := fun t => by simp [unflow]
      have e2 : ∀ t, unflow .line ([',', '\n'] ++ (indent d ++ [')']) ++ t) = [')'] ++ unflow .line t := fun t => by
        have : ∀ t, unflow .line ([',', '\n'] ++ t) = unflow .next t := fun t => by simp [unflow]
        rw [List.append_assoc, this, List.append_assoc]
        unfold indent
        rw [next_indent]
        simp [unflow]
      rw [e1, List.append_assoc _ _ rest, back_items (d + 1) _ h1 h2, e2]
      simp
    · rw [ep]
      have := line_items (ps := p :: ps) (qs := q :: qs) ⟨h1, h2⟩
      simp [hl, this]
    · rw [ep, eq]
      have := short_items (ps := ps) (qs := qs) ⟨h1, h2⟩
      simp only [List.length_append, List.length_cons, List.length_nil]; omega

theorem both_list {ps qs : List (List Char)} (hs : Pairs ps qs) : Both (lineList ps) (dbgList qs) := by
  match ps, qs, hs with
  | [], [], _ =>
    refine ⟨⟨'[', [']'], [']'], by decide, rfl, rfl⟩, fun d rest => ?_, fun d rest => ?_, by decide, by decide⟩
    · show reflow .out d ('[' :: ']' :: rest) = shift d ['[', ']'] ++ _
      rw [shift_line d (by decide)]
      simp [reflow]
    · show unflow .line (shift d ['[', ']'] ++ rest) = '[' :: ']' :: _
      rw [shift_line d (by decide)]
      simp [unflow]
  | p :: ps, q :: qs, ⟨h1, h2⟩ =>
    have ep : lineList (p :: ps) = '[' :: (lineItems (p :: ps) ++ [']']) := by simp [lineList]
    have eq : dbgList (q :: qs) = ['['] ++ ['\n'] ++ (q :: qs).flatMap dbgField ++ [']'] := by simp [dbgList]
    refine ⟨?_, fun d rest => ?_, fun d rest => ?_, ?_, ?_⟩
    · exact ⟨'[', _, _, by decide, ep, eq⟩
    · rw [ep, eq, shift_bracket d (by decide) (by decide)]
      have e1 : ∀ t, reflow .out d ('[' :: (lineItems (p :: ps) ++ t)) = ['[', '\n'] ++ indent (d + 1) ++ reflow .out (d + 1) (lineItems (p :: ps) ++ t) := fun t => by
        obtain ⟨c, t', u, hc, e, _⟩ := h1.head
        have : (lineItems (p :: ps) ++ t).head? ≠ some ']' := by
          rw [lineItems, e]
          simpa using (first_ne hc).2.1
        generalize lineItems (p :: ps) ++ t = z at this
        simp [reflow, this]
      have e2 : ∀ t, reflow .out (d + 1) (']' :: t) = [',', '\n'] ++ indent d ++ [']'] ++ reflow .out d t := fun t => by simp [reflow]
      rw [List.cons_append, List.append_assoc, e1, flow_items (d + 1) _ h1 h2, List.singleton_append, e2]
      simp
    · rw [ep, eq, shift_bracket d (by decide) (by decide), List.append_assoc, List.append_assoc]
      have e1 : ∀ t, unflow .line (['['] ++ (['\n'] ++ t)) = '[' :: unflow .opened t := fun t => by simp [unflow]
      have e2 : ∀ t, unflow .line ([',', '\n'] ++ (indent d ++ [']']) ++ t) = [']'] ++ unflow .line t := fun t => by
        have : ∀ t, unflow .line ([',', '\n'] ++ t) = unflow .next t := fun t => by simp [unflow]
        rw [List.append_assoc, this, List.append_assoc]
        unfold indent
        rw [next_indent]
        simp [unflow]
      rw [e1, List.append_assoc _ _ rest, back_items (d + 1) _ h1 h2, e2]
      simp
    · rw [ep]
      have := line_items (ps := p :: ps) (qs := q :: qs) ⟨h1, h2⟩
      simp [this]
    · rw [ep, eq]
      have := short_items (ps := ps) (qs := qs) ⟨h1, h2⟩
      simp only [List.length_append, List.length_cons, List.length_nil]; omega

/-- Named fields, by pairs. -/
def Fields : List (List Char × List Char) → List (List Char × List Char) → Prop
  | [], [] => True
  | (l, p) :: ps, (l', q) :: qs => (l = l' ∧ l ≠ [] ∧ (∀ c ∈ l, Dull c) ∧ Both p q) ∧ Fields ps qs
  | _, _ => False

theorem fields_pairs : ∀ {ps qs : List (List Char × List Char)}, Fields ps qs →
    Pairs (ps.map fun f => f.1 ++ [':', ' '] ++ f.2) (qs.map fun f => f.1 ++ [':', ' '] ++ f.2)
  | [], [], _ => trivial
  | (l, p) :: ps, (l', q) :: qs, h => by
    obtain ⟨⟨rfl, h2, h3, h4⟩, h5⟩ := h
    exact ⟨both_label h2 h3 h4, fields_pairs h5⟩

theorem both_struct {name : String} (hn : name.toList ≠ []) (h : ∀ c ∈ name.toList, Dull c) {f g : List Char × List Char} {ps qs : List (List Char × List Char)}
    (hs : Fields (f :: ps) (g :: qs)) : Both (lineStruct (text name) (f :: ps)) (dbgStruct (text name) (g :: qs)) := by
  have hp := fields_pairs hs
  have ep : lineStruct (text name) (f :: ps) = name.toList ++ ' ' :: '{' :: ' ' :: (lineItems ((f :: ps).map fun f => f.1 ++ [':', ' '] ++ f.2) ++ [' ', '}']) := by
    simp [lineStruct, text]
  have eq : dbgStruct (text name) (g :: qs) = (name.toList ++ [' ', '{']) ++ ['\n'] ++ ((g :: qs).map fun f => f.1 ++ [':', ' '] ++ f.2).flatMap dbgField ++ ['}'] := by
    unfold dbgStruct text
    rw [List.flatMap_map]
    simp
  simp only [List.map_cons] at hp ep eq
  obtain ⟨h1, h2⟩ := hp
  generalize f.1 ++ [':', ' '] ++ f.2 = p at *
  generalize g.1 ++ [':', ' '] ++ g.2 = q at *
  generalize (ps.map fun f => f.1 ++ [':', ' '] ++ f.2) = ps' at *
  generalize (qs.map fun f => f.1 ++ [':', ' '] ++ f.2) = qs' at *
  have hl := nl_word h
  refine ⟨?_, fun d rest => ?_, fun d rest => ?_, ?_, ?_⟩
  · cases hw : name.toList with
    | nil => exact absurd hw hn
    | cons c t =>
      rw [hw] at ep eq
      exact ⟨c, _, _, first_dull (h c (by simp [hw])), ep, by rw [eq]; rfl⟩
  · rw [ep, eq, shift_bracket d (by simp [hl]) (by decide), List.append_assoc, flow_word h]
    have e1 : ∀ t, reflow .out d (' ' :: '{' :: ' ' :: t) = [' ', '{', '\n'] ++ indent (d + 1) ++ reflow .out (d + 1) t := fun t => by simp [reflow]
    have e2 : ∀ t, reflow .out (d + 1) ([' ', '}'] ++ t) = [',', '\n'] ++ indent d ++ ['}'] ++ reflow .out d t := fun t => by simp [reflow]
    rw [List.cons_append, List.cons_append, List.cons_append, e1, List.append_assoc (lineItems _), flow_items (d + 1) _ h1 h2, e2]
    simp
  · rw [ep, eq, shift_bracket d (by simp [hl]) (by decide), List.append_assoc, List.append_assoc, List.append_assoc, back_word h]
    have e1 : ∀ t, unflow .line ([' ', '{'] ++ (['\n'] ++ t)) = ' ' :: '{' :: ' ' :: unflow .opened t := fun t => by simp [unflow]
    have e2 : ∀ t, unflow .line ([',', '\n'] ++ (indent d ++ ['}']) ++ t) = [' ', '}'] ++ unflow .line t := fun t => by
      have : ∀ t, unflow .line ([',', '\n'] ++ t) = unflow .next t := fun t => by simp [unflow]
      rw [List.append_assoc, this, List.append_assoc]
      unfold indent
      rw [next_indent]
      simp [unflow]
    rw [e1, List.append_assoc _ _ rest, back_items (d + 1) _ h1 h2, e2]
    simp
  · rw [ep]
    have := line_items (ps := p :: ps') (qs := q :: qs') ⟨h1, h2⟩
    simp [hl, this]
  · rw [ep, eq]
    have := short_items (ps := ps') (qs := qs') ⟨h1, h2⟩
    simp only [List.length_append, List.length_cons, List.length_nil]; omega

theorem both_option {α : Type} {f g : α → List Char} (h : ∀ x, Both (f x) (g x)) : ∀ x : Option α, Both (lineOption (x.map f)) (dbgOption (x.map g))
  | none => both_text "None" (by decide) (by decide)
  | some x => both_tuple (name := "Some") (ps := [f x]) (qs := [g x]) (by decide) (by decide) ⟨h x, trivial⟩

/-! ## Numbers and names -/

theorem dull_digits {base : Nat} (hb : 0 < base) (hb16 : base ≤ 16) : ∀ fuel n, ∀ c ∈ digitsOf base fuel n, Dull c
  | 0, _ => by simp [digitsOf]
  | fuel + 1, n => by
    have key : ∀ k : Fin 16, Dull (lowDigit k) := by decide
    unfold digitsOf
    split
    · next h =>
      intro c hc
      rw [List.mem_singleton.mp hc]
      exact key ⟨n, by omega⟩
    · intro c hc
      rcases List.mem_append.mp hc with hc | hc
      · exact dull_digits hb hb16 fuel _ c hc
      · rw [List.mem_singleton.mp hc]
        exact key ⟨n % base, Nat.lt_of_lt_of_le (Nat.mod_lt _ hb) hb16⟩

theorem digits_ne (base fuel n : Nat) : digitsOf base (fuel + 1) n ≠ [] := by
  unfold digitsOf
  split <;> simp

theorem both_nat (n : Nat) : Both (dbgNat n) (dbgNat n) := both_word (digits_ne 10 n n) (dull_digits (by omega) (by omega) _ _)

theorem both_int (z : Int) : Both (dbgInt z) (dbgInt z) := by
  unfold dbgInt
  split
  · refine both_word (by simp) fun c hc => ?_
    rcases List.mem_cons.mp hc with rfl | hc
    · decide
    · exact dull_digits (by omega) (by omega) _ _ c hc
  · exact both_nat _

theorem quote_hex (d : Nat) (t : List Char) : ∀ w : List Char, (∀ c ∈ w, c ≠ '"' ∧ c ≠ '\\') → reflow .quote d (w ++ t) = w ++ reflow .quote d t
  | [], _ => rfl
  | c :: w, h => by
    have := h c (by simp)
    rw [List.cons_append, reflow, if_neg this.1, if_neg this.2, quote_hex d t w fun x hx => h x (by simp [hx])]; rfl

theorem hex_plain : ∀ fuel n, ∀ c ∈ digitsOf 16 fuel n, c ≠ '"' ∧ c ≠ '\\'
  | 0, _ => by simp [digitsOf]
  | fuel + 1, n => by
    have key : ∀ k : Fin 16, lowDigit k ≠ '"' ∧ lowDigit k ≠ '\\' := by decide
    unfold digitsOf
    split
    · next h => intro c hc; rw [List.mem_singleton.mp hc]; exact key ⟨n, h⟩
    · intro c hc
      rcases List.mem_append.mp hc with hc | hc
      · exact hex_plain fuel _ c hc
      · rw [List.mem_singleton.mp hc]; exact key ⟨n % 16, by omega⟩

theorem quote_escape (std : StdText) (d : Nat) (c : Char) (t : List Char) : reflow .quote d (escapeChar std c ++ t) = escapeChar std c ++ reflow .quote d t := by
  have two : ∀ e : Char, reflow .quote d (['\\', e] ++ t) = ['\\', e] ++ reflow .quote d t := fun e => by simp [reflow]
  unfold escapeChar
  split
  · exact two _
  split
  · exact two _
  split
  · exact two _
  split
  · exact two _
  split
  · exact two _
  split
  · exact two _
  split
  · rw [List.append_assoc, List.append_assoc]
    show reflow .quote d ('\\' :: 'u' :: (['{'] ++ (_ ++ (['}'] ++ t)))) = _
    have : ∀ t, reflow .quote d ('\\' :: 'u' :: t) = '\\' :: 'u' :: reflow .quote d t := fun t => by simp [reflow]
    rw [this, quote_hex d _ ['{'] (by decide), quote_hex d _ _ (hex_plain _ _), quote_hex d _ ['}'] (by decide)]
    simp
  · next h1 h2 _ => exact quote_hex d t [c] (by simp [h1, h2])

theorem quote_name (std : StdText) (d : Nat) (t : List Char) : ∀ cs : List Char, reflow .quote d (cs.flatMap (escapeChar std) ++ t) = cs.flatMap (escapeChar std) ++ reflow .quote d t
  | [] => rfl
  | c :: cs => by rw [List.flatMap_cons, List.append_assoc, quote_escape, quote_name std d t cs, List.append_assoc]

/-- What is held back. -/
def held : Margin → List Char
  | .comma => [',']
  | _ => []

/-- A text without line breaks is left as it is. -/
theorem back_line {a : Char} (ha : Dull a ∨ a = '"') (rest : List Char) : ∀ {w : List Char} {s : Margin}, '\n' ∉ w → (s = .line ∨ s = .brace ∨ s = .comma) →
    unflow s (w ++ a :: rest) = held s ++ w ++ a :: unflow .line rest
  | [], s, _, hs => by
    have hf : First a := ha.elim first_dull fun h => by subst h; decide
    obtain ⟨_, _, _, h4, h5, _, h7⟩ := first_ne hf
    rcases hs with rfl | rfl | rfl <;> simp [unflow, held, h4, h5, h7]
  | c :: w, s, h, hs => by
    rw [List.mem_cons, not_or] at h
    have hc : ¬ c = '\n' := fun e => h.1 e.symm
    have i1 := back_line ha rest h.2 (.inl rfl : (Margin.line = .line ∨ _))
    have i2 := back_line ha rest h.2 (.inr (.inl rfl) : (Margin.brace = .line ∨ _))
    have i3 := back_line ha rest h.2 (.inr (.inr rfl) : (Margin.comma = .line ∨ _))
    simp only [held] at i1 i2 i3
    by_cases h1 : c = ','
    · rcases hs with rfl | rfl | rfl <;> simp [unflow, held, h1, i3]
    · by_cases h2 : c = '{'
      · rcases hs with rfl | rfl | rfl <;> simp [unflow, held, h2, i2]
      · rcases hs with rfl | rfl | rfl <;> simp [unflow, held, hc, h1, h2, i1]

theorem both_name (std : StdText) (n : Name) : Both (dbgName std n) (dbgName std n) := by
  have hl : '\n' ∉ dbgName std n := by unfold dbgName; simp [nl_escape]
  refine ⟨⟨'"', _, _, by decide, rfl, rfl⟩, fun d rest => ?_, fun d rest => ?_, hl, Nat.le_refl _⟩
  · rw [shift_line d hl]
    unfold dbgName
    rw [List.append_assoc, List.cons_append]
    have : ∀ t, reflow .out d ('"' :: t) = '"' :: reflow .quote d t := fun t => by simp [reflow]
    rw [this, quote_name]
    simp [reflow]
  · rw [shift_line d hl]
    have e : ∀ t, dbgName std n ++ t = ('"' :: (nameChars n).flatMap (escapeChar std)) ++ '"' :: t := fun t => by simp [dbgName]
    have h1 : '\n' ∉ '"' :: (nameChars n).flatMap (escapeChar std) := by simp [nl_escape]
    rw [e, back_line (.inr rfl) rest h1 (.inl rfl), e]
    rfl

/-! ## Types -/

theorem both_val (v : Val) : Both (lineVal v) (dbgVal v) := by cases v <;> exact both_text _ (by decide) (by decide)

theorem both_vals (ts : List Val) : Both (lineVals ts) (dbgVals ts) := both_list (pairs_map ts fun x _ => both_val x)

theorem both_retVal (t : RetVal) : Both (lineRetVal t) (dbgRetVal t) := both_tuple (by decide) (by decide) ⟨both_vals t, trivial⟩

theorem both_limits (l : Limits) : Both (lineLimits l) (dbgLimits l) :=
  both_struct (by decide) (by decide) ⟨⟨rfl, by decide +kernel, by decide +kernel, both_nat _⟩, ⟨rfl, by decide +kernel, by decide +kernel, both_option (fun n => both_nat n.toNat) l.max⟩, trivial⟩

theorem both_elemTy : ∀ t : ElemTy, Both (lineElemTy t) (dbgElemTy t)
  | .funcRef => both_text _ (by decide) (by decide)

theorem both_mut : ∀ t : Mut, Both (lineMut t) (dbgMut t)
  | .const => both_text _ (by decide) (by decide)
  | .var => both_text _ (by decide) (by decide)

theorem both_funcTy (t : FuncTy) : Both (lineFuncTy t) (dbgFuncTy t) :=
  both_struct (by decide) (by decide) ⟨⟨rfl, by decide +kernel, by decide +kernel, both_vals _⟩, ⟨rfl, by decide +kernel, by decide +kernel, both_vals _⟩, trivial⟩

theorem both_tableTy (t : TableTy) : Both (lineTableTy t) (dbgTableTy t) :=
  both_struct (by decide) (by decide) ⟨⟨rfl, by decide +kernel, by decide +kernel, both_limits _⟩, ⟨rfl, by decide +kernel, by decide +kernel, both_elemTy _⟩, trivial⟩

theorem both_memTy (t : MemTy) : Both (lineMemTy t) (dbgMemTy t) := both_struct (by decide) (by decide) ⟨⟨rfl, by decide +kernel, by decide +kernel, both_limits _⟩, trivial⟩

theorem both_globalTy (t : GlobalTy) : Both (lineGlobalTy t) (dbgGlobalTy t) :=
  both_struct (by decide) (by decide) ⟨⟨rfl, by decide +kernel, by decide +kernel, both_mut _⟩, ⟨rfl, by decide +kernel, by decide +kernel, both_val _⟩, trivial⟩

theorem both_idx {name : String} (hn : name.toList ≠ []) (h : ∀ c ∈ name.toList, Dull c) (x : Idx) : Both (lineIdx name x) (dbgIdx name x) :=
  both_tuple hn h ⟨both_nat _, trivial⟩

/-! ## Instructions -/

theorem dull_title (i : Instr) : (instrName i).toList ≠ [] ∧ ∀ c ∈ (instrName i).toList, Dull c := by
  cases i with
  | load op _ _ => simp only [instrName]; cases op <;> decide +kernel
  | store op _ _ => simp only [instrName]; cases op <;> decide +kernel
  | num op => simp only [instrName]; cases op <;> decide +kernel
  | _ => simp only [instrName]; decide +kernel

section
variable {std : StdText} (hF : NumText std)
include hF

mutual

theorem pairs_fields : ∀ i : Instr, Pairs (lineFields std i) (instrFields std i)
  | .block t b => ⟨both_retVal t, both_tuple (by decide) (by decide) ⟨both_list (pairs_instrs b), trivial⟩, trivial⟩
  | .loop t b => ⟨both_retVal t, both_tuple (by decide) (by decide) ⟨both_list (pairs_instrs b), trivial⟩, trivial⟩
  | .ifElse t a b => ⟨both_retVal t, both_tuple (by decide) (by decide) ⟨both_list (pairs_instrs a), trivial⟩,
      both_tuple (by decide) (by decide) ⟨both_list (pairs_instrs b), trivial⟩, trivial⟩
  | .br l => ⟨both_idx (by decide) (by decide) l, trivial⟩
  | .brIf l => ⟨both_idx (by decide) (by decide) l, trivial⟩
  | .brTable ls l => ⟨both_list (pairs_map ls fun x _ => both_idx (by decide) (by decide) x), both_idx (by decide) (by decide) l, trivial⟩
  | .call x => ⟨both_idx (by decide) (by decide) x, trivial⟩
  | .callIndirect x y => ⟨both_idx (by decide) (by decide) x, both_idx (by decide) (by decide) y, trivial⟩
  | .localGet x => ⟨both_idx (by decide) (by decide) x, trivial⟩
  | .localSet x => ⟨both_idx (by decide) (by decide) x, trivial⟩
  | .localTee x => ⟨both_idx (by decide) (by decide) x, trivial⟩
  | .globalGet x => ⟨both_idx (by decide) (by decide) x, trivial⟩
  | .globalSet x => ⟨both_idx (by decide) (by decide) x, trivial⟩
  | .load _ a b => ⟨both_nat _, both_nat _, trivial⟩
  | .store _ a b => ⟨both_nat _, both_nat _, trivial⟩
  | .memSize x => ⟨both_idx (by decide) (by decide) x, trivial⟩
  | .memGrow x => ⟨both_idx (by decide) (by decide) x, trivial⟩
  | .constI32 v => ⟨both_int _, trivial⟩
  | .constI64 v => ⟨both_int _, trivial⟩
  | .constF32 v => ⟨both_word (hF.word32 v).1 (hF.word32 v).2, trivial⟩
  | .constF64 v => ⟨both_word (hF.word64 v).1 (hF.word64 v).2, trivial⟩
  | .unreachable => trivial
  | .nop => trivial
  | .elseMark => trivial
  | .endMark => trivial
  | .ret => trivial
  | .drop => trivial
  | .select => trivial
  | .num _ => trivial

theorem pairs_instrs : ∀ is : List Instr, Pairs (lineInstrs std is) (dbgInstrs std is)
  | [] => trivial
  | i :: is => ⟨both_tuple (dull_title i).1 (dull_title i).2 (pairs_fields i), pairs_instrs is⟩

end

theorem both_expr (e : Expr) : Both (lineExpr std e) (dbgExpr std e) := both_tuple (by decide) (by decide) ⟨both_list (pairs_instrs hF e), trivial⟩

theorem both_constExpr (e : ConstExpr) : Both (lineConstExpr std e) (dbgConstExpr std e) :=
  both_tuple (by decide) (by decide) ⟨both_list (pairs_instrs hF e), trivial⟩

/-! ## Modules -/

theorem both_func (f : Func) : Both (lineFunc std f) (dbgFunc std f) :=
  both_struct (by decide) (by decide) ⟨⟨rfl, by decide +kernel, by decide +kernel, both_idx (by decide) (by decide) _⟩, ⟨rfl, by decide +kernel, by decide +kernel, both_vals _⟩,
    ⟨rfl, by decide +kernel, by decide +kernel, both_expr hF _⟩, trivial⟩

omit hF in
theorem both_table (t : Table) : Both (lineTable t) (dbgTable t) := both_struct (by decide) (by decide) ⟨⟨rfl, by decide +kernel, by decide +kernel, both_tableTy _⟩, trivial⟩

omit hF in
theorem both_mem (t : Mem) : Both (lineMem t) (dbgMem t) := both_struct (by decide) (by decide) ⟨⟨rfl, by decide +kernel, by decide +kernel, both_memTy _⟩, trivial⟩

theorem both_global (g : Global) : Both (lineGlobal std g) (dbgGlobal std g) :=
  both_struct (by decide) (by decide) ⟨⟨rfl, by decide +kernel, by decide +kernel, both_globalTy _⟩, ⟨rfl, by decide +kernel, by decide +kernel, both_constExpr hF _⟩, trivial⟩

theorem both_elem (e : Elem) : Both (lineElem std e) (dbgElem std e) :=
  both_struct (by decide) (by decide) ⟨⟨rfl, by decide +kernel, by decide +kernel, both_idx (by decide) (by decide) _⟩, ⟨rfl, by decide +kernel, by decide +kernel, both_constExpr hF _⟩,
    ⟨rfl, by decide +kernel, by decide +kernel, both_list (pairs_map _ fun x _ => both_idx (by decide) (by decide) x)⟩, trivial⟩

theorem both_data (d : Data) : Both (lineData std d) (dbgData std d) :=
  both_struct (by decide) (by decide) ⟨⟨rfl, by decide +kernel, by decide +kernel, both_idx (by decide) (by decide) _⟩, ⟨rfl, by decide +kernel, by decide +kernel, both_constExpr hF _⟩,
    ⟨rfl, by decide +kernel, by decide +kernel, both_list (pairs_map d.init fun b _ => both_nat b.toNat)⟩, trivial⟩

omit hF in
theorem both_start (s : Start) : Both (lineStart s) (dbgStart s) :=
  both_struct (by decide) (by decide) ⟨⟨rfl, by decide +kernel, by decide +kernel, both_idx (by decide) (by decide) _⟩, trivial⟩

omit hF in
theorem both_importDesc (d : ImportDesc) : Both (lineImportDesc d) (dbgImportDesc d) := by
  cases d with
  | func x => simp only [lineImportDesc, dbgImportDesc]; exact both_tuple (by decide) (by decide) ⟨both_idx (by decide) (by decide) x, trivial⟩
  | table x => simp only [lineImportDesc, dbgImportDesc]; exact both_tuple (by decide) (by decide) ⟨both_tableTy x, trivial⟩
  | mem x => simp only [lineImportDesc, dbgImportDesc]; exact both_tuple (by decide) (by decide) ⟨both_memTy x, trivial⟩
  | global x => simp only [lineImportDesc, dbgImportDesc]; exact both_tuple (by decide) (by decide) ⟨both_globalTy x, trivial⟩

omit hF in
theorem both_exportDesc (d : ExportDesc) : Both (lineExportDesc d) (dbgExportDesc d) := by
  cases d with
  | func x => simp only [lineExportDesc, dbgExportDesc]; exact both_tuple (by decide) (by decide) ⟨both_idx (by decide) (by decide) x, trivial⟩
  | table x => simp only [lineExportDesc, dbgExportDesc]; exact both_tuple (by decide) (by decide) ⟨both_idx (by decide) (by decide) x, trivial⟩
  | mem x => simp only [lineExportDesc, dbgExportDesc]; exact both_tuple (by decide) (by decide) ⟨both_idx (by decide) (by decide) x, trivial⟩
  | global x => simp only [lineExportDesc, dbgExportDesc]; exact both_tuple (by decide) (by decide) ⟨both_idx (by decide) (by decide) x, trivial⟩

omit hF in
theorem both_import (i : Import) : Both (lineImport std i) (dbgImport std i) :=
  both_struct (by decide) (by decide) ⟨⟨rfl, by decide +kernel, by decide +kernel, both_name std _⟩, ⟨rfl, by decide +kernel, by decide +kernel, both_name std _⟩,
    ⟨rfl, by decide +kernel, by decide +kernel, both_importDesc _⟩, trivial⟩

omit hF in
theorem both_export (e : Export) : Both (lineExport std e) (dbgExport std e) :=
  both_struct (by decide) (by decide) ⟨⟨rfl, by decide +kernel, by decide +kernel, both_name std _⟩, ⟨rfl, by decide +kernel, by decide +kernel, both_exportDesc _⟩, trivial⟩

theorem both_module (m : Module) : Both (lineModule std m) (dbgModule std m) :=
  both_struct (by decide) (by decide) ⟨⟨rfl, by decide +kernel, by decide +kernel, both_list (pairs_map _ fun x _ => both_funcTy x)⟩,
    ⟨rfl, by decide +kernel, by decide +kernel, both_list (pairs_map _ fun x _ => both_func hF x)⟩, ⟨rfl, by decide +kernel, by decide +kernel, both_list (pairs_map _ fun x _ => both_table x)⟩,
    ⟨rfl, by decide +kernel, by decide +kernel, both_list (pairs_map _ fun x _ => both_mem x)⟩, ⟨rfl, by decide +kernel, by decide +kernel, both_list (pairs_map _ fun x _ => both_global hF x)⟩,
    ⟨rfl, by decide +kernel, by decide +kernel, both_list (pairs_map _ fun x _ => both_elem hF x)⟩, ⟨rfl, by decide +kernel, by decide +kernel, both_list (pairs_map _ fun x _ => both_data hF x)⟩,
    ⟨rfl, by decide +kernel, by decide +kernel, both_option both_start _⟩, ⟨rfl, by decide +kernel, by decide +kernel, both_list (pairs_map _ fun x _ => both_import x)⟩,
    ⟨rfl, by decide +kernel, by decide +kernel, both_list (pairs_map _ fun x _ => both_export x)⟩, trivial⟩

end

end Whasm.Reflow
