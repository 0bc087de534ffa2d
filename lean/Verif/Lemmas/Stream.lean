import Verif.Spec.Stream
import Verif.Spec.PassFile
import Verif.Lemmas.PassStep
import Verif.Lemmas.Words
import Verif.Lemmas.Flat

/-! # Places in a tree of instructions and in the sequence of its opcodes -/

namespace Whasm.Run
open Spec Spec.Pass

/-! ## Whole instructions -/

mutual
theorem scan_flatI : ∀ {ops : List Op} {i : Instr}, FlatI ops i → ∀ (l : Nat) (r : List Op), scan l (ops ++ r) = ops.length + scan l r
  | _, _, .simple _, l, r => by cases l <;> rfl
  | _, _, .block h, l, r => by
    simp only [List.cons_append, List.append_assoc, scan, scan_flatL h, List.nil_append, List.length_cons, List.length_append, List.length_nil]
    omega
  | _, _, .loop h, l, r => by
    simp only [List.cons_append, List.append_assoc, scan, scan_flatL h, List.nil_append, List.length_cons, List.length_append, List.length_nil]
    omega
  | _, _, .ifThen h, l, r => by
    simp only [List.cons_append, List.append_assoc, scan, scan_flatL h, List.nil_append, List.length_cons, List.length_append, List.length_nil]
    omega
  | _, _, .ifElse h h', l, r => by
    simp only [List.cons_append, List.append_assoc, scan, scan_flatL h, scan_flatL h', List.nil_append, List.length_cons, List.length_append, List.length_nil]
    omega
theorem scan_flatL : ∀ {ops : List Op} {is : List Instr}, FlatL ops is → ∀ (l : Nat) (r : List Op), scan l (ops ++ r) = ops.length + scan l r
  | _, _, .nil, l, r => by rw [List.nil_append, List.length_nil, Nat.zero_add]
  | _, _, .cons h h', l, r => by rw [List.append_assoc, scan_flatI h, scan_flatL h', List.length_append, Nat.add_assoc]
end

mutual
theorem scanElse_flatI : ∀ {ops : List Op} {i : Instr}, FlatI ops i → ∀ (l : Nat) (r : List Op), scanElse l (ops ++ r) = ops.length + scanElse l r
  | _, _, .simple _, l, r => by cases l <;> rfl
  | _, _, .block h, l, r => by
    simp only [List.cons_append, List.append_assoc, scanElse, scanElse_flatL h, List.nil_append, List.length_cons, List.length_append, List.length_nil]
    omega
  | _, _, .loop h, l, r => by
    simp only [List.cons_append, List.append_assoc, scanElse, scanElse_flatL h, List.nil_append, List.length_cons, List.length_append, List.length_nil]
    omega
  | _, _, .ifThen h, l, r => by
    simp only [List.cons_append, List.append_assoc, scanElse, scanElse_flatL h, List.nil_append, List.length_cons, List.length_append, List.length_nil]
    omega
  | _, _, .ifElse h h', l, r => by
    simp only [List.cons_append, List.append_assoc, scanElse, scanElse_flatL h, scanElse_flatL h', List.nil_append, List.length_cons, List.length_append, List.length_nil]
    omega
theorem scanElse_flatL : ∀ {ops : List Op} {is : List Instr}, FlatL ops is → ∀ (l : Nat) (r : List Op), scanElse l (ops ++ r) = ops.length + scanElse l r
  | _, _, .nil, l, r => by rw [List.nil_append, List.length_nil, Nat.zero_add]
  | _, _, .cons h h', l, r => by rw [List.append_assoc, scanElse_flatI h, scanElse_flatL h', List.length_append, Nat.add_assoc]
end

mutual
theorem openAt_flatI : ∀ {ops : List Op} {i : Instr}, FlatI ops i → ∀ (n : Nat) (s : List Nat) (r : List Op), openAt n s (ops ++ r) = openAt (n + ops.length) s r
  | _, _, .simple _, n, s, r => rfl
  | _, _, .block h, n, s, r => by
    simp only [List.cons_append, List.append_assoc, openAt, openAt_flatL h, List.nil_append, List.length_cons, List.length_append, List.length_nil, List.tail_cons]
    congr 1
    omega
  | _, _, .loop h, n, s, r => by
    simp only [List.cons_append, List.append_assoc, openAt, openAt_flatL h, List.nil_append, List.length_cons, List.length_append, List.length_nil, List.tail_cons]
    congr 1
    omega
  | _, _, .ifThen h, n, s, r => by
    simp only [List.cons_append, List.append_assoc, openAt, openAt_flatL h, List.nil_append, List.length_cons, List.length_append, List.length_nil, List.tail_cons]
    congr 1
    omega
  | _, _, .ifElse h h', n, s, r => by
    simp only [List.cons_append, List.append_assoc, openAt, openAt_flatL h, openAt_flatL h', List.nil_append, List.length_cons, List.length_append, List.length_nil, List.tail_cons]
    congr 1
    omega
theorem openAt_flatL : ∀ {ops : List Op} {is : List Instr}, FlatL ops is → ∀ (n : Nat) (s : List Nat) (r : List Op), openAt n s (ops ++ r) = openAt (n + ops.length) s r
  | _, _, .nil, n, s, r => rfl
  | _, _, .cons h h', n, s, r => by rw [List.append_assoc, openAt_flatI h, openAt_flatL h', List.length_append, Nat.add_assoc]
end

theorem flatL_one {x : List Op} {i : Instr} (h : FlatI x i) : FlatL x [i] := by
  have h1 := FlatL.cons h .nil
  rw [List.append_nil] at h1
  exact h1

theorem flatL_append {x y : List Op} {is js : List Instr} (h : FlatL x is) (h' : FlatL y js) : FlatL (x ++ y) (is ++ js) := by
  revert h
  induction is generalizing x with
  | nil =>
    intro h
    cases h
    exact h'
  | cons i is ih =>
    intro h
    cases h with
    | cons h1 h2 =>
      rw [List.append_assoc]
      exact .cons h1 (ih h2)

theorem flatL_nil {x : List Op} (h : FlatL x []) : x = [] := by
  cases h
  rfl

variable {p q : Place} {is : List Instr} {u v : List Op}

theorem flatL_drop {n : Nat} {i : Instr} (hn : is[n]? = some i) (h : FlatL v (is.drop n)) : ∃ x w, v = x ++ w ∧ FlatI x i ∧ FlatL w (is.drop (n + 1)) := by
  obtain ⟨hl, rfl⟩ := List.getElem?_eq_some_iff.mp hn
  rw [List.drop_eq_getElem_cons hl] at h
  cases h with
  | cons h1 h2 => exact ⟨_, _, rfl, h1, h2⟩

theorem flatL_take {n : Nat} {i : Instr} {x : List Op} (hn : is[n]? = some i) (h : FlatL u (is.take n)) (hx : FlatI x i) : FlatL (u ++ x) (is.take (n + 1)) := by
  obtain ⟨hl, rfl⟩ := List.getElem?_eq_some_iff.mp hn
  rw [List.take_succ_eq_append_getElem hl]
  exact flatL_append h (flatL_one hx)

theorem flatL_whole {n : Nat} {i : Instr} {x : List Op} (hn : is[n]? = some i) (h : FlatL u (is.take n)) (hx : FlatI x i) (h' : FlatL v (is.drop (n + 1))) : FlatL (u ++ (x ++ v)) is := by
  have h1 := flatL_append (flatL_take hn h hx) h'
  rw [List.take_append_drop, List.append_assoc] at h1
  exact h1

/-! ## Places -/

/-- Around the code `b` of a block, which is that of instruction `n` of `is`, the opcodes are `a` and `d`; `f` gives the places in the block. -/
inductive Ring (is : List Instr) (n : Nat) : (Place → Place) → List Instr → List Op → List Op → Prop
  | block {t b} (hn : is[n]? = some (.block t b)) : Ring is n (.inside n) b [.block t] [.endOp]
  | loop {t b} (hn : is[n]? = some (.loop t b)) : Ring is n (.inside n) b [.loop t] [.endOp]
  | ifThen {t a b z} (hn : is[n]? = some (.ifElse t a b)) (hz : FlatL z b) : Ring is n (.inside n) a [.ifOp t] (.elseOp :: (z ++ [.endOp]))
  | ifOnly {t a} (hn : is[n]? = some (.ifElse t a [])) : Ring is n (.inside n) a [.ifOp t] [.endOp]
  | ifElse {t a b z} (hn : is[n]? = some (.ifElse t a b)) (hz : FlatL z a) : Ring is n (.inElse n) b (.ifOp t :: (z ++ [.elseOp])) [.endOp]
  /-- an omitted second branch -/
  | ifNone {t a z} (hn : is[n]? = some (.ifElse t a [])) (hz : FlatL z a) : Ring is n (.inElse n) [] (.ifOp t :: z) [.endOp]

/-- At a place the opcodes `u` are before, `v` after. -/
inductive Splits : Place → List Instr → List Op → List Op → Prop
  | here {n is u v} (hn : n ≤ List.length is) (hu : FlatL u (is.take n)) (hv : FlatL v (is.drop n)) : Splits (.here n) is u v
  | deep {n is f b a d p x u v y} (hr : Ring is n f b a d) (hx : FlatL x (is.take n)) (h : Splits p b u v) (hy : FlatL y (is.drop (n + 1))) :
    Splits (f p) is (x ++ (a ++ u)) (v ++ (d ++ y))

section
variable {n : Nat} {f : Place → Place} {b : List Instr} {a d : List Op}

theorem ring_instr (h : Ring is n f b a d) : (f p).instr is = p.instr b := by
  cases h <;> simp only [Place.instr, *]

theorem ring_next (h : Ring is n f b a d) : (f p).next = f p.next ∧ (f p).enter = f p.enter ∧ (f p).enterElse = f p.enterElse := by
  cases h <;> exact ⟨rfl, rfl, rfl⟩

theorem ring_outer (h : Ring is n f b a d) : (f p).outer = match p.outer with | none => some (.here n) | some q => some (f q) := by
  cases h <;> rfl

theorem ring_whole (h : Ring is n f b a d) {w : List Op} (hw : FlatL w b) : ∃ i, is[n]? = some i ∧ FlatI (a ++ (w ++ d)) i := by
  cases h with
  | block hn => exact ⟨_, hn, .block hw⟩
  | loop hn => exact ⟨_, hn, .loop hw⟩
  | ifThen hn hz => exact ⟨_, hn, .ifElse hw hz⟩
  | ifOnly hn => exact ⟨_, hn, .ifThen hw⟩
  | ifElse hn hz =>
    refine ⟨_, hn, ?_⟩
    rw [List.cons_append, List.append_assoc]
    exact .ifElse hz hw
  | ifNone hn hz =>
    cases flatL_nil hw
    exact ⟨_, hn, .ifThen hz⟩

theorem ring_scan (h : Ring is n f b a d) (r : List Op) : scan 0 (d ++ r) = d.length ∧ ∀ l, scan (l + 1) (d ++ r) = d.length + scan l r := by
  cases h with
  | ifThen hn hz =>
    simp only [List.cons_append, List.append_assoc, scan, scan_flatL hz, List.nil_append, List.length_cons, List.length_append, List.length_nil]
    exact ⟨by omega, fun l => by omega⟩
  | _ => exact ⟨rfl, fun l => rfl⟩

theorem ring_open (h : Ring is n f b a d) (k : Nat) (s : List Nat) (r : List Op) : openAt k s (a ++ r) = openAt (k + a.length) (k :: s) r := by
  cases h with
  | ifElse hn hz =>
    simp only [List.cons_append, List.append_assoc, openAt, openAt_flatL hz, List.nil_append, List.length_cons, List.length_append, List.length_nil]
    congr 1
    omega
  | ifNone hn hz =>
    simp only [List.cons_append, openAt, openAt_flatL hz, List.length_cons]
    congr 1
    omega
  | _ => rfl

end

theorem splits_flat (h : Splits p is u v) : FlatL (u ++ v) is := by
  induction h with
  | here hn hu hv =>
    have h1 := flatL_append hu hv
    rw [List.take_append_drop] at h1
    exact h1
  | deep hr hx _ hy ih =>
    obtain ⟨i, hn, hi⟩ := ring_whole hr ih
    have h1 := flatL_whole hn hx hi hy
    simp only [List.append_assoc] at h1 ⊢
    exact h1

/-- At an instruction: it comes next. -/
theorem splits_next (h : Splits p is u v) {i : Instr} : p.instr is = some i → ∃ x w, FlatI x i ∧ v = x ++ w ∧ Splits p.next is (u ++ x) w := by
  induction h with
  | here hn hu hv =>
    intro hi
    obtain ⟨x, w, rfl, h1, h2⟩ := flatL_drop hi hv
    exact ⟨x, w, h1, rfl, .here (List.getElem?_eq_some_iff.mp hi).1 (flatL_take hi hu h1) h2⟩
  | deep hr hx _ hy ih =>
    intro hi
    rw [ring_instr hr] at hi
    obtain ⟨x, w, h1, rfl, h2⟩ := ih hi
    refine ⟨x, _, h1, List.append_assoc _ _ _, ?_⟩
    rw [(ring_next hr).1, List.append_assoc, List.append_assoc]
    exact .deep hr hx h2 hy

/-- Into a block, whatever kind it is: if it works in the outermost sequence, it works everywhere. -/
theorem splits_deep (h : Splits p is u v) {i : Instr} (A : List Op → List Op → Prop) (hA : ∀ {a w} y, A a w → A a (w ++ y)) (g : Place → Place)
    (hg : ∀ {is n f b a d p}, Ring is n f b a d → g (f p) = f (g p))
    (hf : ∀ {n : Nat} {is : List Instr} {u v : List Op}, is[n]? = some i → FlatL u (is.take n) → FlatL v (is.drop n) → ∃ a w, A a w ∧ v = a ++ w ∧ Splits (g (.here n)) is (u ++ a) w) :
    p.instr is = some i → ∃ a w, A a w ∧ v = a ++ w ∧ Splits (g p) is (u ++ a) w := by
  induction h with
  | here hn hu hv => exact fun hi => hf hi hu hv
  | deep hr hx _ hy ih =>
    intro hi
    rw [ring_instr hr] at hi
    obtain ⟨a, w, h1, rfl, h2⟩ := ih hi
    refine ⟨a, _, hA _ h1, List.append_assoc _ _ _, ?_⟩
    rw [hg hr, List.append_assoc, List.append_assoc]
    exact .deep hr hx h2 hy

theorem splits_start {b : List Instr} {x : List Op} (h : FlatL x b) : Splits (.here 0) b [] x := .here (Nat.zero_le _) .nil h

theorem splits_block (h : Splits p is u v) {t : RetVal} {b : List Instr} (hi : p.instr is = some (.block t b)) : ∃ w, v = .block t :: w ∧ Splits p.enter is (u ++ [.block t]) w := by
  obtain ⟨a, w, rfl, h1, h2⟩ := splits_deep h (fun a _ => a = [.block t]) (fun _ h => h) Place.enter (fun hr => (ring_next hr).2.1) (fun hn hu hv => by
    obtain ⟨x, w, rfl, h1, h2⟩ := flatL_drop hn hv
    cases h1 with
    | simple h => cases h
    | block h1 => exact ⟨_, _, rfl, by rw [List.cons_append, List.append_assoc]; rfl, .deep (.block hn) hu (splits_start h1) h2⟩) hi
  exact ⟨w, h1, h2⟩

theorem splits_loop (h : Splits p is u v) {t : RetVal} {b : List Instr} (hi : p.instr is = some (.loop t b)) : ∃ w, v = .loop t :: w ∧ Splits p.enter is (u ++ [.loop t]) w := by
  obtain ⟨a, w, rfl, h1, h2⟩ := splits_deep h (fun a _ => a = [.loop t]) (fun _ h => h) Place.enter (fun hr => (ring_next hr).2.1) (fun hn hu hv => by
    obtain ⟨x, w, rfl, h1, h2⟩ := flatL_drop hn hv
    cases h1 with
    | simple h => cases h
    | loop h1 => exact ⟨_, _, rfl, by rw [List.cons_append, List.append_assoc]; rfl, .deep (.loop hn) hu (splits_start h1) h2⟩) hi
  exact ⟨w, h1, h2⟩

theorem splits_then (h : Splits p is u v) {t : RetVal} {a b : List Instr} (hi : p.instr is = some (.ifElse t a b)) : ∃ w, v = .ifOp t :: w ∧ Splits p.enter is (u ++ [.ifOp t]) w := by
  obtain ⟨a, w, rfl, h1, h2⟩ := splits_deep h (fun a _ => a = [.ifOp t]) (fun _ h => h) Place.enter (fun hr => (ring_next hr).2.1) (fun hn hu hv => by
    obtain ⟨x, w, rfl, h1, h2⟩ := flatL_drop hn hv
    cases h1 with
    | simple h => cases h
    | ifThen h1 => exact ⟨_, _, rfl, by rw [List.cons_append, List.append_assoc]; rfl, .deep (.ifOnly hn) hu (splits_start h1) h2⟩
    | ifElse h1 h3 => exact ⟨_, _, rfl, by rw [List.cons_append, List.append_assoc]; rfl, .deep (.ifThen hn h3) hu (splits_start h1) h2⟩) hi
  exact ⟨w, h1, h2⟩

theorem splits_else (h : Splits p is u v) {t : RetVal} {a b : List Instr} (hi : p.instr is = some (.ifElse t a b)) :
    ∃ z w, FlatL z a ∧ ((v = .ifOp t :: (z ++ .elseOp :: w) ∧ Splits p.enterElse is (u ++ .ifOp t :: (z ++ [.elseOp])) w) ∨
      v = .ifOp t :: (z ++ .endOp :: w) ∧ Splits p.enterElse is (u ++ .ifOp t :: z) (.endOp :: w)) := by
  obtain ⟨c, w, ⟨z, hz, h0⟩, rfl, h2⟩ := splits_deep h (fun c w => ∃ z, FlatL z a ∧ (c = .ifOp t :: (z ++ [.elseOp]) ∨ c = .ifOp t :: z ∧ ∃ w', w = .endOp :: w'))
    (fun y h => by
      obtain ⟨z, hz, h | ⟨h, w', rfl⟩⟩ := h
      · exact ⟨z, hz, .inl h⟩
      · exact ⟨z, hz, .inr ⟨h, w' ++ y, rfl⟩⟩) Place.enterElse (fun hr => (ring_next hr).2.2) (fun hn hu hv => by
    obtain ⟨x, w, rfl, h1, h2⟩ := flatL_drop hn hv
    cases h1 with
    | simple h => cases h
    | ifThen h1 =>
      have h4 := Splits.deep (.ifNone hn h1) hu (splits_start .nil) h2
      rw [List.append_nil] at h4
      exact ⟨_, _, ⟨_, h1, .inr ⟨rfl, _, rfl⟩⟩, by simp only [List.cons_append, List.append_assoc, List.nil_append]; rfl, h4⟩
    | @ifElse _ z z' _ _ h1 h3 =>
      have h4 := Splits.deep (.ifElse hn h1) hu (splits_start h3) h2
      rw [List.append_nil] at h4
      exact ⟨_, _, ⟨_, h1, .inl rfl⟩, by simp only [List.cons_append, List.append_assoc, List.nil_append], h4⟩) hi
  refine ⟨z, ?_⟩
  rcases h0 with rfl | ⟨rfl, w', rfl⟩
  · exact ⟨w, hz, .inl ⟨by rw [List.cons_append, List.append_assoc]; rfl, h2⟩⟩
  · exact ⟨w', hz, .inr ⟨rfl, h2⟩⟩

/-- At the end of the body. -/
theorem splits_end (h : Splits p is u v) (hi : p.instr is = none) (ho : p.outer = none) : v = [] ∧ FlatL u is := by
  cases h with
  | here hn hu hv =>
    simp only [Place.instr, List.getElem?_eq_none_iff] at hi
    rw [List.drop_eq_nil_of_le hi] at hv
    rw [List.take_of_length_le hi] at hu
    exact ⟨flatL_nil hv, hu⟩
  | deep hr =>
    rw [ring_outer hr] at ho
    split at ho <;> cases ho

/-- At the end of a block. -/
theorem splits_fall (h : Splits p is u v) : p.instr is = none → ∀ {q : Place}, p.outer = some q →
    (∃ w, v = .endOp :: w ∧ Splits q.next is (u ++ [.endOp]) w) ∨ ∃ b z w, FlatL z b ∧ v = .elseOp :: (z ++ .endOp :: w) ∧ Splits q.next is (u ++ .elseOp :: (z ++ [.endOp])) w := by
  induction h with
  | here =>
    intro _ q hq
    cases hq
  | @deep n is f b a d p x u v y hr hx hs hy ih =>
    intro hi q hq
    rw [ring_instr hr] at hi
    rw [ring_outer hr] at hq
    cases ho : p.outer with
    | none =>
      rw [ho] at hq
      cases hq
      obtain ⟨rfl, hu⟩ := splits_end hs hi ho
      obtain ⟨i, hn, hw⟩ := ring_whole hr hu
      have h1 : Splits (Place.here n).next is (x ++ (a ++ (u ++ d))) y := .here (List.getElem?_eq_some_iff.mp hn).1 (flatL_take hn hx hw) hy
      have h2 : Splits (Place.here n).next is (x ++ (a ++ u) ++ d) y := by
        rw [List.append_assoc, List.append_assoc]
        exact h1
      cases hr with
      | ifThen hn hz => exact .inr ⟨_, _, _, hz, by simp only [List.cons_append, List.append_assoc, List.nil_append], h2⟩
      | _ => exact .inl ⟨_, rfl, h2⟩
    | some q' =>
      rw [ho] at hq
      cases hq
      rcases ih hi ho with ⟨w, rfl, h⟩ | ⟨b', z, w, hz, rfl, h⟩
      · refine .inl ⟨_, rfl, ?_⟩
        rw [(ring_next hr).1, List.append_assoc, List.append_assoc]
        exact .deep hr hx h hy
      · refine .inr ⟨b', z, w ++ (d ++ y), hz, by simp only [List.cons_append, List.append_assoc], ?_⟩
        rw [(ring_next hr).1, List.append_assoc, List.append_assoc]
        exact .deep hr hx h hy

/-! ## Labels -/

/-- The places of the blocks around a place, the innermost first. -/
def Place.around : Place → List Place
  | .here _ => []
  | .inside n p => p.around.map (.inside n) ++ [.here n]
  | .inElse n p => p.around.map (.inElse n) ++ [.here n]

theorem around_depth : ∀ p : Place, p.around.length = p.depth
  | .here _ => rfl
  | .inside n p => by rw [Place.around, List.length_append, List.length_map, around_depth p]; rfl
  | .inElse n p => by rw [Place.around, List.length_append, List.length_map, around_depth p]; rfl

theorem around_outer : ∀ p : Place, (p.outer = none ∧ p.around = []) ∨ ∃ q, p.outer = some q ∧ p.around = q :: q.around
  | .here _ => .inl ⟨rfl, rfl⟩
  | .inside n p => by
    rcases around_outer p with ⟨h1, h2⟩ | ⟨q, h1, h2⟩
    · exact .inr ⟨.here n, by rw [Place.outer, h1], by show p.around.map _ ++ [Place.here n] = _; rw [h2]; rfl⟩
    · exact .inr ⟨.inside n q, by rw [Place.outer, h1], by rw [Place.around, h2]; rfl⟩
  | .inElse n p => by
    rcases around_outer p with ⟨h1, h2⟩ | ⟨q, h1, h2⟩
    · exact .inr ⟨.here n, by rw [Place.outer, h1], by show p.around.map _ ++ [Place.here n] = _; rw [h2]; rfl⟩
    · exact .inr ⟨.inElse n q, by rw [Place.outer, h1], by rw [Place.around, h2]; rfl⟩

theorem up_around : ∀ (l : Nat) (p : Place), p.up l = p.around[l]?
  | 0, p => by
    rcases around_outer p with ⟨h1, h2⟩ | ⟨q, h1, h2⟩
    · rw [Place.up, h1, h2]
      rfl
    · rw [Place.up, h1, h2]
      rfl
  | l + 1, p => by
    rcases around_outer p with ⟨h1, h2⟩ | ⟨q, h1, h2⟩
    · rw [Place.up, h1, h2]
      rfl
    · rw [Place.up, h1, h2, Option.bind_some, up_around l q]
      rfl

theorem ring_around {n : Nat} {f : Place → Place} {b : List Instr} {a d : List Op} (h : Ring is n f b a d) : (f p).around = p.around.map f ++ [.here n] ∧ (f p).depth = p.depth + 1 := by
  cases h <;> exact ⟨rfl, rfl⟩

/-- Counting gets out of all blocks around a place. -/
theorem splits_scan (h : Splits p is u v) : ∀ (l : Nat) (r : List Op), scan (l + p.depth) (v ++ r) = v.length + scan l r := by
  induction h with
  | here hn hu hv => exact fun l r => scan_flatL hv _ _
  | @deep n is f b a d p x u v y hr hx hs hy ih =>
    intro l r
    have e : l + (f p).depth = (l + 1) + p.depth := by rw [(ring_around hr).2]; omega
    simp only [e, List.append_assoc, ih, (ring_scan hr _).2, scan_flatL hy, List.length_append]
    omega

theorem splits_open (h : Splits p is u v) : ∀ (k : Nat) (s : List Nat), ∃ x, x.length = p.depth ∧ openAt k s u = x ++ s := by
  induction h with
  | here hn hu hv =>
    intro k s
    refine ⟨[], rfl, ?_⟩
    have e := openAt_flatL hu k s []
    rw [List.append_nil] at e
    exact e
  | @deep n is f b a d p x u v y hr hx hs hy ih =>
    intro k s
    simp only [openAt_flatL hx, ring_open hr]
    obtain ⟨z, h1, h2⟩ := ih (k + x.length + a.length) ((k + x.length) :: s)
    exact ⟨z ++ [k + x.length], by rw [List.length_append, h1, (ring_around hr).2]; rfl, by rw [h2, List.append_assoc]; rfl⟩

/-- The block of a label, and the end of it. -/
theorem splits_up (h : Splits p is u v) : ∀ {l : Nat} {q : Place}, p.around[l]? = some q → ∃ uq z w i, Splits q is uq (z ++ w) ∧ Splits q.next is (uq ++ z) w ∧ q.instr is = some i ∧ FlatI z i ∧
    u ++ v = uq ++ (z ++ w) ∧ (∀ k s, (openAt k s u)[l]? = some (k + uq.length)) ∧ ∀ r, u.length + scan l (v ++ r) = uq.length + z.length := by
  induction h with
  | here =>
    intro l q hq
    cases hq
  | @deep n is f b a d p x u v y hr hx hs hy ih =>
    intro l q hq
    rw [(ring_around hr).1] at hq
    by_cases hl : l < p.around.length
    · rw [List.getElem?_append_left (by rw [List.length_map]; exact hl), List.getElem?_map] at hq
      cases hq' : p.around[l]? with
      | none =>
        rw [hq'] at hq
        cases hq
      | some q' =>
        rw [hq'] at hq
        cases hq
        obtain ⟨uq, z, w, i, h1, h2, h3, h4, h5, h6, h7⟩ := ih hq'
        refine ⟨x ++ (a ++ uq), z, w ++ (d ++ y), i, ?_, ?_, by rw [ring_instr hr]; exact h3, h4, ?_, fun k s => ?_, fun r => ?_⟩
        · have h8 := Splits.deep hr hx h1 hy
          rw [List.append_assoc] at h8
          exact h8
        · rw [(ring_next hr).1, List.append_assoc, List.append_assoc]
          exact .deep hr hx h2 hy
        · have h8 := congrArg (fun o => x ++ (a ++ (o ++ (d ++ y)))) h5
          simp only [List.append_assoc] at h8 ⊢
          exact h8
        · simp only [openAt_flatL hx, ring_open hr, h6, List.length_append]
          congr 1
          omega
        · have h8 := h7 ((d ++ y) ++ r)
          simp only [List.append_assoc, List.length_append] at h8 ⊢
          omega
    · have hd := around_depth p
      rw [List.getElem?_append_right (by rw [List.length_map]; omega), List.length_map] at hq
      have e : l = p.depth := by
        by_cases e : l = p.depth
        · exact e
        · rw [List.getElem?_eq_none (by simp only [List.length_cons, List.length_nil]; omega)] at hq
          cases hq
      subst e
      rw [hd, Nat.sub_self] at hq
      cases hq
      have h1 := fun r => splits_scan hs 0 r
      rw [Nat.zero_add] at h1
      obtain ⟨i, hn, hi⟩ := ring_whole hr (splits_flat hs)
      have hlt := (List.getElem?_eq_some_iff.mp hn).1
      refine ⟨x, _, y, i, .here (Nat.le_of_lt hlt) hx ?_, .here hlt (flatL_take hn hx hi) hy, hn, hi, by simp only [List.append_assoc], fun k s => ?_, fun r => ?_⟩
      · rw [List.drop_eq_getElem_cons hlt, (List.getElem?_eq_some_iff.mp hn).2]
        exact .cons hi hy
      · simp only [openAt_flatL hx, ring_open hr]
        obtain ⟨z, h2, h3⟩ := splits_open hs (k + x.length + a.length) ((k + x.length) :: s)
        rw [h3, List.getElem?_append_right (by omega), h2, Nat.sub_self]
        rfl
      · simp only [List.append_assoc, h1, (ring_scan hr _).1, List.length_append]
        omega

theorem flat_head {x : List Op} {i : Instr} (h : FlatI x i) (r : List Op) : (∃ t b, i = .loop t b ∧ (x ++ r)[0]? = some (.loop t)) ∨ (∀ t b, i ≠ .loop t b) ∧ ∀ t, (x ++ r)[0]? ≠ some (.loop t) := by
  cases h with
  | simple h => exact .inr ⟨fun t b e => (by subst e; exact h), fun t e => (by cases e)⟩
  | loop h => exact .inl ⟨_, _, rfl, rfl⟩
  | _ => exact .inr ⟨fun t b e => (by cases e), fun t e => (by cases e)⟩

/-- Where a branch goes on. -/
theorem goal_land (h : Splits p is u v) {l : Nat} {q : Place} (hq : p.up l = some q) (r : List Op) :
    ∃ w w', Splits (q.land is) is w w' ∧ w ++ w' = u ++ v ∧ goal (u ++ v ++ r) u.length l = w.length := by
  rw [up_around] at hq
  obtain ⟨uq, z, w, i, h1, h2, h3, h4, h5, h6, h7⟩ := splits_up h hq
  have e1 : (u ++ v ++ r).take u.length = u := by rw [List.append_assoc, List.take_left]
  have e2 : (u ++ v ++ r).drop u.length = v ++ r := by rw [List.append_assoc, List.drop_left]
  have e3 : (openAt 0 [] u).getD l 0 = uq.length := by rw [List.getD_eq_getElem?_getD, h6, Nat.zero_add]; rfl
  have e4 : (u ++ v ++ r)[uq.length]? = (z ++ (w ++ r))[0]? := by
    rw [h5, List.append_assoc, List.getElem?_append_right (Nat.le_refl _), Nat.sub_self, List.append_assoc]
  unfold goal
  rw [e1, e2, e3, e4, h7]
  rcases flat_head h4 (w ++ r) with ⟨t, b, rfl, e5⟩ | ⟨e5, e6⟩
  · rw [e5, land_loop h3]
    exact ⟨_, _, h1, h5.symm, rfl⟩
  · rw [land_next h3 e5]
    refine ⟨_, _, h2, by rw [h5, List.append_assoc], ?_⟩
    split
    · rename_i t e
      exact absurd e (e6 t)
    · rw [List.length_append]

/-! ## States -/

section
variable (K : Codes)

/-- A call, and the same with a number for its place. -/
def Lies (a : Act) (l : LAct) : Prop :=
  ∃ u v, Splits a.place a.func.body u v ∧ K a.func = u ++ v ++ [.endOp] ∧ l = ⟨a.type, a.func, u.length, a.locals.map Value.cell, a.stack.map Value.cell⟩

/-- The place is one of an instruction that is an opcode. -/
def Waits (a : Act) (l : LAct) : Prop := Lies K a l ∧ ∃ i, a.place.instr a.func.body = some i ∧ lineI i = [.instr i]

/-- A state, and the same with numbers for its places. -/
inductive LRel : FState → LState → Prop
  | running {st a as l ls} (h : Lies K a l) (hs : Related (Waits K) as ls) : LRel (.running st a as) (.running st l ls)
  | finished {st vs} : LRel (.finished st vs) (.finished st vs)
  | trapped {st} : LRel (.trapped st) (.trapped st)

end

/-- An instruction that is an opcode. -/
theorem op_of_next {M : Machine} {c c' : Conf} {i : Instr} (h : Step M c [.plain i] c' []) : lineI i = [.instr i] := by
  cases h <;> rfl

theorem op_of_trap {M : Machine} {c c' : Conf} {i : Instr} (h : Step M c [.plain i] c' [.trap]) : lineI i = [.instr i] := by
  cases h <;> rfl

theorem op_of_call {M : Machine} {c c' : Conf} {i : Instr} {fi : FuncInst} (h : Step M c [.plain i] c' [.invoke fi]) : lineI i = [.instr i] := by
  cases h <;> rfl

theorem op_of_jump {i : Instr} {l : Nat} {us vs : List Value} (h : Jumps (some i) l us vs) : lineI i = [.instr i] := by
  cases h <;> rfl

theorem flat_op {x : List Op} {i : Instr} (h : FlatI x i) (ho : lineI i = [.instr i]) : x = [.instr i] := by
  cases h with
  | simple => rfl
  | _ => cases ho

theorem splits_op {i : Instr} (h : Splits p is u v) (hi : p.instr is = some i) (ho : lineI i = [.instr i]) : ∃ w, v = .instr i :: w ∧ Splits p.next is (u ++ [.instr i]) w := by
  obtain ⟨x, w, h1, rfl, h2⟩ := splits_next h hi
  cases flat_op h1 ho
  exact ⟨w, rfl, h2⟩

theorem drop_at {K : Codes} {f : Func} (hk : K f = u ++ v ++ [.endOp]) : (K f).drop u.length = v ++ [.endOp] := by
  rw [hk, List.append_assoc, List.drop_left]

theorem take_at {K : Codes} {f : Func} (hk : K f = u ++ v ++ [.endOp]) : (K f).take u.length = u := by
  rw [hk, List.append_assoc, List.take_left]

/-- At the place after. -/
theorem lies_at {K : Codes} {t : FuncTy} {f : Func} {w w' : List Op} {ls S : List Value} {n : Nat} {ls' S' : List Cell} (h : Splits p f.body w w') (hk : K f = w ++ w' ++ [.endOp]) (hn : n = w.length)
    (hl : ls' = ls.map Value.cell) (hS : S' = S.map Value.cell) : Lies K ⟨t, f, p, ls, S⟩ ⟨t, f, n, ls', S'⟩ := by
  subst hn hl hS
  exact ⟨w, w', h, hk, rfl⟩

theorem cells_zero (ts : List Val) : (ts.map zero).map Value.cell = ts.map fun _ => (0 : Cell) := by
  rw [List.map_map]
  exact congrArg (fun g => List.map g ts) (funext cell_zero)

section
variable {M : Machine} {K : Codes} {L : LTable} {st : Store} {a : Act} {as : List LAct} {t : FuncTy} {f : Func} {ls S : List Cell}

/-- The step at an opcode that is an instruction. -/
theorem lstep_instr {i : Instr} {w : List Op} (hk : (K f).drop u.length = .instr i :: w) : lstep M K L (.running st ⟨t, f, u.length, ls, S⟩ as) =
      match effect M st ls S i with
      | .next st' ls S => .running st' ⟨t, f, u.length + 1, ls, S⟩ as
      | .trap st' => .trapped st'
      | .jump l S => .running st ⟨t, f, goal (K f) u.length l, ls, S.take ((L f u.length l).getD (0, 0)).1 ++ S.drop (S.length - ((L f u.length l).getD (0, 0)).2)⟩ as
      | .call fi S' => linvoke M st ⟨t, f, u.length, ls, S⟩ as S' fi
      | .back S => lleave st t S as
      | .enter _ => .trapped st
      | .enterElse _ => .trapped st := by
  rw [lstep, hk]
  rfl

end

theorem leave_lies {K : Codes} {a a' : Act} {l : LAct} {ls : List LAct} {st : Store} {as : List Act} {us rest : List Value} (hp : popArgs a.type.results a.stack = some (us, rest)) (hw : Waits K a' l)
    (hs : Related (Waits K) as ls) :
    LRel K (.running st { a' with place := a'.place.next, stack := us.reverse ++ a'.stack } as) (lleave st a.type (a.stack.map Value.cell) (l :: ls)) := by
  obtain ⟨h1, _, h3⟩ := popArgs_cells hp
  obtain ⟨⟨u, v, h4, hk, rfl⟩, i, hi, ho⟩ := hw
  obtain ⟨w, rfl, h5⟩ := splits_op h4 hi ho
  refine .running (lies_at h5 (by rw [hk]; simp only [List.append_assoc, List.cons_append, List.nil_append]) (by rw [List.length_append]; rfl) rfl ?_) hs
  rw [List.map_append, List.map_reverse, ← h3, List.reverse_reverse]

/-- A step of the machine of `Spec/Flat.lean` is a step on the opcodes. -/
theorem lstep_low {M : Machine} {K : Codes} {T : Landings} {L : LTable} {s s' : FState} {l : LState} (h : FStep M T s s') (hg : s'.store.globals.map Value.type = s.store.globals.map Value.type)
    (hr : LRel K s l) (hT : ∀ {st a as u v}, s = .running st a as → Splits a.place a.func.body u v → K a.func = u ++ v ++ [.endOp] → a.place.instr a.func.body ≠ none →
      ∀ l, L a.func u.length l = T a.func a.place l)
    (hK : ∀ {st a as}, s' = .running st a as → ∃ ops, K a.func = ops ++ [.endOp] ∧ FlatL ops a.func.body) : LRel K s' (lstep M K L l) := by
  have ap : ∀ {u w y : List Op} {o : Op}, u ++ o :: w ++ y = u ++ [o] ++ w ++ y := fun {u w y o} => by simp only [List.append_assoc, List.cons_append, List.nil_append]
  cases h with
  | instr hi h =>
    obtain ⟨⟨u, v, hs, hk, rfl⟩, hb⟩ := hr
    obtain ⟨w, rfl, hs'⟩ := splits_op hs hi (op_of_next h)
    rw [lstep_instr (w := w ++ [.endOp]) (drop_at hk), effect_next h hg]
    exact .running (lies_at hs' (hk.trans ap) (by rw [List.length_append]; rfl) rfl rfl) hb
  | trap hi h =>
    obtain ⟨⟨u, v, hs, hk, rfl⟩, hb⟩ := hr
    obtain ⟨w, rfl, hs'⟩ := splits_op hs hi (op_of_trap h)
    rw [lstep_instr (w := w ++ [.endOp]) (drop_at hk), effect_trap h]
    exact .trapped
  | block hi =>
    obtain ⟨⟨u, v, hs, hk, rfl⟩, hb⟩ := hr
    obtain ⟨w, rfl, hs'⟩ := splits_block hs hi
    rw [lstep, drop_at hk]
    exact .running (lies_at hs' (hk.trans ap) (by rw [List.length_append]; rfl) rfl rfl) hb
  | loop hi =>
    obtain ⟨⟨u, v, hs, hk, rfl⟩, hb⟩ := hr
    obtain ⟨w, rfl, hs'⟩ := splits_loop hs hi
    rw [lstep, drop_at hk]
    exact .running (lies_at hs' (hk.trans ap) (by rw [List.length_append]; rfl) rfl rfl) hb
  | ifThen hi hv hc =>
    obtain ⟨⟨u, v, hs, hk, rfl⟩, hb⟩ := hr
    obtain ⟨w, rfl, hs'⟩ := splits_then hs hi
    rw [lstep, drop_at hk, hv]
    simp only [List.cons_append, List.map_cons, top32_cell, if_neg hc, List.tail_cons]
    exact .running (lies_at hs' (hk.trans ap) (by rw [List.length_append]; rfl) rfl rfl) hb
  | ifElse hi hv hc =>
    obtain ⟨⟨u, v, hs, hk, rfl⟩, hb⟩ := hr
    rcases splits_else hs hi with ⟨z, w, hz, ⟨rfl, hs'⟩ | ⟨rfl, hs'⟩⟩
    · rw [lstep, drop_at hk, hv]
      simp only [List.cons_append, List.append_assoc, List.map_cons, top32_cell, if_pos hc, List.tail_cons, scanElse_flatL hz, scanElse]
      exact .running (lies_at hs' (by rw [hk]; simp only [List.append_assoc, List.cons_append, List.nil_append])
        (by simp only [List.length_append, List.length_cons, List.length_nil]; omega) rfl rfl) hb
    · rw [lstep, drop_at hk, hv]
      simp only [List.cons_append, List.append_assoc, List.map_cons, top32_cell, if_pos hc, List.tail_cons, scanElse_flatL hz, scanElse]
      exact .running (lies_at hs' (by rw [hk]; simp only [List.append_assoc, List.cons_append])
        (by simp only [List.length_append, List.length_cons]; omega) rfl rfl) hb
  | fall hi hq =>
    obtain ⟨⟨u, v, hs, hk, rfl⟩, hb⟩ := hr
    rcases splits_fall hs hi hq with ⟨w, rfl, hs'⟩ | ⟨b, z, w, hz, rfl, hs'⟩
    · rw [lstep, drop_at hk]
      have hl := fun st t ls S => LRel.running (st := st) (lies_at (t := t) (ls := ls) (S := S) (n := u.length + 1) hs' (hk.trans ap) (by rw [List.length_append]; rfl) rfl rfl) hb
      cases w <;> exact hl _ _ _ _
    · rw [lstep, drop_at hk]
      simp only [List.cons_append, List.append_assoc, scan_flatL hz, scan]
      exact .running (lies_at hs' (by rw [hk]; simp only [List.append_assoc, List.cons_append, List.nil_append])
        (by simp only [List.length_append, List.length_cons, List.length_nil]; omega) rfl rfl) hb
  | @branch st a as l S k n q hj ht hq =>
    obtain ⟨⟨u, v, hs, hk, rfl⟩, hb⟩ := hr
    cases hi : a.place.instr a.func.body with
    | none =>
      rw [hi] at hj
      cases hj
    | some i =>
      rw [hi] at hj
      have hd := hT rfl hs hk (by rw [hi]; exact Option.some_ne_none i) l
      obtain ⟨w, w', hs', he, hgo⟩ := goal_land hs hq [.endOp]
      obtain ⟨r, rfl, _⟩ := splits_op hs hi (op_of_jump hj)
      rw [lstep_instr (w := r ++ [.endOp]) (drop_at hk), effect_jump hj]
      simp only [hd, ht, Option.getD_some]
      rw [hk, hgo]
      exact .running (lies_at hs' (by rw [hk, he]) rfl rfl (by simp only [lowest, List.map_append, List.map_take, List.map_drop, List.length_map])) hb
  | @call st a as i ls' S t f args rest hi h hp =>
    obtain ⟨⟨u, v, hs, hk, rfl⟩, hb⟩ := hr
    obtain ⟨_, h2, h3⟩ := popArgs_cells hp
    obtain ⟨ops, hk', hf⟩ := hK rfl
    obtain ⟨w, rfl, _⟩ := splits_op hs hi (op_of_call h)
    rw [lstep_instr (w := w ++ [.endOp]) (drop_at hk), effect_call h]
    simp only [linvoke, h2, h3]
    exact .running (lies_at (splits_start hf) hk' rfl (by rw [List.map_append, cells_zero]) rfl) (.cons ⟨lies_at hs hk rfl rfl rfl, i, hi, op_of_call h⟩ hb)
  | host hi h hp hh =>
    obtain ⟨⟨u, v, hs, hk, rfl⟩, hb⟩ := hr
    obtain ⟨h1, h2, _⟩ := popArgs_cells hp
    obtain ⟨w, rfl, hs'⟩ := splits_op hs hi (op_of_call h)
    rw [lstep_instr (w := w ++ [.endOp]) (drop_at hk), effect_call h]
    simp only [linvoke, h1, h2, hh]
    exact .running (lies_at hs' (hk.trans ap) (by rw [List.length_append]; rfl) rfl (by rw [List.map_append, List.map_reverse])) hb
  | hostTrap hi h hp hh =>
    obtain ⟨⟨u, v, hs, hk, rfl⟩, hb⟩ := hr
    obtain ⟨h1, h2, _⟩ := popArgs_cells hp
    obtain ⟨w, rfl, _⟩ := splits_op hs hi (op_of_call h)
    rw [lstep_instr (w := w ++ [.endOp]) (drop_at hk), effect_call h]
    simp only [linvoke, h1, hh]
    exact .trapped
  | @back st a a' as us rest hi hp =>
    obtain ⟨⟨u, v, hs, hk, rfl⟩, hb⟩ := hr
    cases hb with
    | cons hw hb =>
      have h1 := leave_lies (st := st) hp hw hb
      rcases hi with hi | ⟨hi, ho⟩
      · obtain ⟨w, rfl, _⟩ := splits_op hs hi rfl
        rw [lstep_instr (w := w ++ [.endOp]) (drop_at hk)]
        exact h1
      · cases (splits_end hs hi ho).1
        rw [lstep, drop_at hk]
        exact h1
  | @last st a us rest hi hp =>
    obtain ⟨⟨u, v, hs, hk, rfl⟩, hb⟩ := hr
    cases hb
    obtain ⟨h1, _, _⟩ := popArgs_cells hp
    rcases hi with hi | ⟨hi, ho⟩
    · obtain ⟨w, rfl, _⟩ := splits_op hs hi rfl
      rw [lstep_instr (w := w ++ [.endOp]) (drop_at hk)]
      simp only [effect, lleave, h1]
      exact .finished
    · cases (splits_end hs hi ho).1
      rw [lstep, drop_at hk]
      simp only [List.nil_append, lleave, h1]
      exact .finished

/-! ## The algorithm of the appendix -/

theorem run_same {C : Env} (hC : C.aligned = false) {x y : List Op} (h : FlatL x is) (h' : FlatL y is) {s : St} (hs : Pass.Framed s) :
    Pass.run C s x = Pass.run C s y ∧ ∀ s', Pass.run C s x = some s' → Pass.Framed s' := by
  obtain ⟨base, k, l, o, rest, z, rfl⟩ := hs
  rw [Pass.run_seq hC h, Pass.run_seq hC h']
  refine ⟨rfl, fun s' e => ?_⟩
  obtain ⟨z', _, rfl⟩ := Option.map_eq_some_iff.mp e
  exact ⟨_, _, _, _, _, _, rfl⟩

/-- Before an instruction, and before all opcodes but the `end` of a block, the algorithm has the same stacks however the code is written. -/
theorem splits_run {C : Env} (hC : C.aligned = false) (h : Splits p is u v) : plainL is → (p.instr is ≠ none ∨ v.head? ≠ some .endOp) → ∃ w, upTo p is = some w ∧ ∀ {s : St}, Pass.Framed s → Pass.run C s u = Pass.run C s w := by
  induction h with
  | here hn hu hv =>
    intro hp _
    exact ⟨_, rfl, fun hs => (run_same hC hu (Pass.lineL_spec _ (Pass.plain_take _ hp)) hs).1⟩
  | @deep n is f b a d p x u v y hr hx hs hy ih =>
    intro hp hi'
    rw [ring_instr hr] at hi'
    have hi : p.instr b ≠ none ∨ v.head? ≠ some .endOp := hi'.imp_right fun e e' => e (by rw [List.head?_append, e', Option.some_or])
    have hx' := Pass.lineL_spec _ (Pass.plain_take n hp)
    have key : ∀ {s : St} {r r' : List Op}, Pass.Framed s → (∀ s', Pass.Framed s' → Pass.run C s' r = Pass.run C s' r') → Pass.run C s (x ++ r) = Pass.run C s (lineL (is.take n) ++ r') := by
      intro s r r' hs hr
      obtain ⟨h1, h2⟩ := run_same hC hx hx' hs
      rw [Pass.run_append, Pass.run_append, ← h1]
      cases e : Pass.run C s x with
      | none => rfl
      | some s' => exact hr s' (h2 s' e)
    cases hr with
    | @block t b0 hn =>
      have hpb := plainL_mem hp (List.mem_of_getElem? hn)
      obtain ⟨w, h1, h2⟩ := ih hpb hi
      refine ⟨lineL (is.take n) ++ .block t :: w, by simp only [upTo, hn, h1, Option.map_some], fun hs => key hs fun s' hs' => ?_⟩
      rw [List.cons_append, List.nil_append, Pass.run_block hs', Pass.run_block hs']
      exact h2 (Pass.framed_push _ _ _)
    | @loop t b0 hn =>
      have hpb := plainL_mem hp (List.mem_of_getElem? hn)
      obtain ⟨w, h1, h2⟩ := ih hpb hi
      refine ⟨lineL (is.take n) ++ .loop t :: w, by simp only [upTo, hn, h1, Option.map_some], fun hs => key hs fun s' hs' => ?_⟩
      rw [List.cons_append, List.nil_append, Pass.run_loop hs', Pass.run_loop hs']
      exact h2 (Pass.framed_push _ _ _)
    | @ifThen t a0 b0 z hn hz =>
      have hpb := plainL_mem hp (List.mem_of_getElem? hn)
      obtain ⟨w, h1, h2⟩ := ih hpb.1 hi
      refine ⟨lineL (is.take n) ++ .ifOp t :: w, by simp only [upTo, hn, h1, Option.map_some], fun hs => key hs fun s' hs' => ?_⟩
      rw [List.cons_append, List.nil_append, Pass.run_if hs', Pass.run_if hs']
      exact congrArg _ (funext fun s => h2 (Pass.framed_push _ _ _))
    | @ifOnly t a0 hn =>
      have hpb := plainL_mem hp (List.mem_of_getElem? hn)
      obtain ⟨w, h1, h2⟩ := ih hpb.1 hi
      refine ⟨lineL (is.take n) ++ .ifOp t :: w, by simp only [upTo, hn, h1, Option.map_some], fun hs => key hs fun s' hs' => ?_⟩
      rw [List.cons_append, List.nil_append, Pass.run_if hs', Pass.run_if hs']
      exact congrArg _ (funext fun s => h2 (Pass.framed_push _ _ _))
    | @ifElse t a0 b0 z hn hz =>
      have hpb := plainL_mem hp (List.mem_of_getElem? hn)
      obtain ⟨w, h1, h2⟩ := ih hpb.2 hi
      refine ⟨lineL (is.take n) ++ .ifOp t :: (lineL a0 ++ .elseOp :: w), by simp only [upTo, hn, h1, Option.map_some], fun hs => key hs fun s' hs' => ?_⟩
      rw [List.cons_append, List.append_assoc, Pass.run_if hs', Pass.run_if hs']
      refine congrArg _ (funext fun s => ?_)
      obtain ⟨h3, h4⟩ := run_same hC hz (Pass.lineL_spec _ hpb.1) (Pass.framed_push (s := s) .ifThen t t)
      rw [Pass.run_append, Pass.run_append, ← h3]
      cases e : Pass.run C (push_ctrl .ifThen t t s) z with
      | none => rfl
      | some s2 =>
        show Pass.run C s2 (.elseOp :: u) = Pass.run C s2 (.elseOp :: w)
        rw [Pass.run_cons, Pass.run_cons]
        cases e2 : validate C s2 .elseOp with
        | none => rfl
        | some s3 =>
          refine h2 ?_
          unfold validate at e2
          split at e2
          · cases e2
          · simp only [Option.bind_eq_some_iff] at e2
            obtain ⟨x, _, e3⟩ := e2
            split at e3
            · cases e3
              exact Pass.framed_push _ _ _
            · cases e3
    | ifNone hn hz =>
      cases hs with
      | here _ _ hv =>
        refine hi'.elim (absurd rfl) fun e => ?_
        rw [List.drop_nil] at hv
        cases hv
        exact absurd rfl e
      | deep hr' _ h' =>
        obtain ⟨i, e, _⟩ := ring_whole hr' (splits_flat h')
        cases e

end Whasm.Run
