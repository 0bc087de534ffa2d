import Verif.Lemmas.Preserve
import Verif.Lemmas.Reduce
import Verif.Lemmas.Exec
import Verif.Lemmas.Plain
import Verif.Lemmas.Sound
import Verif.Model.Arrive
import Verif.Spec.Points

/-!
# The context of validation at a place, and execution that gets there
-/

namespace Whasm.Run
open Spec

/-- What validation knows when all is known. -/
abbrev vals (ts : List Val) : Loc := (ts.reverse.map .val, false)

theorem matches_unique : ∀ {ops : List Operand} {u : Bool} {T : List Val}, (∀ ts, MatchesL u ops ts → ts = T) → u = false ∧ ops = T.map .val
  | [], u, T, h => by
    cases u with
    | true =>
      have h1 := h [] (.inl rfl)
      have h2 := h [.i32] (.inl rfl)
      rw [← h1] at h2
      cases h2
    | false => exact ⟨rfl, by rw [← h [] (.inr rfl)]; rfl⟩
  | o :: ops, u, T, h => by
    obtain ⟨ts, hts⟩ := matches_exists (ops, u)
    cases o with
    | unknown =>
      have h1 := h (.i32 :: ts) ⟨trivial, hts⟩
      have h2 := h (.i64 :: ts) ⟨trivial, hts⟩
      rw [← h1] at h2
      cases h2
    | val v =>
      have h1 := h (v :: ts) ⟨rfl, hts⟩
      subst h1
      obtain ⟨h2, h3⟩ := matches_unique (ops := ops) (u := u) (T := ts) fun ts' h' => by
        have := h (v :: ts') ⟨rfl, h'⟩
        exact (List.cons.inj this).2
      exact ⟨h2, by rw [h3]; rfl⟩

theorem evalExpr_append {C : Env} : ∀ {a b : List Instr} {s : Loc}, evalExpr C (a ++ b) s = (evalExpr C a s).bind fun s => evalExpr C b s
  | [], b, s => rfl
  | i :: a, b, s => by
    show (evalInstr C i s).bind _ = ((evalInstr C i s).bind _).bind _
    rw [Option.bind_assoc]
    exact congrArg _ (funext fun s => evalExpr_append)

variable {m : Module} {M : Machine} {st : Store}

theorem matches_vals {ts ts0 : List Val} (h : Matches (vals ts) ts0) : ts0 = ts.reverse := by
  have h1 : MatchesL false (ts.reverse.map .val ++ []) ts0 := by rw [List.append_nil]; exact h
  obtain ⟨x, rfl, hx⟩ := matchesL_vals.mp h1
  rcases hx with hx | rfl
  · cases hx
  · rw [List.append_nil]

/-- Code that validation goes through and execution as well: the types in the end are those of validation. -/
theorem eval_run (H : Fit m M) {C : Env} (hC : EnvOk m C) (ha : C.aligned = false) {is : List Instr} {ts : List Val} {c c' : Conf} (hc : ConfOk m M st C ts c) {s : Loc}
    (he : evalExpr C is (vals ts) = some s) {k : Nat} (hs : Steps M k c (plains is) c' []) : ∃ ts', s = vals ts' ∧ ConfOk m M st C ts' c' := by
  have key : ∀ ts1, Matches s ts1 → ConfOk m M st C ts1.reverse c' := by
    intro ts1 h1
    obtain ⟨ts0, h2, h3⟩ := sound_expr ha he h1
    rw [matches_vals h2, List.reverse_reverse] at h3
    have h4 := aok_plains (m := m) (M := M) (es := []) h3 .nil
    rw [List.append_nil] at h4
    obtain ⟨us, h5, h6⟩ := steps_keep H hs hC hc h4
    cases h6
    exact h5
  obtain ⟨ts1, h1⟩ := matches_exists s
  have h2 := key ts1 h1
  obtain ⟨h3, h4⟩ := matches_unique (ops := s.1) (u := s.2) (T := c'.stack.map Value.type) fun ts h => by
    have := (key ts h).stack
    unfold Typed at this
    rw [this, List.reverse_reverse]
  have h5 := h2.stack
  unfold Typed at h5
  rw [List.reverse_reverse] at h5
  refine ⟨ts1.reverse, ?_, h2⟩
  obtain ⟨o, u⟩ := s
  simp only at h3 h4
  rw [h3, h4, h5, vals, List.reverse_reverse]

theorem plainL_take : ∀ {is : List Instr} {n : Nat}, plainL is → plainL (is.take n)
  | [], n, _ => by simp [plainL]
  | i :: is, 0, _ => trivial
  | i :: is, n + 1, h => ⟨h.1, plainL_take h.2⟩

theorem take_drop_get {is : List Instr} {n : Nat} {i : Instr} (h : is[n]? = some i) : is.take n ++ i :: is.drop (n + 1) = is := by
  obtain ⟨hn, rfl⟩ := List.getElem?_eq_some_iff.mp h
  rw [← List.drop_eq_getElem_cons hn, List.take_append_drop]

theorem eval_at {C : Env} {is : List Instr} {n : Nat} {i : Instr} (h : is[n]? = some i) {s s1 s' : Loc} (he : evalExpr C is s = some s')
    (h1 : evalExpr C (is.take n) s = some s1) : ∃ s2, evalInstr C i s1 = some s2 := by
  rw [← take_drop_get h, evalExpr_append, h1] at he
  simp only [Option.bind_some, evalExpr, Option.bind_eq_some_iff] at he
  obtain ⟨s2, h2, _⟩ := he
  exact ⟨s2, h2⟩

theorem mk_push {x : Ctx} {base : List Operand} {l o : List Val} {rest : List Frame} {ts : List Val} {lab res : List Val} :
    pushFrame lab res (mk x base l o rest (vals ts)) =
      .ok ((), mk x ((vals ts).1 ++ base) lab res (⟨l, o, base.length, false⟩ :: rest) (vals [])) := rfl

theorem typed_top {v : BitVec 32} {vs : List Value} {ts : List Val} (h : Typed (.i32 v :: vs) ts) : ∃ t, ts = t ++ [.i32] ∧ Typed vs t := by
  unfold Typed at h
  have h1 := congrArg List.reverse h
  rw [List.reverse_reverse, List.map_cons, List.reverse_cons] at h1
  exact ⟨_, h1.symm, by unfold Typed; rw [List.reverse_reverse]⟩

theorem pops_i32 {t : List Val} : popsL [.i32] (vals (t ++ [.i32])) = some (vals t) := by
  simp [popsL, popL, vals]

/-- The type of a value, as an operand of validation. -/
abbrev known (vs : List Value) : List Operand := vs.map fun v => .val v.type

/-- What a frame says of a label. -/
abbrev marks (frs : List Frame) : List (List Val × Nat × Bool) := frs.map fun fr => (fr.label, fr.height, fr.unreachable)

/-- Labels, as frames that are not marked unreachable. -/
abbrev live (F : List (List Val × Nat)) : List (List Val × Nat × Bool) := F.map fun q => (q.1, q.2, false)

/-- `At` with the operands and labels around, and those around the innermost block. -/
inductive Gets (M : Machine) : List Value → List (List Val × Nat) → List Instr → Conf → Place → Conf → List Value → List (List Val × Nat) → Prop
  | here {B F is c n k c'} (hn : n ≤ List.length is) (h : Steps M k c (plains (is.take n)) c' []) : Gets M B F is c (.here n) c' B F
  | again {B F is c n r b c' j c''} (hn : is[n]? = some (.loop r b)) (h : Gets M B F is c (.here n) c' B F)
    (hl : Steps M j c' [.plain (.loop r b)] c'' [.plain (.loop r b)]) : Gets M B F is c (.here n) c'' B F
  | block {B F is c n r b c' p c'' B' F'} (hn : is[n]? = some (.block r b)) (h : Gets M B F is c (.here n) c' B F)
    (hb : Gets M (c'.stack ++ B) ((r, (c'.stack ++ B).length) :: F) b ⟨c'.store, c'.locals, []⟩ p c'' B' F') : Gets M B F is c (.inside n p) c'' B' F'
  | loop {B F is c n r b c' p c'' B' F'} (hn : is[n]? = some (.loop r b)) (h : Gets M B F is c (.here n) c' B F)
    (hb : Gets M (c'.stack ++ B) (([], (c'.stack ++ B).length) :: F) b ⟨c'.store, c'.locals, []⟩ p c'' B' F') : Gets M B F is c (.inside n p) c'' B' F'
  | ifThen {B F is c n r a b st ls k vs p c'' B' F'} (hn : is[n]? = some (.ifElse r a b)) (h : Gets M B F is c (.here n) ⟨st, ls, .i32 k :: vs⟩ B F) (hk : k ≠ 0)
    (hb : Gets M (vs ++ B) ((r, (vs ++ B).length) :: F) a ⟨st, ls, []⟩ p c'' B' F') : Gets M B F is c (.inside n p) c'' B' F'
  | ifElse {B F is c n r a b st ls k vs p c'' B' F'} (hn : is[n]? = some (.ifElse r a b)) (h : Gets M B F is c (.here n) ⟨st, ls, .i32 k :: vs⟩ B F) (hk : k = 0)
    (hb : Gets M (vs ++ B) ((r, (vs ++ B).length) :: F) b ⟨st, ls, []⟩ p c'' B' F') : Gets M B F is c (.inElse n p) c'' B' F'

theorem at_of_gets {B B' : List Value} {F F' : List (List Val × Nat)} {is : List Instr} {c c' : Conf} {p : Place} (h : Gets M B F is c p c' B' F') : At M is c p c' := by
  induction h with
  | here hn h => exact .here hn h
  | again hn _ hl ih => exact .again hn ih hl
  | block hn _ _ ih ih2 => exact .block hn ih ih2
  | loop hn _ _ ih ih2 => exact .loop hn ih ih2
  | ifThen hn _ hk _ ih ih2 => exact .ifThen hn ih hk ih2
  | ifElse hn _ hk _ ih ih2 => exact .ifElse hn ih hk ih2

theorem gets_here {B B' : List Value} {F F' : List (List Val × Nat)} {is : List Instr} {c c' : Conf} {n : Nat} (h : Gets M B F is c (.here n) c' B' F') :
    Gets M B F is c (.here n) c' B F := by
  cases h with
  | here hn h => exact .here hn h
  | again hn h hl => exact .again hn h hl

theorem gets_of_at {is : List Instr} {c c' : Conf} {p : Place} (h : At M is c p c') : ∀ B F, ∃ B' F', Gets M B F is c p c' B' F' := by
  induction h with
  | here hn h => exact fun _ _ => ⟨_, _, .here hn h⟩
  | again hn _ hl ih => intro B F; obtain ⟨_, _, h1⟩ := ih B F; exact ⟨_, _, .again hn (gets_here h1) hl⟩
  | block hn _ _ ih ih2 => intro B F; obtain ⟨_, _, h1⟩ := ih B F; obtain ⟨_, _, h2⟩ := ih2 _ _; exact ⟨_, _, .block hn (gets_here h1) h2⟩
  | loop hn _ _ ih ih2 => intro B F; obtain ⟨_, _, h1⟩ := ih B F; obtain ⟨_, _, h2⟩ := ih2 _ _; exact ⟨_, _, .loop hn (gets_here h1) h2⟩
  | ifThen hn _ hk _ ih ih2 => intro B F; obtain ⟨_, _, h1⟩ := ih B F; obtain ⟨_, _, h2⟩ := ih2 _ _; exact ⟨_, _, .ifThen hn (gets_here h1) hk h2⟩
  | ifElse hn _ hk _ ih ih2 => intro B F; obtain ⟨_, _, h1⟩ := ih B F; obtain ⟨_, _, h2⟩ := ih2 _ _; exact ⟨_, _, .ifElse hn (gets_here h1) hk h2⟩

theorem gets_arrives (H : Fit m M) {B B' : List Value} {F F' : List (List Val × Nat)} {is : List Instr} {c c' : Conf} {p : Place} (h : Gets M B F is c p c' B' F') :
    ∀ {x : Ctx} {base : List Operand} {l o : List Val} {rest : List Frame} {ts : List Val} {s : Loc}, EnvOk m (envOf x (labelsOf l rest)) → plainL is →
      ConfOk m M st (envOf x (labelsOf l rest)) ts c → evalExpr (envOf x (labelsOf l rest)) is (vals ts) = some s →
      base = known B → marks (⟨l, o, base.length, false⟩ :: rest) = live F →
      ∃ base' l' o' rest' ts', arrive p is (mk x base l o rest (vals ts)) = .ok ((), mk x base' l' o' rest' (vals ts')) ∧
        ConfOk m M st (envOf x (labelsOf l rest)) ts' c' ∧ base' = known B' ∧ marks (⟨l', o', base'.length, false⟩ :: rest') = live F' ∧ rest'.length = rest.length + p.depth ∧
        ∀ n, p = .here n → base' = base ∧ l' = l ∧ o' = o ∧ rest' = rest ∧ evalExpr (envOf x (labelsOf l rest)) (is.take n) (vals ts) = some (vals ts') := by
  have below : ∀ {vs B : List Value} {ts : List Val} {base : List Operand}, Typed vs ts → base = known B → (vals ts).1 ++ base = known (vs ++ B) := by
    intro vs B ts base h1 h2
    unfold Typed at h1
    rw [h2, vals, ← h1, known, known, List.map_append, List.map_map]
    rfl
  have lay : ∀ {vs B : List Value} {ts r o o' l : List Val} {base : List Operand} {rest : List Frame} {F : List (List Val × Nat)}, Typed vs ts → base = known B →
      marks (⟨l, o, base.length, false⟩ :: rest) = live F →
      marks (⟨r, o', ((vals ts).1 ++ base).length, false⟩ :: ⟨l, o, base.length, false⟩ :: rest) = live ((r, (vs ++ B).length) :: F) := by
    intro vs B ts r o o' l base rest F h1 h2 h3
    rw [marks, List.map_cons, live, List.map_cons]
    refine congr (congrArg _ ?_) h3
    rw [below h1 h2, List.length_map]
  induction h with
  | @here B F is c n k c' hn hs =>
    intro x base l o rest ts s hC hp hc he hB hF
    have he1 : ∃ s1, evalExpr (envOf x (labelsOf l rest)) (is.take n) (vals ts) = some s1 := by
      rw [← List.take_append_drop n is, evalExpr_append, Option.bind_eq_some_iff] at he
      obtain ⟨s1, h1, _⟩ := he
      exact ⟨s1, h1⟩
    obtain ⟨s1, h1⟩ := he1
    obtain ⟨ts', rfl, h2⟩ := eval_run H hC rfl hc h1 hs
    refine ⟨base, l, o, rest, ts', ?_, h2, hB, hF, rfl, fun n' e => by cases e; exact ⟨rfl, rfl, rfl, rfl, h1⟩⟩
    rw [arrive, exec_expr x _ (plainL_take hp), h1]
    rfl
  | @again B F is c n r b c' j c'' hn h hl ih =>
    intro x base l o rest ts s hC hp hc he hB hF
    obtain ⟨base', l', o', rest', ts', h1, h2, _, _, _, h3⟩ := ih (base := base) (o := o) hC hp hc he hB hF
    obtain ⟨rfl, rfl, rfl, rfl, h4⟩ := h3 n rfl
    refine ⟨base', l', o', rest', ts', h1, ?_, hB, hF, rfl, fun n' e => by cases e; exact ⟨rfl, rfl, rfl, rfl, h4⟩⟩
    obtain ⟨s2, h5⟩ := eval_at hn he h4
    obtain ⟨ts2, h6⟩ := matches_exists s2
    obtain ⟨ts0, h7, h8⟩ := sound_instr (C := envOf x (labelsOf l' rest')) rfl h5 h6
    rw [matches_vals h7, List.reverse_reverse] at h8
    have h9 := aok_plains (m := m) (M := M) (es := []) h8 .nil
    obtain ⟨us, h10, h11⟩ := steps_keep H hl hC h2 h9
    obtain ⟨t0, a, b', rfl, h12, h13⟩ := aok_plain h11
    obtain ⟨t1, a1, b1, rfl, h14, h15⟩ := aok_plain h9
    cases h12
    cases h14
    generalize h16 : t0 ++ r = q at h13
    cases h13
    generalize h17 : t1 ++ r = q' at h15
    cases h15
    rw [← h17] at h16
    rw [List.append_cancel_right h16] at h10
    exact h10
  | @block B F is c n r b c' p c'' B' F' hn h hb ih ih2 =>
    intro x base l o rest ts s hC hp hc he hB hF
    obtain ⟨base', l', o', rest', ts', h1, h2, _, _, _, h3⟩ := ih (base := base) (o := o) hC hp hc he hB hF
    obtain ⟨rfl, rfl, rfl, rfl, h4⟩ := h3 n rfl
    obtain ⟨s2, h5⟩ := eval_at hn he h4
    simp only [evalInstr, Option.bind_eq_some_iff] at h5
    obtain ⟨s3, h5, _⟩ := h5
    have hpb : plainI (.block r b) := plainL_mem hp (List.mem_of_getElem? hn)
    obtain ⟨base2, l2, o2, rest2, ts2, h6, h7, hN, hL, hD, _⟩ := ih2 (base := (vals ts').1 ++ base') (l := r) (o := r) (rest := ⟨l', o', base'.length, false⟩ :: rest') (ts := []) (x := x)
      (envOk_labels hC) hpb (confOk_labels.mpr (confOk_stack h2 typed_nil)) h5 (below h2.stack hB) (lay h2.stack hB hF)
    refine ⟨base2, l2, o2, rest2, ts2, ?_, confOk_labels.mp h7, hN, hL, by rw [hD, List.length_cons, Place.depth]; omega, fun _ e => by cases e⟩
    simp only [arrive] at h1
    simp only [arrive, hn]
    rw [bind_ok h1]
    exact h6
  | @loop B F is c n r b c' p c'' B' F' hn h hb ih ih2 =>
    intro x base l o rest ts s hC hp hc he hB hF
    obtain ⟨base', l', o', rest', ts', h1, h2, _, _, _, h3⟩ := ih (base := base) (o := o) hC hp hc he hB hF
    obtain ⟨rfl, rfl, rfl, rfl, h4⟩ := h3 n rfl
    obtain ⟨s2, h5⟩ := eval_at hn he h4
    simp only [evalInstr, Option.bind_eq_some_iff] at h5
    obtain ⟨s3, h5, _⟩ := h5
    have hpb : plainI (.loop r b) := plainL_mem hp (List.mem_of_getElem? hn)
    obtain ⟨base2, l2, o2, rest2, ts2, h6, h7, hN, hL, hD, _⟩ := ih2 (base := (vals ts').1 ++ base') (l := []) (o := r) (rest := ⟨l', o', base'.length, false⟩ :: rest') (ts := []) (x := x)
      (envOk_labels hC) hpb (confOk_labels.mpr (confOk_stack h2 typed_nil)) h5 (below h2.stack hB) (lay h2.stack hB hF)
    refine ⟨base2, l2, o2, rest2, ts2, ?_, confOk_labels.mp h7, hN, hL, by rw [hD, List.length_cons, Place.depth]; omega, fun _ e => by cases e⟩
    simp only [arrive] at h1
    simp only [arrive, hn]
    rw [bind_ok h1]
    exact h6
  | @ifThen B F is c n r a b st1 ls k vs p c'' B' F' hn h hk hb ih ih2 =>
    intro x base l o rest ts s hC hp hc he hB hF
    obtain ⟨base', l', o', rest', ts', h1, h2, _, _, _, h3⟩ := ih (base := base) (o := o) hC hp hc he hB hF
    obtain ⟨rfl, rfl, rfl, rfl, h4⟩ := h3 n rfl
    obtain ⟨t1, rfl, h8⟩ := typed_top h2.stack
    obtain ⟨s2, h5⟩ := eval_at hn he h4
    simp only [evalInstr, pops_i32, Option.bind_some, Option.bind_eq_some_iff] at h5
    obtain ⟨s3, h5, _⟩ := h5
    have hpb : plainI (.ifElse r a b) := plainL_mem hp (List.mem_of_getElem? hn)
    obtain ⟨base2, l2, o2, rest2, ts2, h6, h7, hN, hL, hD, _⟩ := ih2 (base := (vals t1).1 ++ base') (l := r) (o := r) (rest := ⟨l', o', base'.length, false⟩ :: rest') (ts := []) (x := x)
      (envOk_labels hC) hpb.1 (confOk_labels.mpr (confOk_stack h2 typed_nil)) h5 (below h8 hB) (lay h8 hB hF)
    refine ⟨base2, l2, o2, rest2, ts2, ?_, confOk_labels.mp h7, hN, hL, by rw [hD, List.length_cons, Place.depth]; omega, fun _ e => by cases e⟩
    simp only [arrive] at h1
    simp only [arrive, hn]
    rw [bind_ok h1]
    have hq := pops (c := x) (base := base') (l := l') (o := o') (rest := rest') [.i32] (vals (t1 ++ [.i32]))
    rw [List.reverse_singleton, pops_i32] at hq
    show (popOperands [.i32] >>= fun _ => pushFrame r r >>= fun _ => arrive p a) _ = _
    rw [bind_ok hq]
    exact h6
  | @ifElse B F is c n r a b st1 ls k vs p c'' B' F' hn h hk hb ih ih2 =>
    intro x base l o rest ts s hC hp hc he hB hF
    obtain ⟨base', l', o', rest', ts', h1, h2, _, _, _, h3⟩ := ih (base := base) (o := o) hC hp hc he hB hF
    obtain ⟨rfl, rfl, rfl, rfl, h4⟩ := h3 n rfl
    obtain ⟨t1, rfl, h8⟩ := typed_top h2.stack
    obtain ⟨s2, h5⟩ := eval_at hn he h4
    simp only [evalInstr, pops_i32, Option.bind_some, Option.bind_eq_some_iff] at h5
    obtain ⟨s3, h9, _, h10, s4, h5, _⟩ := h5
    have hpb : plainI (.ifElse r a b) := plainL_mem hp (List.mem_of_getElem? hn)
    obtain ⟨base2, l2, o2, rest2, ts2, h6, h7, hN, hL, hD, _⟩ := ih2 (base := (vals t1).1 ++ base') (l := r) (o := r) (rest := ⟨l', o', base'.length, false⟩ :: rest') (ts := []) (x := x)
      (envOk_labels hC) hpb.2 (confOk_labels.mpr (confOk_stack h2 typed_nil)) h5 (below h8 hB) (lay h8 hB hF)
    refine ⟨base2, l2, o2, rest2, ts2, ?_, confOk_labels.mp h7, hN, hL, by rw [hD, List.length_cons, Place.depth]; omega, fun _ e => by cases e⟩
    simp only [arrive] at h1
    simp only [arrive, hn]
    rw [bind_ok h1]
    have hq := pops (c := x) (base := base') (l := l') (o := o') (rest := rest') [.i32] (vals (t1 ++ [.i32]))
    rw [List.reverse_singleton, pops_i32] at hq
    show (popOperands [.i32] >>= fun _ => pushFrame r r >>= fun _ => validateExpr a >>= fun _ => validateElse >>= fun _ => arrive p b) _ = _
    rw [bind_ok hq, bind_ok (mk_push (x := x) (ts := t1))]
    have hx := exec_expr x a hpb.1 ((vals t1).1 ++ base') r r (⟨l', o', base'.length, false⟩ :: rest') (vals [])
    have e2 : labelsOf r (⟨l', o', base'.length, false⟩ :: rest') = r :: labelsOf l' rest' := rfl
    have h9' : evalExpr (envOf x (r :: labelsOf l' rest')) a (vals []) = some s3 := h9
    rw [e2, h9'] at hx
    rw [bind_ok hx]
    have hf := popFrame_mk x ((vals t1).1 ++ base') r r (⟨l', o', base'.length, false⟩ :: rest') s3
    rw [h10] at hf
    have hv : validateElse (mk x ((vals t1).1 ++ base') r r (⟨l', o', base'.length, false⟩ :: rest') s3) =
        .ok ((), mk x ((vals t1).1 ++ base') r r (⟨l', o', base'.length, false⟩ :: rest') (vals [])) := by
      show (popFrame >>= fun ret => pushFrame ret ret) _ = _
      rw [bind_ok hf]
      rfl
    rw [bind_ok hv]
    exact h6

end Whasm.Run
