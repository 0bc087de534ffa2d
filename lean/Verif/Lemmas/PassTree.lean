import Verif.Lemmas.Pass

/-!
# Sequences that the one-pass algorithm accepts are trees
-/

namespace Whasm.Pass
open Spec Spec.Pass

/-! ## The structure alone -/

def kinds (s : St) : List Kind := s.ctrls.map (·.kind)

/-- What happens to the kinds of the frames. -/
def kstep : List Kind → Op → Option (List Kind)
  | [], _ => none
  | ks, .instr _ => some ks
  | ks, .block _ => some (.block :: ks)
  | ks, .loop _ => some (.loop :: ks)
  | ks, .ifOp _ => some (.ifThen :: ks)
  | k :: ks, .elseOp => if k = .ifThen then some (.ifElse :: ks) else none
  | _ :: ks, .endOp => some ks

def krun (ks : List Kind) (ops : List Op) : Option (List Kind) := ops.foldlM kstep ks

theorem krun_cons (ks : List Kind) (op : Op) (ops : List Op) : krun ks (op :: ops) = (kstep ks op).bind fun ks => krun ks ops := List.foldlM_cons
theorem krun_append (a b : List Op) (ks : List Kind) : krun ks (a ++ b) = (krun ks a).bind fun ks => krun ks b := List.foldlM_append

theorem pop_any_ctrls {s s' : St} {x : Operand} (h : pop_any s = some (x, s')) : s'.ctrls = s.ctrls := by
  unfold pop_any at h
  split at h
  · cases h
  · split at h
    · split at h
      · cases h; rfl
      · cases h
    · split at h
      · cases h
      · cases h; rfl

theorem pop_opd_ctrls {s s' : St} {x t : Operand} (h : pop_opd t s = some (x, s')) : s'.ctrls = s.ctrls := by
  unfold pop_opd at h
  obtain ⟨⟨y, s1⟩, h1, h2⟩ := Option.bind_eq_some_iff.mp h
  have e := pop_any_ctrls h1
  dsimp only at h2
  split at h2
  · cases h2; exact e
  · split at h2
    · cases h2; exact e
    · split at h2
      · cases h2; exact e
      · cases h2

theorem pops_ctrls : ∀ (ts : List Val) {s s' : St}, ts.foldlM (fun s t => (pop_opd (.val t) s).map (·.2)) s = some s' → s'.ctrls = s.ctrls
  | [], s, s', h => by cases h; rfl
  | t :: ts, s, s', h => by
    rw [List.foldlM_cons] at h
    obtain ⟨s1, h1, h2⟩ := Option.bind_eq_some_iff.mp h
    obtain ⟨⟨y, s2⟩, h3, rfl⟩ := Option.map_eq_some_iff.mp h1
    rw [pops_ctrls ts h2, pop_opd_ctrls h3]

theorem pop_opds_ctrls {ts : List Val} {s s' : St} (h : pop_opds ts s = some s') : s'.ctrls = s.ctrls := pops_ctrls _ h

theorem push_opds_ctrls : ∀ (ts : List Val) (s : St), (push_opds ts s).ctrls = s.ctrls
  | [], _ => rfl
  | _ :: ts, _ => (push_opds_ctrls ts _).trans rfl

theorem unreachable_kinds {s s' : St} (h : unreachable s = some s') : kinds s' = kinds s := by
  unfold unreachable at h
  split at h
  · cases h
  · next f fs he =>
    cases h
    unfold kinds
    rw [he]
    rfl

theorem pop_ctrl_ctrls {s s' : St} {f : Ctrl} (h : pop_ctrl s = some (f, s')) : s.ctrls = f :: s'.ctrls := by
  unfold pop_ctrl at h
  split at h
  · cases h
  · next g gs he =>
    obtain ⟨s1, h1, h2⟩ := Option.bind_eq_some_iff.mp h
    split at h2
    · cases h2; exact he
    · cases h2

theorem kinds_of {s s' : St} (h : s'.ctrls = s.ctrls) : kinds s' = kinds s := congrArg (List.map Ctrl.kind) h

theorem instr_kinds {C : Env} {i : Instr} {s s' : St} (h : Spec.Pass.instr C i s = some s') : kinds s' = kinds s := by
  have sig : ∀ {x : Option (List Val × List Val)}, (x.bind fun (ins, outs) => (pop_opds ins s).map (push_opds outs)) = some s' → kinds s' = kinds s := by
    intro x hx
    obtain ⟨⟨ins, outs⟩, _, h2⟩ := Option.bind_eq_some_iff.mp hx
    obtain ⟨s1, h3, rfl⟩ := Option.map_eq_some_iff.mp h2
    exact kinds_of ((push_opds_ctrls _ _).trans (pop_opds_ctrls h3))
  have out : ∀ {r : List Val} {s0 : St}, kinds s0 = kinds s → ((pop_opds r s0).bind unreachable) = some s' → kinds s' = kinds s := by
    intro r s0 h0 hx
    obtain ⟨s1, h1, h2⟩ := Option.bind_eq_some_iff.mp hx
    rw [unreachable_kinds h2, kinds_of (pop_opds_ctrls h1), h0]
  cases i with
  | unreachable => exact unreachable_kinds h
  | drop =>
    obtain ⟨⟨x, s1⟩, h1, rfl⟩ := Option.map_eq_some_iff.mp h
    exact kinds_of (pop_any_ctrls h1)
  | select =>
    obtain ⟨⟨x, s1⟩, h1, h2⟩ := Option.bind_eq_some_iff.mp h
    obtain ⟨⟨y, s2⟩, h3, h4⟩ := Option.bind_eq_some_iff.mp h2
    obtain ⟨⟨z, s3⟩, h5, rfl⟩ := Option.map_eq_some_iff.mp h4
    exact kinds_of ((pop_opd_ctrls h5).trans ((pop_any_ctrls h3).trans (pop_opd_ctrls h1)))
  | br n =>
    obtain ⟨r, _, h2⟩ := Option.bind_eq_some_iff.mp h
    exact out rfl h2
  | brIf n =>
    obtain ⟨r, _, h2⟩ := Option.bind_eq_some_iff.mp h
    obtain ⟨⟨x, s1⟩, h3, h4⟩ := Option.bind_eq_some_iff.mp h2
    obtain ⟨s2, h5, rfl⟩ := Option.map_eq_some_iff.mp h4
    exact kinds_of ((push_opds_ctrls _ _).trans ((pop_opds_ctrls h5).trans (pop_opd_ctrls h3)))
  | brTable ns n =>
    obtain ⟨r, _, h2⟩ := Option.bind_eq_some_iff.mp h
    split at h2
    · obtain ⟨⟨x, s1⟩, h3, h4⟩ := Option.bind_eq_some_iff.mp h2
      exact out (kinds_of (pop_opd_ctrls h3)) h4
    · cases h2
  | ret =>
    obtain ⟨r, _, h2⟩ := Option.bind_eq_some_iff.mp h
    exact out rfl h2
  | _ => simp only [instr] at h; exact sig h

theorem kstep_of {C : Env} {s s' : St} {op : Op} (h : validate C s op = some s') : kstep (kinds s) op = some (kinds s') := by
  unfold validate at h
  split at h
  · cases h
  · next hc =>
    obtain ⟨k, ks, hk⟩ : ∃ k ks, kinds s = k :: ks := by
      unfold kinds
      cases hs : s.ctrls with
      | nil => exact (hc hs).elim
      | cons f fs => exact ⟨_, _, rfl⟩
    cases op with
    | instr i => rw [instr_kinds h, hk]; rfl
    | block t => cases h; rw [hk]; show some (.block :: k :: ks) = some (.block :: kinds s); rw [hk]
    | loop t => cases h; rw [hk]; show some (.loop :: k :: ks) = some (.loop :: kinds s); rw [hk]
    | ifOp t =>
      obtain ⟨⟨x, s1⟩, h1, rfl⟩ := Option.map_eq_some_iff.mp h
      rw [hk]
      show some (.ifThen :: k :: ks) = some (.ifThen :: kinds s1)
      rw [kinds_of (pop_opd_ctrls h1), hk]
    | elseOp =>
      obtain ⟨⟨f, s1⟩, h1, h2⟩ := Option.bind_eq_some_iff.mp h
      have e : kinds s = f.kind :: kinds s1 := by unfold kinds; rw [pop_ctrl_ctrls h1]; rfl
      dsimp only at h2
      split at h2
      · next hf =>
        cases h2
        rw [e]
        exact if_pos hf
      · cases h2
    | endOp =>
      obtain ⟨⟨f, s1⟩, h1, h2⟩ := Option.bind_eq_some_iff.mp h
      have e : kinds s = f.kind :: kinds s1 := by unfold kinds; rw [pop_ctrl_ctrls h1]; rfl
      dsimp only at h2
      split at h2
      · cases h2
      · cases h2
        rw [e]
        exact congrArg some (kinds_of (push_opds_ctrls _ _)).symm

theorem krun_of {C : Env} : ∀ {ops : List Op} {s s' : St}, run C s ops = some s' → krun (kinds s) ops = some (kinds s')
  | [], s, s', h => by cases h; rfl
  | op :: ops, s, s', h => by
    rw [run_cons] at h
    obtain ⟨s1, h1, h2⟩ := Option.bind_eq_some_iff.mp h
    rw [krun_cons, kstep_of h1]
    exact krun_of h2

/-! ## From sequences to trees -/

mutual
theorem krun_flatI : ∀ {ops : List Op} {i : Instr}, FlatI ops i → ∀ (k : Kind) (ks : List Kind), krun (k :: ks) ops = some (k :: ks)
  | _, _, .simple _, k, ks => rfl
  | _, _, .block h, k, ks => by
    rw [krun_cons]
    show krun (.block :: k :: ks) _ = _
    rw [krun_append, krun_flatL h]
    rfl
  | _, _, .loop h, k, ks => by
    rw [krun_cons]
    show krun (.loop :: k :: ks) _ = _
    rw [krun_append, krun_flatL h]
    rfl
  | _, _, .ifThen h, k, ks => by
    rw [krun_cons]
    show krun (.ifThen :: k :: ks) _ = _
    rw [krun_append, krun_flatL h]
    rfl
  | _, _, .ifElse h h', k, ks => by
    rw [krun_cons]
    show krun (.ifThen :: k :: ks) _ = _
    rw [krun_append, krun_flatL h]
    show krun (.ifThen :: k :: ks) _ = _
    rw [krun_cons]
    show krun (.ifElse :: k :: ks) _ = _
    rw [krun_append, krun_flatL h']
    rfl
theorem krun_flatL : ∀ {ops : List Op} {is : List Instr}, FlatL ops is → ∀ (k : Kind) (ks : List Kind), krun (k :: ks) ops = some (k :: ks)
  | _, _, .nil, k, ks => rfl
  | _, _, .cons h1 h2, k, ks => by
    rw [krun_append, krun_flatI h1]
    exact krun_flatL h2 k ks
end

/-- The sequence up to where the innermost frame ends is a tree. -/
theorem split_ops : ∀ (n : Nat) (ops : List Op), ops.length ≤ n → (∀ i, .instr i ∈ ops → Simple i) → ∀ (k : Kind) (ks ks' : List Kind), krun (k :: ks) ops = some ks' →
    ks'.length ≤ ks.length → ∃ ops1 is op ops2, ops = ops1 ++ op :: ops2 ∧ FlatL ops1 is ∧ (op = .elseOp ∨ op = .endOp)
  | n, [], _, _, k, ks, ks', h, hl => by
    cases h
    simp only [List.length_cons] at hl
    omega
  | 0, _ :: _, hn, _, _, _, _, _, _ => by simp at hn
  | n + 1, op :: ops, hn, hs, k, ks, ks', h, hl => by
    have hn' : ops.length ≤ n := by simpa using hn
    have hs' : ∀ i, .instr i ∈ ops → Simple i := fun i hi => hs i (List.mem_cons_of_mem _ hi)
    rw [krun_cons] at h
    -- a frame `k'` opened by the first element and closed in the rest
    have inner : ∀ (k' : Kind), krun (k' :: k :: ks) ops = some ks' → ∃ ops1 is op ops2, ops = ops1 ++ op :: ops2 ∧ FlatL ops1 is ∧ (op = .elseOp ∨ op = .endOp) ∧
        (kstep (k' :: k :: ks) op).bind (fun ks => krun ks ops2) = some ks' := by
      intro k' h
      obtain ⟨ops1, is, op, ops2, rfl, hf, ho⟩ := split_ops n ops hn' hs' k' (k :: ks) ks' h (by simp; omega)
      rw [krun_append, krun_flatL hf] at h
      exact ⟨ops1, is, op, ops2, rfl, hf, ho, (krun_cons _ _ _).symm.trans h⟩
    cases op with
    | elseOp => exact ⟨[], [], .elseOp, ops, rfl, .nil, .inl rfl⟩
    | endOp => exact ⟨[], [], .endOp, ops, rfl, .nil, .inr rfl⟩
    | instr i =>
      obtain ⟨ops1, is, op, ops2, rfl, hf, ho⟩ := split_ops n ops hn' hs' k ks ks' h hl
      exact ⟨.instr i :: ops1, i :: is, op, ops2, rfl, .cons (.simple (hs i List.mem_cons_self)) hf, ho⟩
    | block t =>
      obtain ⟨ops1, is, op, ops2, rfl, hf, ho, h2⟩ := inner .block h
      rcases ho with rfl | rfl
      · cases h2
      · obtain ⟨ops3, js, op, ops4, rfl, hg, ho⟩ := split_ops n ops2 (by simp at hn'; omega) (fun i hi => hs' i (by simp [hi])) k ks ks' h2 hl
        exact ⟨.block t :: (ops1 ++ [.endOp]) ++ ops3, .block t is :: js, op, ops4, by simp, .cons (.block hf) hg, ho⟩
    | loop t =>
      obtain ⟨ops1, is, op, ops2, rfl, hf, ho, h2⟩ := inner .loop h
      rcases ho with rfl | rfl
      · cases h2
      · obtain ⟨ops3, js, op, ops4, rfl, hg, ho⟩ := split_ops n ops2 (by simp at hn'; omega) (fun i hi => hs' i (by simp [hi])) k ks ks' h2 hl
        exact ⟨.loop t :: (ops1 ++ [.endOp]) ++ ops3, .loop t is :: js, op, ops4, by simp, .cons (.loop hf) hg, ho⟩
    | ifOp t =>
      obtain ⟨ops1, is, op, ops2, rfl, hf, ho, h2⟩ := inner .ifThen h
      rcases ho with rfl | rfl
      · have h2 : krun (.ifElse :: k :: ks) ops2 = some ks' := h2
        obtain ⟨ops3, js, op, ops4, rfl, hg, ho⟩ := split_ops n ops2 (by simp at hn'; omega) (fun i hi => hs' i (by simp [hi])) .ifElse (k :: ks) ks' h2 (by simp; omega)
        rw [krun_append, krun_flatL hg] at h2
        have h3 := (krun_cons _ _ _).symm.trans h2
        rcases ho with rfl | rfl
        · cases h3
        · have h3 : krun (k :: ks) ops4 = some ks' := h3
          obtain ⟨ops5, js', op, ops6, rfl, hg', ho⟩ := split_ops n ops4 (by simp at hn'; omega) (fun i hi => hs' i (by simp [hi])) k ks ks' h3 hl
          exact ⟨.ifOp t :: (ops1 ++ .elseOp :: (ops3 ++ [.endOp])) ++ ops5, .ifElse t is js :: js', op, ops6, by simp, .cons (.ifElse hf hg) hg', ho⟩
      · have h2 : krun (k :: ks) ops2 = some ks' := h2
        obtain ⟨ops3, js, op, ops4, rfl, hg, ho⟩ := split_ops n ops2 (by simp at hn'; omega) (fun i hi => hs' i (by simp [hi])) k ks ks' h2 hl
        exact ⟨.ifOp t :: (ops1 ++ [.endOp]) ++ ops3, .ifElse t is [] :: js, op, ops4, by simp, .cons (.ifThen hf) hg, ho⟩

/-- A whole body. -/
theorem body_ops {ops : List Op} (hs : ∀ i, .instr i ∈ ops → Simple i) (h : krun [.func] ops = some []) : ∃ ops1 is, ops = ops1 ++ [.endOp] ∧ FlatL ops1 is := by
  obtain ⟨ops1, is, op, ops2, rfl, hf, ho⟩ := split_ops _ ops (Nat.le_refl _) hs .func [] [] h (Nat.le_refl _)
  rw [krun_append, krun_flatL hf] at h
  have h := (krun_cons _ _ _).symm.trans h
  rcases ho with rfl | rfl
  · cases h
  · cases ops2 with
    | nil => exact ⟨ops1, is, rfl, hf⟩
    | cons op ops2 => cases (krun_cons _ _ _).symm.trans h

/-! ## Bytes -/

theorem gseq_append {α : Type} {G : List Byte → α → Prop} : ∀ {b b' : List Byte} {xs ys : List α}, GSeq G b xs → GSeq G b' ys → GSeq G (b ++ b') (xs ++ ys)
  | _, _, _, _, .nil, h' => h'
  | _, _, _, _, .cons h1 h2, h' => by
    rw [List.append_assoc]
    exact .cons h1 (gseq_append h2 h')

theorem gseq_split {α : Type} {G : List Byte → α → Prop} : ∀ {xs ys : List α} {b : List Byte}, GSeq G b (xs ++ ys) → ∃ b1 b2, b = b1 ++ b2 ∧ GSeq G b1 xs ∧ GSeq G b2 ys
  | [], _, b, h => ⟨[], b, rfl, .nil, h⟩
  | x :: xs, ys, _, .cons (b := b) (bs := bs) h1 h2 => by
    obtain ⟨b1, b2, rfl, h3, h4⟩ := gseq_split h2
    exact ⟨b ++ b1, b2, (List.append_assoc _ _ _).symm, .cons h1 h3, h4⟩

theorem gseq_one {α : Type} {G : List Byte → α → Prop} {x : α} {b : List Byte} (h : GSeq G b [x]) : G b x := by
  cases h with
  | cons h1 h2 =>
    cases h2
    rwa [List.append_nil]

theorem gseq_single {α : Type} {G : List Byte → α → Prop} {x : α} {b : List Byte} (h : G b x) : GSeq G b [x] := by
  have := GSeq.cons h (GSeq.nil (G := G))
  rwa [List.append_nil] at this

variable {D : Dialect}

theorem gseq_cons {α : Type} {G : List Byte → α → Prop} {x : α} {xs : List α} {b : List Byte} (h : GSeq G b (x :: xs)) :
    ∃ b1 b2, b = b1 ++ b2 ∧ G b1 x ∧ GSeq G b2 xs := by
  cases h with
  | cons h1 h2 => exact ⟨_, _, rfl, h1, h2⟩

theorem gop_block {b : List Byte} {t : RetVal} (h : GOp D b (.block t)) : ∃ b', b = 0x02 :: b' ∧ GRetVal b' t := by
  cases h with | block h => exact ⟨_, rfl, h⟩
theorem gop_loop {b : List Byte} {t : RetVal} (h : GOp D b (.loop t)) : ∃ b', b = 0x03 :: b' ∧ GRetVal b' t := by
  cases h with | loop h => exact ⟨_, rfl, h⟩
theorem gop_if {b : List Byte} {t : RetVal} (h : GOp D b (.ifOp t)) : ∃ b', b = 0x04 :: b' ∧ GRetVal b' t := by
  cases h with | ifOp h => exact ⟨_, rfl, h⟩

theorem gop_end {b : List Byte} (h : GSeq (GOp D) b [.endOp]) : b = [0x0B] := by
  cases gseq_one h; rfl

mutual
theorem ops_of_instr : ∀ {b : List Byte} {i : Instr}, GInstr D b i → ∃ ops, GSeq (GOp D) b ops ∧ FlatI ops i
  | _, _, .block (b1 := b1) (b2 := b2) ht h => by
    obtain ⟨ops, h1, h2⟩ := ops_of_instrs h
    refine ⟨_, ?_, .block h2⟩
    have := GSeq.cons (GOp.block (D := D) ht) (gseq_append h1 (gseq_single .endOp))
    simpa using this
  | _, _, .loop (b1 := b1) (b2 := b2) ht h => by
    obtain ⟨ops, h1, h2⟩ := ops_of_instrs h
    refine ⟨_, ?_, .loop h2⟩
    have := GSeq.cons (GOp.loop (D := D) ht) (gseq_append h1 (gseq_single .endOp))
    simpa using this
  | _, _, .ifThen (b1 := b1) (b2 := b2) ht h => by
    obtain ⟨ops, h1, h2⟩ := ops_of_instrs h
    refine ⟨_, ?_, .ifThen h2⟩
    have := GSeq.cons (GOp.ifOp (D := D) ht) (gseq_append h1 (gseq_single .endOp))
    simpa using this
  | _, _, .ifElse (b1 := b1) (b2 := b2) ht h h' => by
    obtain ⟨ops, h1, h2⟩ := ops_of_instrs h
    obtain ⟨ops', h3, h4⟩ := ops_of_instrs h'
    refine ⟨_, ?_, .ifElse h2 h4⟩
    have := GSeq.cons (GOp.ifOp (D := D) ht) (gseq_append h1 (.cons .elseOp (gseq_append h3 (gseq_single .endOp))))
    simpa using this
  | _, _, .unreachable => ⟨_, gseq_single (.instr .unreachable trivial), .simple trivial⟩
  | _, _, .nop => ⟨_, gseq_single (.instr .nop trivial), .simple trivial⟩
  | _, _, .br h => ⟨_, gseq_single (.instr (.br h) trivial), .simple trivial⟩
  | _, _, .brIf h => ⟨_, gseq_single (.instr (.brIf h) trivial), .simple trivial⟩
  | _, _, .brTable h h' => ⟨_, gseq_single (.instr (.brTable h h') trivial), .simple trivial⟩
  | _, _, .ret => ⟨_, gseq_single (.instr .ret trivial), .simple trivial⟩
  | _, _, .call h => ⟨_, gseq_single (.instr (.call h) trivial), .simple trivial⟩
  | _, _, .callIndirect h h' => ⟨_, gseq_single (.instr (.callIndirect h h') trivial), .simple trivial⟩
  | _, _, .drop => ⟨_, gseq_single (.instr .drop trivial), .simple trivial⟩
  | _, _, .select => ⟨_, gseq_single (.instr .select trivial), .simple trivial⟩
  | _, _, .localGet h => ⟨_, gseq_single (.instr (.localGet h) trivial), .simple trivial⟩
  | _, _, .localSet h => ⟨_, gseq_single (.instr (.localSet h) trivial), .simple trivial⟩
  | _, _, .localTee h => ⟨_, gseq_single (.instr (.localTee h) trivial), .simple trivial⟩
  | _, _, .globalGet h => ⟨_, gseq_single (.instr (.globalGet h) trivial), .simple trivial⟩
  | _, _, .globalSet h => ⟨_, gseq_single (.instr (.globalSet h) trivial), .simple trivial⟩
  | _, _, .load op h h' => ⟨_, gseq_single (.instr (.load op h h') trivial), .simple trivial⟩
  | _, _, .store op h h' => ⟨_, gseq_single (.instr (.store op h h') trivial), .simple trivial⟩
  | _, _, .memSize h => ⟨_, gseq_single (.instr (.memSize h) trivial), .simple trivial⟩
  | _, _, .memGrow h => ⟨_, gseq_single (.instr (.memGrow h) trivial), .simple trivial⟩
  | _, _, .constI32 h => ⟨_, gseq_single (.instr (.constI32 h) trivial), .simple trivial⟩
  | _, _, .constI64 h => ⟨_, gseq_single (.instr (.constI64 h) trivial), .simple trivial⟩
  | _, _, .constF32 h => ⟨_, gseq_single (.instr (.constF32 h) trivial), .simple trivial⟩
  | _, _, .constF64 h => ⟨_, gseq_single (.instr (.constF64 h) trivial), .simple trivial⟩
  | _, _, .num op => ⟨_, gseq_single (.instr (.num op) trivial), .simple trivial⟩
theorem ops_of_instrs : ∀ {b : List Byte} {is : List Instr}, GInstrs D b is → ∃ ops, GSeq (GOp D) b ops ∧ FlatL ops is
  | _, _, .nil => ⟨[], .nil, .nil⟩
  | _, _, .cons h1 h2 => by
    obtain ⟨ops, h3, h4⟩ := ops_of_instr h1
    obtain ⟨ops', h5, h6⟩ := ops_of_instrs h2
    exact ⟨ops ++ ops', gseq_append h3 h5, .cons h4 h6⟩
end

mutual
theorem instr_of_ops : ∀ {ops : List Op} {i : Instr}, FlatI ops i → ∀ {b : List Byte}, GSeq (GOp D) b ops → GInstr D b i
  | _, _, .simple _, b, h => by
    cases gseq_one h with
    | instr h _ => exact h
  | _, _, .block hf, _, h => by
    obtain ⟨_, _, rfl, hg, h'⟩ := gseq_cons h
    obtain ⟨_, rfl, ht⟩ := gop_block hg
    obtain ⟨b1, b2, rfl, h1, h2⟩ := gseq_split h'
    rw [gop_end h2]
    have := GInstr.block ht (instrs_of_ops hf h1)
    simpa using this
  | _, _, .loop hf, _, h => by
    obtain ⟨_, _, rfl, hg, h'⟩ := gseq_cons h
    obtain ⟨_, rfl, ht⟩ := gop_loop hg
    obtain ⟨b1, b2, rfl, h1, h2⟩ := gseq_split h'
    rw [gop_end h2]
    have := GInstr.loop ht (instrs_of_ops hf h1)
    simpa using this
  | _, _, .ifThen hf, _, h => by
    obtain ⟨_, _, rfl, hg, h'⟩ := gseq_cons h
    obtain ⟨_, rfl, ht⟩ := gop_if hg
    obtain ⟨b1, b2, rfl, h1, h2⟩ := gseq_split h'
    rw [gop_end h2]
    have := GInstr.ifThen ht (instrs_of_ops hf h1)
    simpa using this
  | _, _, .ifElse hf hf', _, h => by
    obtain ⟨_, _, rfl, hg, h'⟩ := gseq_cons h
    obtain ⟨_, rfl, ht⟩ := gop_if hg
    obtain ⟨b1, b2, rfl, h1, h2⟩ := gseq_split h'
    cases h2 with
    | cons he h2 =>
      cases he
      obtain ⟨b3, b4, rfl, h3, h4⟩ := gseq_split h2
      rw [gop_end h4]
      have := GInstr.ifElse ht (instrs_of_ops hf h1) (instrs_of_ops hf' h3)
      simpa using this
theorem instrs_of_ops : ∀ {ops : List Op} {is : List Instr}, FlatL ops is → ∀ {b : List Byte}, GSeq (GOp D) b ops → GInstrs D b is
  | _, _, .nil, _, h => by cases h; exact .nil
  | _, _, .cons h1 h2, b, h => by
    obtain ⟨b1, b2, rfl, h3, h4⟩ := gseq_split h
    exact .cons (instr_of_ops h1 h3) (instrs_of_ops h2 h4)
end

theorem ops_simple : ∀ {ops : List Op} {b : List Byte}, GSeq (GOp D) b ops → ∀ i, .instr i ∈ ops → Simple i
  | _, _, .cons h1 h2, i, hi => by
    rcases List.mem_cons.mp hi with rfl | hi
    · cases h1 with
      | instr _ h => exact h
    · exact ops_simple h2 i hi

/-! ## Occurrence -/

mutual
theorem occurs_flatI : ∀ {ops : List Op} {i : Instr}, FlatI ops i → ∀ {j : Instr}, Simple j → (.instr j ∈ ops ↔ Occurs j [i])
  | _, _, .simple hi, j, hj => by
    simp only [List.mem_singleton, Op.instr.injEq]
    constructor
    · rintro rfl; exact .here (by simp)
    · intro h
      cases h with
      | here h => exact List.mem_singleton.mp h
      | block h _ | loop h _ | thn h _ | els h _ => obtain rfl := List.mem_singleton.mp h; exact hi.elim
  | _, _, .block hf, j, hj => by
    have := occurs_flatL hf hj
    simp only [List.mem_cons, List.mem_append, reduceCtorEq, List.not_mem_nil, or_false, false_or, this]
    constructor
    · exact fun h => .block (List.mem_singleton.mpr rfl) h
    · intro h
      cases h with
      | here h => obtain rfl := List.mem_singleton.mp h; exact hj.elim
      | block h h' => cases List.mem_singleton.mp h; exact h'
      | loop h _ | thn h _ | els h _ => cases List.mem_singleton.mp h
  | _, _, .loop hf, j, hj => by
    have := occurs_flatL hf hj
    simp only [List.mem_cons, List.mem_append, reduceCtorEq, List.not_mem_nil, or_false, false_or, this]
    constructor
    · exact fun h => .loop (List.mem_singleton.mpr rfl) h
    · intro h
      cases h with
      | here h => obtain rfl := List.mem_singleton.mp h; exact hj.elim
      | loop h h' => cases List.mem_singleton.mp h; exact h'
      | block h _ | thn h _ | els h _ => cases List.mem_singleton.mp h
  | _, _, .ifThen hf, j, hj => by
    have := occurs_flatL hf hj
    simp only [List.mem_cons, List.mem_append, reduceCtorEq, List.not_mem_nil, or_false, false_or, this]
    constructor
    · exact fun h => .thn (List.mem_singleton.mpr rfl) h
    · intro h
      cases h with
      | here h => obtain rfl := List.mem_singleton.mp h; exact hj.elim
      | thn h h' => cases List.mem_singleton.mp h; exact h'
      | els h h' =>
        cases List.mem_singleton.mp h
        cases h' with
        | here h | block h _ | loop h _ | thn h _ | els h _ => cases h
      | block h _ | loop h _ => cases List.mem_singleton.mp h
  | _, _, .ifElse hf hf', j, hj => by
    have h1 := occurs_flatL hf hj
    have h2 := occurs_flatL hf' hj
    simp only [List.mem_cons, List.mem_append, reduceCtorEq, List.not_mem_nil, or_false, false_or, h1, h2]
    constructor
    · rintro (h | h)
      · exact .thn (List.mem_singleton.mpr rfl) h
      · exact .els (List.mem_singleton.mpr rfl) h
    · intro h
      cases h with
      | here h => obtain rfl := List.mem_singleton.mp h; exact hj.elim
      | thn h h' => cases List.mem_singleton.mp h; exact .inl h'
      | els h h' => cases List.mem_singleton.mp h; exact .inr h'
      | block h _ | loop h _ => cases List.mem_singleton.mp h
theorem occurs_flatL : ∀ {ops : List Op} {is : List Instr}, FlatL ops is → ∀ {j : Instr}, Simple j → (.instr j ∈ ops ↔ Occurs j is)
  | _, _, .nil, j, hj => by
    refine ⟨fun h => (by cases h), fun h => ?_⟩
    cases h with
    | here h | block h _ | loop h _ | thn h _ | els h _ => cases h
  | _, _, .cons h1 h2, j, hj => by
    rw [List.mem_append, occurs_flatI h1 hj, occurs_flatL h2 hj, ← occurs_split]
end

end Whasm.Pass
