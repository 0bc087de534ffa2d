import Verif.Spec.Later
import Verif.Props.Pass
import Verif.Lemmas.Sections

/-!
# Two readings of the same bytes
-/

namespace Whasm.Later
open Spec Spec.Pass Spec.Later Pass

theorem later_le_code : DialectLe dialect .code where
  u32 := w3c_le_code.u32
  s32 := w3c_le_code.s32
  s64 := w3c_le_code.s64
  reserved := w3c_le_code.u32
  locals := w3c_le_code.locals
  code := w3c_le_code.code

/-- The two readings take the same bytes and agree. -/
def Agrees {α β : Type} (G : List Byte → α → Prop) (H : List Byte → β → Prop) (P : α → Prop) (R : α → β → Prop) : Prop :=
  ∀ {b b' r r' : List Byte} {x : α} {y : β}, G b x → P x → H b' y → b ++ r = b' ++ r' → b = b' ∧ R x y

abbrev All {α : Type} : α → Prop := fun _ => True

theorem num_agrees {N : Nat} (hN : 0 < N) : Agrees Dialect.code.u32 (UN N) All fun v n => n = v.toNat := by
  intro b b' r r' x y h _ h' e
  obtain ⟨h1, h2⟩ := h
  obtain ⟨h3, h4, _⟩ := UN_group h' hN
  obtain ⟨rfl, _⟩ := group_prefix h1 h3 e
  exact ⟨rfl, h4.symm.trans h2⟩

theorem u32_agrees : Agrees Dialect.code.u32 dialect.u32 All fun v n => n = v := by
  intro b b' r r' x y h _ h' e
  obtain ⟨h1, h2⟩ := num_agrees (by decide) h trivial (show UN 32 b' y.toNat from h') e
  exact ⟨h1, BitVec.eq_of_toNat_eq h2⟩

theorem related_map {α β : Type} {f : α → β} : ∀ {xs : List α} {ys : List β}, Related (fun x y => y = f x) xs ys → ys = xs.map f
  | _, _, .nil => rfl
  | _, _, .cons h hs => by rw [h, related_map hs, List.map_cons]

theorem related_length {α β : Type} {R : α → β → Prop} : ∀ {xs : List α} {ys : List β}, Related R xs ys → xs.length = ys.length
  | _, _, .nil => rfl
  | _, _, .cons _ hs => congrArg (· + 1) (related_length hs)

section
variable {α β : Type} {G : List Byte → α → Prop} {H : List Byte → β → Prop} {P : α → Prop} {R : α → β → Prop}

theorem seq_agrees (h : Agrees G H P R) : ∀ {xs : List α} {ys : List β} {b b' r r' : List Byte}, GSeq G b xs → (∀ x ∈ xs, P x) → GSeq H b' ys → xs.length = ys.length →
    b ++ r = b' ++ r' → b = b' ∧ Related R xs ys
  | [], [], _, _, _, _, .nil, _, .nil, _, _ => ⟨rfl, .nil⟩
  | x :: xs, y :: ys, _, _, _, _, .cons h1 h2, hP, .cons h3 h4, hl, e => by
    rw [List.append_assoc, List.append_assoc] at e
    obtain ⟨rfl, h5⟩ := h h1 (hP x List.mem_cons_self) h3 e
    obtain ⟨rfl, h6⟩ := seq_agrees h h2 (fun x hx => hP x (List.mem_cons_of_mem _ hx)) h4 (Nat.succ.inj hl) (List.append_cancel_left e)
    exact ⟨rfl, .cons h5 h6⟩

theorem vec_agrees (h : Agrees G H P R) : Agrees (GVec .code G) (GVec dialect H) (fun xs => ∀ x ∈ xs, P x) (Related R) := by
  intro b b' r r' xs ys h1 hP h2 e
  obtain ⟨h3, h4, h5⟩ := h1
  obtain ⟨h6, h7, h8⟩ := h2
  rw [List.append_assoc, List.append_assoc] at e
  obtain ⟨rfl, rfl⟩ := u32_agrees h3 trivial h6 e
  obtain ⟨rfl, h9⟩ := seq_agrees (G := G) (H := H) (P := P) (R := R) h h5 hP h8 (h4.trans h7.symm) (List.append_cancel_left e)
  exact ⟨rfl, h9⟩

theorem sized_agrees (h : Agrees G H P R) : Agrees (GSized .code G) (GSized dialect H) P R := by
  intro b b' r r' x y h1 hP h2 e
  obtain ⟨h3, h4, h5⟩ := h1
  obtain ⟨h6, h7, h8⟩ := h2
  rw [List.append_assoc, List.append_assoc] at e
  obtain ⟨rfl, rfl⟩ := u32_agrees h3 trivial h6 e
  obtain ⟨rfl, _⟩ := List.append_inj (List.append_cancel_left e) (h4.trans h7.symm)
  exact ⟨rfl, (h (r := []) (r' := []) h5 hP h8 rfl).2⟩
end

theorem veq_agrees {α β : Type} {G : List Byte → α → Prop} {H : List Byte → β → Prop} {f : α → β} (h : Agrees G H All fun x y => y = f x) :
    Agrees (GVec .code G) (GVec dialect H) All fun xs ys => ys = xs.map f := by
  intro b b' r r' xs ys h1 _ h2 e
  obtain ⟨h3, h4⟩ := vec_agrees (G := G) (H := H) (P := All) (R := fun x y => y = f x) h h1 (fun _ _ => trivial) h2 e
  exact ⟨h3, related_map h4⟩

/-! ## Types -/

theorem byte_agrees : Agrees GByte GByte All fun x y => y = x := by
  rintro b b' r r' x y ⟨⟩ _ ⟨⟩ e
  obtain ⟨rfl, _⟩ := List.cons.inj e
  exact ⟨rfl, rfl⟩

theorem bytes_agree : Agrees (GVec .code GByte) (GVec dialect GByte) All fun xs ys => ys = xs := by
  intro b b' r r' xs ys h1 _ h2 e
  obtain ⟨h3, h4⟩ := veq_agrees (f := id) byte_agrees h1 trivial h2 e
  exact ⟨h3, h4.trans (List.map_id _)⟩

theorem name_agrees : Agrees (GName .code) (GName dialect) All fun xs ys => ys = xs := by
  rintro b b' r r' xs ys ⟨h1, _⟩ _ ⟨h2, _⟩ e
  exact bytes_agree h1 trivial h2 e

theorem val_agrees : Agrees GVal GValTy All fun t y => y = .old t := by
  intro b b' r r' t y h _ h' e
  cases h' with
  | old h' => cases h <;> cases h' <;> first | exact ⟨rfl, rfl⟩ | cases (List.cons.inj e).1
  | later hx => cases h <;> (obtain ⟨rfl, _⟩ := List.cons.inj e; exact (hx (by decide)).elim)

theorem defTy_agrees : Agrees (GFuncTy .code) GDefTy All fun t y => y = defTy t := by
  intro b b' r r' t y h _ h' e
  obtain ⟨h1, h2⟩ := h
  cases h' with
  | func h3 h4 =>
    simp only [List.cons_append, List.append_assoc, List.cons.injEq, true_and] at e
    obtain ⟨rfl, rfl⟩ := veq_agrees val_agrees h1 trivial h3 e
    obtain ⟨rfl, rfl⟩ := veq_agrees val_agrees h2 trivial h4 (List.append_cancel_left e)
    exact ⟨rfl, rfl⟩
  | later hx => exact (hx (List.cons.inj e).1.symm).elim

theorem lim_agrees : Agrees (GLimits .code) GLim All fun l y => y = lim l := by
  intro b b' r r' l y h _ h' e
  cases h with
  | min h1 =>
    cases h' with
    | min h2 => obtain ⟨rfl, rfl⟩ := num_agrees (by decide) h1 trivial h2 (List.cons.inj e).2; exact ⟨rfl, rfl⟩
    | minMax => cases (List.cons.inj e).1
    | later hx => exact (hx (by rw [← (List.cons.inj e).1]; decide)).elim
  | minMax h1 h2 =>
    cases h' with
    | min => cases (List.cons.inj e).1
    | minMax h3 h4 =>
      simp only [List.cons_append, List.append_assoc, List.cons.injEq, true_and] at e
      obtain ⟨rfl, rfl⟩ := num_agrees (by decide) h1 trivial h3 e
      obtain ⟨rfl, rfl⟩ := num_agrees (by decide) h2 trivial h4 (List.append_cancel_left e)
      exact ⟨rfl, rfl⟩
    | later hx => exact (hx (by rw [← (List.cons.inj e).1]; decide)).elim

theorem tabTy_agrees : Agrees (GTableTy .code) GTabTy All fun t y => y = .old (lim t.lim) := by
  intro b b' r r' t y h _ h' e
  obtain ⟨⟨⟩, h1⟩ := h
  cases h' with
  | old h2 => obtain ⟨rfl, rfl⟩ := lim_agrees h1 trivial h2 (List.cons.inj e).2; exact ⟨rfl, rfl⟩
  | later hx => exact (hx (List.cons.inj e).1.symm).elim

theorem mut_agrees : Agrees GMut GMutability All fun t y => y = .old t := by
  intro b b' r r' t y h _ h' e
  cases h' with
  | old h' => cases h <;> cases h' <;> first | exact ⟨rfl, rfl⟩ | cases (List.cons.inj e).1
  | later hx => cases h <;> (obtain ⟨rfl, _⟩ := List.cons.inj e; exact (hx (by decide)).elim)

theorem globTy_agrees : Agrees GGlobalTy GGlobTy All fun t y => y = globTy t := by
  rintro b b' r r' t y ⟨h1, h2⟩ _ ⟨h3, h4⟩ e
  rw [List.append_assoc, List.append_assoc] at e
  obtain ⟨rfl, rfl⟩ := val_agrees h1 trivial h3 e
  obtain ⟨rfl, rfl⟩ := mut_agrees h2 trivial h4 (List.append_cancel_left e)
  exact ⟨rfl, rfl⟩

/-! ## Instructions -/

theorem known_first {D : Dialect} {b : List Byte} {op : Op} (h : GOp D b op) : ∃ x xs, b = x :: xs ∧ known x = true := by
  cases h with
  | instr h hs =>
    cases h with
    | block | loop | ifThen | ifElse => exact hs.elim
    | load op _ _ => exact ⟨_, _, rfl, by cases op <;> decide⟩
    | store op _ _ => exact ⟨_, _, rfl, by cases op <;> decide⟩
    | num op => exact ⟨_, _, rfl, by cases op <;> decide⟩
    | _ => exact ⟨_, _, rfl, by decide⟩
  | _ => exact ⟨_, _, rfl, by decide⟩

theorem loadOpcode_inj {a b : LoadOp} (h : loadOpcode a = loadOpcode b) : a = b := by
  revert h; cases a <;> cases b <;> decide

theorem storeOpcode_inj {a b : StoreOp} (h : storeOpcode a = storeOpcode b) : a = b := by
  revert h; cases a <;> cases b <;> decide

theorem load_range (op : LoadOp) : 0x28 ≤ (loadOpcode op).toNat ∧ (loadOpcode op).toNat ≤ 0x35 := by cases op <;> decide
theorem store_range (op : StoreOp) : 0x36 ≤ (storeOpcode op).toNat ∧ (storeOpcode op).toNat ≤ 0x3E := by cases op <;> decide
theorem num_range (op : NumOp) : 0x45 ≤ (numOpcode op).toNat := by cases op <;> decide

/-- What begins with an opcode between 0x28 and 0x3E. -/
theorem access_inv {D : Dialect} {b c : List Byte} {x : Byte} {op : Op} (h : GOp D b op) (hb : b = x :: c) (h1 : 0x28 ≤ x.toNat) (h2 : x.toNat ≤ 0x3E) :
    (∃ o a n b1 b2, op = .instr (.load o a n) ∧ x = loadOpcode o ∧ c = b1 ++ b2 ∧ D.u32 b1 a ∧ D.u32 b2 n) ∨
    (∃ o a n b1 b2, op = .instr (.store o a n) ∧ x = storeOpcode o ∧ c = b1 ++ b2 ∧ D.u32 b1 a ∧ D.u32 b2 n) := by
  cases h with
  | instr h hs =>
    cases h with
    | block | loop | ifThen | ifElse => exact hs.elim
    | load o h3 h4 =>
      obtain ⟨rfl, rfl⟩ := List.cons.inj hb
      exact .inl ⟨_, _, _, _, _, rfl, rfl, rfl, h3, h4⟩
    | store o h3 h4 =>
      obtain ⟨rfl, rfl⟩ := List.cons.inj hb
      exact .inr ⟨_, _, _, _, _, rfl, rfl, rfl, h3, h4⟩
    | num o =>
      obtain ⟨rfl, _⟩ := List.cons.inj hb
      have := num_range o
      omega
    | _ =>
      obtain ⟨rfl, _⟩ := List.cons.inj hb
      exact absurd (And.intro h1 h2) (by decide)
  | _ =>
    obtain ⟨rfl, _⟩ := List.cons.inj hb
    exact absurd (And.intro h1 h2) (by decide)

theorem memArg_agrees {b1 b2 b' r r' : List Byte} {a n : U32} {y : Nat × Nat × Nat} (h1 : Dialect.code.u32 b1 a) (h2 : Dialect.code.u32 b2 n) (ha : a.toNat < 64)
    (h : GMemArg b' y) (e : b1 ++ b2 ++ r = b' ++ r') : b1 ++ b2 = b' ∧ y = (0, a.toNat, n.toNat) := by
  rw [List.append_assoc] at e
  cases h with
  | old h3 h4 h5 =>
    rw [List.append_assoc] at e
    obtain ⟨rfl, rfl⟩ := num_agrees (by decide) h1 trivial h3 e
    obtain ⟨rfl, rfl⟩ := num_agrees (by decide) h2 trivial h5 (List.append_cancel_left e)
    exact ⟨rfl, rfl⟩
  | «at» h3 h4 h5 h6 h7 =>
    rw [List.append_assoc] at e
    obtain ⟨rfl, rfl⟩ := num_agrees (by decide) h1 trivial h3 e
    omega

/-- The alignment of an access leaves no room. -/
def SmallOp : Op → Prop
  | .instr i => Small i
  | _ => True

theorem block_inv {D : Dialect} {b c : List Byte} {x : Byte} {op : Op} (h : GOp D b op) (hb : b = x :: c) (hx : x ∈ [0x02, 0x03, 0x04]) :
    ∃ t, c ≠ [] ∧ GRetVal c t := by
  cases h with
  | block h | loop h | ifOp h =>
    obtain ⟨rfl, rfl⟩ := List.cons.inj hb
    exact ⟨_, (by rintro rfl; cases h with | val h => cases h), h⟩
  | instr h hs =>
    obtain ⟨z, zs, rfl, hz⟩ := simple_first h hs
    obtain ⟨rfl, rfl⟩ := List.cons.inj hb
    simp [hz] at hx
  | elseOp | endOp =>
    obtain ⟨rfl, rfl⟩ := List.cons.inj hb
    simp at hx

theorem retVal_first {c : List Byte} {t : RetVal} (h : GRetVal c t) : ∃ z zs, c = z :: zs ∧ z ∈ [0x40, 0x7F, 0x7E, 0x7D, 0x7C] := by
  cases h with
  | empty => exact ⟨_, _, rfl, by decide⟩
  | val h => cases h <;> exact ⟨_, _, rfl, by decide⟩

theorem op_agrees : Agrees (GOp .code) GCodeOp SmallOp fun op y => y = code op := by
  intro b b' r r' op y h hs h' e
  cases h' with
  | old h' ha =>
    obtain ⟨rfl, rfl⟩ := gop_unambiguous ⟨id, id, id, id, id, id⟩ h (gop_mono later_le_code h') e
    refine ⟨rfl, ?_⟩
    show _ = code op
    unfold code
    split
    · exact (ha trivial).elim
    · exact (ha trivial).elim
    · rfl
  | load o hm =>
    obtain ⟨x, xs, rfl, _⟩ := known_first h
    obtain ⟨rfl, e2⟩ := List.cons.inj e
    rcases access_inv h rfl (load_range o).1 (Nat.le_trans (load_range o).2 (by decide)) with ⟨o', a, n, b1, b2, rfl, h1, rfl, h2, h3⟩ | ⟨o', a, n, b1, b2, rfl, h1, rfl, h2, h3⟩
    · obtain rfl := loadOpcode_inj h1
      obtain ⟨rfl, hy⟩ := memArg_agrees h2 h3 hs hm e2
      cases hy
      exact ⟨rfl, rfl⟩
    · have := (load_range o).2
      rw [h1] at this
      have := (store_range o').1
      omega
  | store o hm =>
    obtain ⟨x, xs, rfl, _⟩ := known_first h
    obtain ⟨rfl, e2⟩ := List.cons.inj e
    rcases access_inv h rfl (Nat.le_trans (by decide) (store_range o).1) (store_range o).2 with ⟨o', a, n, b1, b2, rfl, h1, rfl, h2, h3⟩ | ⟨o', a, n, b1, b2, rfl, h1, rfl, h2, h3⟩
    · have := (store_range o).1
      rw [h1] at this
      have := (load_range o').2
      omega
    · obtain rfl := storeOpcode_inj h1
      obtain ⟨rfl, hy⟩ := memArg_agrees h2 h3 hs hm e2
      cases hy
      exact ⟨rfl, rfl⟩
  | later _ hx =>
    obtain ⟨x, xs, rfl, hk⟩ := known_first h
    rw [(List.cons.inj e).1, hx] at hk
    cases hk
  | block hx ht =>
    obtain ⟨x, xs, rfl, _⟩ := known_first h
    obtain ⟨rfl, e2⟩ := List.cons.inj e
    obtain ⟨t, _, h2⟩ := block_inv h rfl hx
    obtain ⟨z, zs, rfl, hz⟩ := retVal_first h2
    rw [(List.cons.inj e2).1] at hz
    exact (ht hz).elim

/-! ## Expressions -/

theorem pending_code (n : Nat) (i : Instr) : pending n (code (.instr i)) = n + 1 := by
  unfold code
  split <;> rfl

theorem closes_cons {n : Nat} {c : Code} {cs : List Code} : Closes (n + 1) (c :: cs) ↔ Closes (pending n c) cs := Iff.rfl

mutual
theorem closes_flatI : ∀ {ops : List Op} {i : Instr}, FlatI ops i → ∀ (n : Nat) (rest : List Code), Closes (n + 1) (ops.map code ++ rest) ↔ Closes (n + 1) rest
  | _, _, .simple (i := i) _, n, rest => by
    show Closes (n + 1) (code (.instr i) :: rest) ↔ _
    rw [closes_cons, pending_code]
  | _, _, .block h, n, rest => by
    simp only [List.map_cons, List.map_append, List.cons_append, List.append_assoc]
    exact closes_cons.trans ((closes_flatL h (n + 1) _).trans closes_cons)
  | _, _, .loop h, n, rest => by
    simp only [List.map_cons, List.map_append, List.cons_append, List.append_assoc]
    exact closes_cons.trans ((closes_flatL h (n + 1) _).trans closes_cons)
  | _, _, .ifThen h, n, rest => by
    simp only [List.map_cons, List.map_append, List.cons_append, List.append_assoc]
    exact closes_cons.trans ((closes_flatL h (n + 1) _).trans closes_cons)
  | _, _, .ifElse h h', n, rest => by
    simp only [List.map_cons, List.map_append, List.cons_append, List.append_assoc]
    exact closes_cons.trans ((closes_flatL h (n + 1) _).trans (closes_cons.trans ((closes_flatL h' (n + 1) _).trans closes_cons)))
theorem closes_flatL : ∀ {ops : List Op} {is : List Instr}, FlatL ops is → ∀ (n : Nat) (rest : List Code), Closes (n + 1) (ops.map code ++ rest) ↔ Closes (n + 1) rest
  | _, _, .nil, n, rest => Iff.rfl
  | _, _, .cons h1 h2, n, rest => by
    rw [List.map_append, List.append_assoc]
    exact (closes_flatI h1 n _).trans (closes_flatL h2 n rest)
end

theorem codes_agree : ∀ {xs : List Op} {ys : List Code} {n : Nat} {b b' r r' : List Byte}, GSeq (GOp .code) b xs → (∀ x ∈ xs, SmallOp x) → Closes n (xs.map code) →
    GSeq GCodeOp b' ys → Closes n ys → b ++ r = b' ++ r' → b = b' ∧ ys = xs.map code
  | [], [], _, _, _, _, _, .nil, _, _, .nil, _, _ => ⟨rfl, rfl⟩
  | [], _ :: _, 0, _, _, _, _, _, _, _, _, h, _ => h.elim
  | [], _ :: _, _ + 1, _, _, _, _, _, _, h, _, _, _ => h.elim
  | _ :: _, _, 0, _, _, _, _, _, _, h, _, _, _ => h.elim
  | _ :: _, [], _ + 1, _, _, _, _, _, _, _, _, h, _ => h.elim
  | x :: xs, y :: ys, n + 1, _, _, _, _, .cons h1 h2, hP, hc, .cons h3 h4, hc', e => by
    rw [List.append_assoc, List.append_assoc] at e
    obtain ⟨rfl, rfl⟩ := op_agrees h1 (hP x List.mem_cons_self) h3 e
    obtain ⟨rfl, rfl⟩ := codes_agree h2 (fun x hx => hP x (List.mem_cons_of_mem _ hx)) hc h4 hc' (List.append_cancel_left e)
    exact ⟨rfl, rfl⟩

theorem flat_small {ops : List Op} {e : List Instr} (hf : FlatL ops e) (hP : ∀ i, Occurs i e → Small i) : ∀ x ∈ ops ++ [Op.endOp], SmallOp x := by
  intro x hx
  rcases List.mem_append.mp hx with hx | hx
  · cases x with
    | instr i =>
      by_cases hi : Simple i
      · exact hP i ((occurs_flatL hf hi).mp hx)
      · show Small i
        cases i <;> first | exact trivial | exact (hi trivial).elim
    | _ => trivial
  · cases List.mem_singleton.mp hx
    trivial

theorem expr_agrees : Agrees (GExpr .code) GCodeExpr (fun e => ∀ i, Occurs i e → Small i) SameExpr := by
  rintro b b' r r' e y ⟨h⟩ hP ⟨h1, h2⟩ he
  obtain ⟨ops, h3, hf⟩ := ops_of_instrs h
  have h4 : GSeq (GOp .code) _ (ops ++ [.endOp]) := gseq_append h3 (gseq_single .endOp)
  have h5 : Closes 1 ((ops ++ [Op.endOp]).map code) := by
    rw [List.map_append]
    exact (closes_flatL hf 0 _).mpr trivial
  obtain ⟨h7, h8⟩ := codes_agree h4 (flat_small hf hP) h5 h1 h2 he
  exact ⟨h7, ops, hf, h8⟩

/-! ## Sections -/

theorem impDesc_agrees : Agrees (GImportDesc .code) GImpDesc All fun d y => y = impDesc d := by
  intro b b' r r' d y h3 _ h6 e
  cases h3 with
  | func h7 =>
    cases h6 with
    | func h8 => obtain ⟨rfl, rfl⟩ := u32_agrees h7 trivial h8 (List.cons.inj e).2; exact ⟨rfl, rfl⟩
    | later hx => exact (hx (by rw [← (List.cons.inj e).1]; decide)).elim
    | _ => cases (List.cons.inj e).1
  | table h7 =>
    cases h6 with
    | table h8 => obtain ⟨rfl, rfl⟩ := tabTy_agrees h7 trivial h8 (List.cons.inj e).2; exact ⟨rfl, rfl⟩
    | later hx => exact (hx (by rw [← (List.cons.inj e).1]; decide)).elim
    | _ => cases (List.cons.inj e).1
  | mem h7 =>
    obtain ⟨h7⟩ := h7
    cases h6 with
    | mem h8 => obtain ⟨rfl, rfl⟩ := lim_agrees h7 trivial h8 (List.cons.inj e).2; exact ⟨rfl, rfl⟩
    | later hx => exact (hx (by rw [← (List.cons.inj e).1]; decide)).elim
    | _ => cases (List.cons.inj e).1
  | global h7 =>
    cases h6 with
    | global h8 => obtain ⟨rfl, rfl⟩ := globTy_agrees h7 trivial h8 (List.cons.inj e).2; exact ⟨rfl, rfl⟩
    | later hx => exact (hx (by rw [← (List.cons.inj e).1]; decide)).elim
    | _ => cases (List.cons.inj e).1

theorem imp_agrees : Agrees (GImport .code) GImp All fun i y => y = imp i := by
  rintro b b' r r' i y ⟨h1, h2, h3⟩ _ ⟨h4, h5, h6⟩ e
  simp only [List.append_assoc] at e
  obtain ⟨rfl, rfl⟩ := name_agrees h1 trivial h4 e
  have e := List.append_cancel_left e
  obtain ⟨rfl, rfl⟩ := name_agrees h2 trivial h5 e
  obtain ⟨rfl, rfl⟩ := impDesc_agrees h3 trivial h6 (List.append_cancel_left e)
  exact ⟨rfl, rfl⟩

theorem expDesc_agrees : Agrees (GExportDesc .code) GExpDesc All fun d y => y = .old d := by
  intro b b' r r' d y h _ h' e
  cases h' with
  | old h' =>
    cases h with
    | func h1 | table h1 | mem h1 | global h1 =>
      cases h' with
      | func h2 | table h2 | mem h2 | global h2 =>
        first
        | (obtain ⟨rfl, rfl⟩ := u32_agrees h1 trivial h2 (List.cons.inj e).2; exact ⟨rfl, rfl⟩)
        | (cases (List.cons.inj e).1; done)
  | later hx => cases h <;> exact (hx (by rw [← (List.cons.inj e).1]; decide)).elim

theorem exp_agrees : Agrees (GExport .code) GExp All fun x y => y = exp x := by
  rintro b b' r r' x y ⟨h1, h2⟩ _ ⟨h3, h4⟩ e
  simp only [List.append_assoc] at e
  obtain ⟨rfl, rfl⟩ := name_agrees h1 trivial h3 e
  obtain ⟨rfl, rfl⟩ := expDesc_agrees h2 trivial h4 (List.append_cancel_left e)
  exact ⟨rfl, rfl⟩

theorem table_agrees : Agrees (GTable .code) GTabTy All fun t y => y = .old (lim t.ty.lim) := by
  rintro b b' r r' x y ⟨h1⟩ _ h2 e
  exact tabTy_agrees h1 trivial h2 e

theorem mem_agrees : Agrees (GMem .code) GLim All fun t y => y = lim t.ty.lim := by
  rintro b b' r r' x y ⟨⟨h1⟩⟩ _ h2 e
  exact lim_agrees h1 trivial h2 e

theorem glob_agrees : Agrees (GGlobal .code) GGlob (fun g => ∀ i, Occurs i g.init → Small i) SameGlobal := by
  rintro b b' r r' x y ⟨h1, h2⟩ hP ⟨h3, h4⟩ e
  simp only [List.append_assoc] at e
  obtain ⟨rfl, rfl⟩ := globTy_agrees h1 trivial h3 e
  obtain ⟨rfl, h5⟩ := expr_agrees h2 hP h4 (List.append_cancel_left e)
  exact ⟨rfl, rfl, h5⟩

theorem elem_agrees : Agrees (GElem .code) GElemSeg (fun x => x.table = 0 ∧ ∀ i, Occurs i x.offset → Small i) SameElem := by
  rintro b b' r r' x y ⟨h1, h2, h3⟩ hP h4 e
  simp only [List.append_assoc] at e
  cases h4 with
  | old h5 h6 h7 =>
    simp only [List.append_assoc] at e
    obtain ⟨rfl, _⟩ := num_agrees (by decide) h1 trivial h5 e
    have e := List.append_cancel_left e
    obtain ⟨rfl, h8⟩ := expr_agrees h2 hP.2 h6 e
    obtain ⟨rfl, h9⟩ := veq_agrees (f := id) u32_agrees h3 trivial h7 (List.append_cancel_left e)
    rw [List.map_id] at h9
    subst h9
    exact ⟨rfl, _, rfl, hP.1, h8⟩
  | later h5 h6 =>
    simp only [List.append_assoc] at e
    obtain ⟨_, h7⟩ := num_agrees (by decide) h1 trivial h5 e
    have h8 := hP.1
    dsimp only at h8
    subst h8
    exact (h6 h7).elim

theorem data_agrees : Agrees (GData .code) GDataSeg (fun x => x.mem = 0 ∧ ∀ i, Occurs i x.offset → Small i) SameData := by
  rintro b b' r r' x y ⟨h1, h2, h3⟩ hP h4 e
  simp only [List.append_assoc] at e
  cases h4 with
  | old h5 h6 h7 =>
    simp only [List.append_assoc] at e
    obtain ⟨rfl, _⟩ := num_agrees (by decide) h1 trivial h5 e
    have e := List.append_cancel_left e
    obtain ⟨rfl, h8⟩ := expr_agrees h2 hP.2 h6 e
    obtain ⟨rfl, rfl⟩ := bytes_agree h3 trivial h7 (List.append_cancel_left e)
    exact ⟨rfl, _, rfl, hP.1, h8⟩
  | later h5 h6 =>
    simp only [List.append_assoc] at e
    obtain ⟨_, h7⟩ := num_agrees (by decide) h1 trivial h5 e
    have h8 := hP.1
    dsimp only at h8
    subst h8
    exact (h6 h7).elim

theorem run_agrees : Agrees (GLocals .code) GLocalRun All fun x y => y = (x.1, .old x.2) := by
  rintro b b' r r' x y ⟨h1, h2⟩ _ ⟨h3, h4⟩ e
  simp only [List.append_assoc] at e
  obtain ⟨rfl, h5⟩ := num_agrees (by decide) h1 trivial h3 e
  obtain ⟨rfl, rfl⟩ := val_agrees h2 trivial h4 (List.append_cancel_left e)
  exact ⟨rfl, by rw [h5]⟩

theorem expand_old (runs : List (Nat × Val)) : (runs.map fun x => (x.1, ValTy.old x.2)).flatMap (fun (n, t) => List.replicate n t) = (expand runs).map .old := by
  unfold expand
  rw [List.map_flatMap, List.flatMap_map]
  simp

theorem body_agrees : Agrees (GFunc .code) GBody (fun x => ∀ i, Occurs i x.2 → Small i) fun x y => y.locals = x.1.map .old ∧ SameExpr x.2 y.code := by
  rintro b b' r r' x y ⟨h1, _, h2⟩ hP ⟨h3, _, h4⟩ e
  simp only [List.append_assoc] at e
  obtain ⟨rfl, rfl⟩ := veq_agrees run_agrees h1 trivial h3 e
  obtain ⟨rfl, h5⟩ := expr_agrees h2 hP h4 (List.append_cancel_left e)
  exact ⟨rfl, expand_old _, h5⟩

/-! ## The sections of a file -/

theorem raw_append {a b : List Byte} {l l' : List (Byte × List Byte)} (h : RawSecs a l) (h' : RawSecs b l') : RawSecs (a ++ b) (l ++ l') := by
  induction h with
  | nil => exact h'
  | @cons id _ _ _ _ hg hu _ ih =>
    have := RawSecs.cons (id := id) hg hu ih
    simpa using this

/-- A piece of a file: sections that all have the same number. -/
abbrev Piece := Byte × List (Byte × List Byte)

def Piece.Ok (p : Piece) : Prop := ∀ x ∈ p.2, x.1 = p.1

theorem customs_raw {D : Dialect} (hD : DialectLe D .code) {b : List Byte} (h : GCustoms D b) : ∃ l, RawSecs b l ∧ Piece.Ok (0x00, l) := by
  induction h with
  | nil => exact ⟨[], .nil, by simp [Piece.Ok]⟩
  | cons h _ ih =>
    obtain ⟨l, h1, h2⟩ := ih
    obtain ⟨h⟩ := h
    obtain ⟨hg, hu, _⟩ := h
    rename_i g c len _
    obtain ⟨hg, hl⟩ := hD.u32 hg
    have hu := hl.trans hu.symm
    refine ⟨(0, c) :: l, ?_, ?_⟩
    · have := RawSecs.cons (id := 0) hg hu h1
      simpa using this
    · intro x hx
      rcases List.mem_cons.mp hx with rfl | hx
      · rfl
      · exact h2 x hx

/-- A vector in a section with number `k`, if there is one. -/
def Content {α : Type} (D : Dialect) (k : Byte) (G : List Byte → α → Prop) (l : List (Byte × List Byte)) (xs : List α) : Prop :=
  (l = [] ∧ xs = []) ∨ ∃ c, l = [(k, c)] ∧ GVec D G c xs

theorem section_content {D : Dialect} (hD : DialectLe D .code) {α : Type} {k : Byte} {G : List Byte → α → Prop} {b : List Byte} {x : α} (h : GSection D k G b x) : ∃ c, RawSecs b [(k, c)] ∧ G c x := by
  obtain ⟨h⟩ := h
  obtain ⟨hg, hu, hc⟩ := h
  rename_i g c len
  obtain ⟨hg, hl⟩ := hD.u32 hg
  have hu := hl.trans hu.symm
  refine ⟨c, ?_, hc⟩
  have := RawSecs.cons (id := k) hg hu .nil
  simpa using this

theorem section_raw {D : Dialect} (hD : DialectLe D .code) {α : Type} {k : Byte} {G : List Byte → α → Prop} {b : List Byte} {xs : List α} (h : GVecSection D k G b xs) :
    ∃ l, RawSecs b l ∧ Piece.Ok (k, l) ∧ Content D k G l xs := by
  cases h with
  | absent => exact ⟨[], .nil, by simp [Piece.Ok], .inl ⟨rfl, rfl⟩⟩
  | present h =>
    obtain ⟨c, h1, h2⟩ := section_content hD h
    exact ⟨_, h1, by simp [Piece.Ok], .inr ⟨c, rfl, h2⟩⟩

theorem start_raw {D : Dialect} (hD : DialectLe D .code) {b : List Byte} {x : Option Start} (h : GStartSection D b x) :
    ∃ l, RawSecs b l ∧ Piece.Ok (0x08, l) ∧ ((l = [] ∧ x = none) ∨ ∃ c s, l = [(0x08, c)] ∧ x = some s ∧ GStart D c s) := by
  cases h with
  | absent => exact ⟨[], .nil, by simp [Piece.Ok], .inl ⟨rfl, rfl⟩⟩
  | present h =>
    obtain ⟨c, h1, h2⟩ := section_content hD h
    exact ⟨_, h1, by simp [Piece.Ok], .inr ⟨c, _, rfl, rfl, h2⟩⟩

theorem funcs_raw {D : Dialect} (hD : DialectLe D .code) {tys : List Idx} {b : List Byte} {fs : List Func} (h : GFuncs D tys b fs) :
    ∃ l, RawSecs b l ∧ Piece.Ok (0x0A, l) ∧
      ((l = [] ∧ fs = [] ∧ D.codeMayBeMissing) ∨ ∃ codes, Content D 0x0A (GSized D (GFunc D)) l codes ∧ codes.length = tys.length ∧ fs = pairFuncs tys codes) := by
  cases h with
  | paired g hl =>
    obtain ⟨l, h1, h2, h3⟩ := section_raw hD g
    exact ⟨l, h1, h2, .inr ⟨_, h3, hl, rfl⟩⟩
  | missing hc => exact ⟨[], .nil, by simp [Piece.Ok], .inl ⟨rfl, rfl, hc⟩⟩

/-- The sections of a module with number `k`. -/
theorem mem_piece {ps : List Piece} (hp : ∀ p ∈ ps, Piece.Ok p) {k : Byte} {l : List (Byte × List Byte)} (hl : (k, l) ∈ ps) (hk : ∀ l', (k, l') ∈ ps → l' = l) (c : List Byte) :
    (k, c) ∈ ps.flatMap (·.2) ↔ (k, c) ∈ l := by
  rw [List.mem_flatMap]
  constructor
  · rintro ⟨⟨k', l'⟩, h1, h2⟩
    have := hp _ h1 _ h2
    dsimp only at this h2
    subst this
    exact hk l' h1 ▸ h2
  · intro h
    exact ⟨(k, l), hl, h⟩

theorem sect_agrees {α β : Type} {k : Byte} {G : List Byte → α → Prop} {H : List Byte → β → Prop} {P : α → Prop} {R : α → β → Prop}
    {l secs : List (Byte × List Byte)} {xs : List α} {ys : List β} (hc : Content .code k G l xs) (hs : Sect k H secs ys) (hm : ∀ c, (k, c) ∈ secs ↔ (k, c) ∈ l) (hP : ∀ x ∈ xs, P x)
    (h : Agrees G H P R) : Related R xs ys := by
  cases hs with
  | absent h1 =>
    rcases hc with ⟨_, rfl⟩ | ⟨c, rfl, _⟩
    · exact .nil
    · exact (h1 c ((hm c).mpr (List.mem_singleton.mpr rfl))).elim
  | present h1 h2 =>
    rcases hc with ⟨rfl, _⟩ | ⟨c, rfl, h3⟩
    · cases (hm _).mp h1
    · cases List.mem_singleton.mp ((hm _).mp h1)
      exact (vec_agrees (G := G) (H := H) (P := P) (R := R) h (r := []) (r' := []) h3 hP h2 rfl).2

/-- The sections of a module, in the order of the file. -/
theorem module_raw {D : Dialect} (hD : DialectLe D .code) {s : List Byte} {m : Module} (h : GModule D s m) : ∃ (b : List Byte) (l0 l1 l2 l3 l4 l5 l6 l7 l8 l9 l10 l11 s1 s2 s3 s4 s5 s6 s7 s8 s9 s10 s11 : List (Byte × List Byte)) (tys : List Idx),
    s = preamble ++ b ∧
    RawSecs b (l0 ++ (s1 ++ (l1 ++ (s2 ++ (l2 ++ (s3 ++ (l3 ++ (s4 ++ (l4 ++ (s5 ++ (l5 ++ (s6 ++ (l6 ++ (s7 ++ (l7 ++ (s8 ++ (l8 ++ (s9 ++ (l9 ++ (s10 ++ (l10 ++ (s11 ++ l11)))))))))))))))))))))) ∧
    (∀ p ∈ ([(0x00, l0), (0x01, s1), (0x00, l1), (0x02, s2), (0x00, l2), (0x03, s3), (0x00, l3), (0x04, s4), (0x00, l4), (0x05, s5), (0x00, l5), (0x06, s6), (0x00, l6), (0x07, s7), (0x00, l7), (0x08, s8),
      (0x00, l8), (0x09, s9), (0x00, l9), (0x0A, s10), (0x00, l10), (0x0B, s11), (0x00, l11)] : List Piece), Piece.Ok p) ∧
    Content D 0x01 (GFuncTy D) s1 m.types ∧ Content D 0x02 (GImport D) s2 m.imports ∧ Content D 0x03 D.u32 s3 tys ∧ Content D 0x04 (GTable D) s4 m.tables ∧
    Content D 0x05 (GMem D) s5 m.mems ∧ Content D 0x06 (GGlobal D) s6 m.globals ∧ Content D 0x07 (GExport D) s7 m.exports ∧
    ((s8 = [] ∧ m.start = none) ∨ ∃ c x, s8 = [(0x08, c)] ∧ m.start = some x ∧ GStart D c x) ∧
    Content D 0x09 (GElem D) s9 m.elem ∧
    ((s10 = [] ∧ m.funcs = [] ∧ D.codeMayBeMissing) ∨ ∃ codes, Content D 0x0A (GSized D (GFunc D)) s10 codes ∧ codes.length = tys.length ∧ m.funcs = pairFuncs tys codes) ∧
    Content D 0x0B (GData D) s11 m.data := by
  obtain ⟨k0, g1, k1, g2, k2, g3, k3, g4, k4, g5, k5, g6, k6, g7, k7, g8, k8, g9, k9, g10, k10, g11, k11⟩ := h
  rename_i tys
  obtain ⟨l0, r0, o0⟩ := customs_raw hD k0
  obtain ⟨l1, r1, o1⟩ := customs_raw hD k1
  obtain ⟨l2, r2, o2⟩ := customs_raw hD k2
  obtain ⟨l3, r3, o3⟩ := customs_raw hD k3
  obtain ⟨l4, r4, o4⟩ := customs_raw hD k4
  obtain ⟨l5, r5, o5⟩ := customs_raw hD k5
  obtain ⟨l6, r6, o6⟩ := customs_raw hD k6
  obtain ⟨l7, r7, o7⟩ := customs_raw hD k7
  obtain ⟨l8, r8, o8⟩ := customs_raw hD k8
  obtain ⟨l9, r9, o9⟩ := customs_raw hD k9
  obtain ⟨l10, r10, o10⟩ := customs_raw hD k10
  obtain ⟨l11, r11, o11⟩ := customs_raw hD k11
  obtain ⟨s1, q1, p1, c1⟩ := section_raw hD g1
  obtain ⟨s2, q2, p2, c2⟩ := section_raw hD g2
  obtain ⟨s3, q3, p3, c3⟩ := section_raw hD g3
  obtain ⟨s4, q4, p4, c4⟩ := section_raw hD g4
  obtain ⟨s5, q5, p5, c5⟩ := section_raw hD g5
  obtain ⟨s6, q6, p6, c6⟩ := section_raw hD g6
  obtain ⟨s7, q7, p7, c7⟩ := section_raw hD g7
  obtain ⟨s8, q8, p8, c8⟩ := start_raw hD g8
  obtain ⟨s9, q9, p9, c9⟩ := section_raw hD g9
  obtain ⟨s11, q11, p11, c11⟩ := section_raw hD g11
  obtain ⟨s10, q10, p10, c10⟩ := funcs_raw hD g10
  refine ⟨_, l0, l1, l2, l3, l4, l5, l6, l7, l8, l9, l10, l11, s1, s2, s3, s4, s5, s6, s7, s8, s9, s10, s11, tys, rfl, ?_, ?_, c1, c2, c3, c4, c5, c6, c7, c8, c9, c10, c11⟩
  · exact raw_append r0 (raw_append q1 (raw_append r1 (raw_append q2 (raw_append r2 (raw_append q3 (raw_append r3 (raw_append q4 (raw_append r4 (raw_append q5 (raw_append r5
      (raw_append q6 (raw_append r6 (raw_append q7 (raw_append r7 (raw_append q8 (raw_append r8 (raw_append q9 (raw_append r9 (raw_append q10 (raw_append r10 (raw_append q11 r11)))))))))))))))))))))
  · simp only [List.forall_mem_cons]
    exact ⟨o0, p1, o1, p2, o2, p3, o3, p4, o4, p5, o5, p6, o6, p7, o7, p8, o8, p9, o9, p10, o10, p11, o11, by simp⟩

theorem codes_small {tys : List Idx} {codes : List (List Val × Expr)} (hl : codes.length = tys.length) (h : ∀ f ∈ pairFuncs tys codes, ∀ i, Occurs i f.body → Small i) :
    ∀ x ∈ codes, ∀ i, Occurs i x.2 → Small i := by
  induction tys generalizing codes with
  | nil => cases codes with
    | nil => exact fun x hx => (by cases hx)
    | cons => cases hl
  | cons ty tys ih => cases codes with
    | nil => exact fun x hx => (by cases hx)
    | cons c codes =>
      simp only [pairFuncs, List.zipWith_cons_cons, List.forall_mem_cons] at h
      simp only [List.forall_mem_cons]
      exact ⟨h.1, ih (Nat.succ.inj hl) h.2⟩

theorem pair_tys {tys : List Idx} {codes : List (List Val × Expr)} (hl : codes.length = tys.length) : (pairFuncs tys codes).map (·.ty) = tys := by
  induction tys generalizing codes with
  | nil => rfl
  | cons ty tys ih => cases codes with
    | nil => cases hl
    | cons c codes =>
      have := ih (Nat.succ.inj hl)
      simp only [pairFuncs] at this
      simp [pairFuncs, this]

theorem pair_related : ∀ {tys : List Idx} {codes : List (List Val × Expr)} {ys : List Body}, codes.length = tys.length →
    Related (fun x y => y.locals = x.1.map .old ∧ SameExpr x.2 y.code) codes ys → Related SameFunc (pairFuncs tys codes) ys
  | [], [], _, _, .nil => .nil
  | _ :: _, _ :: _, _, hl, .cons h hs => .cons h (pair_related (Nat.succ.inj hl) hs)

/-- Two readings of a file agree. -/
theorem file_agrees {s : List Byte} {m : Module} {y : File} (h : GModule .code s m) (hm : NoRoom m) (hy : GLater s y) : Says y m := by
  obtain ⟨b, l0, l1, l2, l3, l4, l5, l6, l7, l8, l9, l10, l11, s1, s2, s3, s4, s5, s6, s7, s8, s9, s10, s11, tys, rfl, hr, hp, c1, c2, c3, c4, c5, c6, c7, c8, c9, c10, c11⟩ := module_raw ⟨id, id, id, id, id, id⟩ h
  obtain ⟨⟨b', secs, hb, hr', _, d1, d2, d3, d4, d5, d6, d7, d8, d9, d10, d11⟩, hpair⟩ := hy
  obtain rfl := List.append_cancel_left hb
  have e := rawSecs_unique hr' hr
  have e : secs = ([(0x00, l0), (0x01, s1), (0x00, l1), (0x02, s2), (0x00, l2), (0x03, s3), (0x00, l3), (0x04, s4), (0x00, l4), (0x05, s5), (0x00, l5), (0x06, s6), (0x00, l6), (0x07, s7), (0x00, l7), (0x08, s8),
      (0x00, l8), (0x09, s9), (0x00, l9), (0x0A, s10), (0x00, l10), (0x0B, s11), (0x00, l11)] : List Piece).flatMap (·.2) := by
    rw [e]; simp
  have hk : ∀ {k : Byte} {l : List (Byte × List Byte)}, _ → _ → ∀ c, (k, c) ∈ secs ↔ (k, c) ∈ l := fun {k l} h1 h2 c => by
    rw [e]; exact mem_piece hp h1 h2 c
  have a3 : y.funcs = tys.map id := related_map (sect_agrees (P := All) (R := fun v n => n = id v) c3 d3 (hk (by simp) (by simp)) (fun _ _ => trivial) u32_agrees)
  rw [List.map_id] at a3
  have a10 : y.funcs = m.funcs.map (·.ty) ∧ Related SameFunc m.funcs y.bodies := by
    have hk := hk (k := 0x0A) (l := s10) (by simp) (by simp)
    rcases c10 with ⟨rfl, hf, _⟩ | ⟨codes, c10, hl, hf⟩
    · rw [hf]
      have : y.bodies = [] := by
        generalize y.bodies = ys at d10
        cases d10 with
        | absent => rfl
        | present h1 => cases (hk _).mp h1
      rw [this] at hpair ⊢
      exact ⟨List.eq_nil_of_length_eq_zero hpair.symm, .nil⟩
    · rw [hf, pair_tys hl]
      have := hm.bodies
      rw [hf] at this
      exact ⟨a3, pair_related hl (sect_agrees (P := fun x => ∀ i, Occurs i x.2 → Small i) c10 d10 hk (codes_small hl this) (sized_agrees (P := fun (x : List Val × Expr) => ∀ i, Occurs i x.2 → Small i) (R := fun (x : List Val × Expr) (y : Body) => y.locals = x.1.map .old ∧ SameExpr x.2 y.code) body_agrees))⟩
  exact {
    types := related_map (sect_agrees (P := All) c1 d1 (hk (by simp) (by simp)) (fun _ _ => trivial) defTy_agrees)
    imports := related_map (sect_agrees (P := All) c2 d2 (hk (by simp) (by simp)) (fun _ _ => trivial) imp_agrees)
    funcs := a10.1
    tables := related_map (sect_agrees (P := All) c4 d4 (hk (by simp) (by simp)) (fun _ _ => trivial) table_agrees)
    mems := related_map (sect_agrees (P := All) c5 d5 (hk (by simp) (by simp)) (fun _ _ => trivial) mem_agrees)
    globals := sect_agrees (P := fun g => ∀ i, Occurs i g.init → Small i) c6 d6 (hk (by simp) (by simp)) hm.inits glob_agrees
    exports := related_map (sect_agrees (P := All) c7 d7 (hk (by simp) (by simp)) (fun _ _ => trivial) exp_agrees)
    start := by
      have hk := hk (k := 0x08) (l := s8) (by simp) (by simp)
      generalize y.start = z at d8 ⊢
      cases d8 with
      | absent h1 =>
        rcases c8 with ⟨_, h2⟩ | ⟨c, x, rfl, _, _⟩
        · rw [h2]; rfl
        · exact (h1 c ((hk c).mpr (List.mem_singleton.mpr rfl))).elim
      | present h1 h2 =>
        rcases c8 with ⟨rfl, _⟩ | ⟨c, x, rfl, h3, ⟨h4⟩⟩
        · cases (hk _).mp h1
        · cases List.mem_singleton.mp ((hk _).mp h1)
          rw [h3, (u32_agrees (r := []) (r' := []) h4 trivial h2 rfl).2]
          rfl
    elem := sect_agrees (P := fun x => x.table = 0 ∧ ∀ i, Occurs i x.offset → Small i) c9 d9 (hk (by simp) (by simp)) (fun x hx => ⟨hm.elem x hx, hm.elemOffsets x hx⟩) elem_agrees
    bodies := a10.2
    data := sect_agrees (P := fun x => x.mem = 0 ∧ ∀ i, Occurs i x.offset → Small i) c11 d11 (hk (by simp) (by simp)) (fun x hx => ⟨hm.data x hx, hm.dataOffsets x hx⟩) data_agrees }

end Whasm.Later
