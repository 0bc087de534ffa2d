import Verif.Model.Declarative
import Verif.Lemmas.Items
import Verif.Lemmas.InstrGrammar

/-!
# The declarative grammar against the parsers of `binary`
-/

namespace Whasm.Decl

section
variable {α β : Type}

theorem ofP_pure (x : α) : ofP (pure x) = pure x := rfl

theorem ofP_bind (p : P α) (f : α → P β) : ofP (p >>= f) = ofP p >>= fun x => ofP (f x) := by
  funext s
  show ofP (p >>= f) s = Q.bind (ofP p) (fun x => ofP (f x)) s
  unfold Q.bind
  match h : p s with
  | (.ok x, r) =>
    have h1 : ofP p s = .ok (x, r) := by unfold ofP; rw [h]
    have h2 : (p >>= f) s = f x r := bind_of_ok h
    rw [h1]
    show ofP (p >>= f) s = ofP (f x) r
    unfold ofP; rw [h2]
  | (.error e, r) =>
    have h2 : (p >>= f) s = (.error e, r) := bind_of_error h
    unfold ofP
    rw [h2, h]

theorem ofP_fail (e : Error) : ofP (P.fail e : P α) = Q.fail (errorOf e) := rfl

theorem ofP_byte : ofP parseByte = dByte := by
  funext s
  cases s <;> rfl

theorem ofP_N {p : P α} {q : Q α} (h : ofP p = q) : ∀ n, ofP (parseN n p) = dN n q
  | 0 => rfl
  | n + 1 => by
    unfold parseN dN
    rw [ofP_bind, h]
    congr 1; funext x
    rw [ofP_bind, ofP_N h n]
    rfl

theorem ofP_map {p : P α} {q : Q α} (f : α → β) (h : ofP p = q) : ofP (p >>= fun x => pure (f x)) = q >>= fun x => pure (f x) := by
  rw [ofP_bind, h]; rfl

theorem ofP_vec {p : P α} {q : Q α} (h : ofP p = q) : ofP (parseVec p) = dVec q := by
  unfold parseVec dVec
  rw [ofP_bind]
  congr 1; funext n
  exact ofP_N h _

theorem ofP_runs {p : P α} {q : Q α} (h : ofP p = q) : ∀ n, ofP (parseRuns n p) = dRuns n q
  | 0 => rfl
  | n + 1 => by
    unfold parseRuns dRuns
    rw [ofP_bind]
    congr 1; funext k
    rw [ofP_bind, h]
    congr 1; funext x
    rw [ofP_bind, ofP_runs h n]
    rfl

theorem ofP_compactVec {p : P α} {q : Q α} (h : ofP p = q) : ofP (parseCompactVec p) = dVecVec q := by
  unfold parseCompactVec dVecVec
  rw [ofP_bind]
  congr 1; funext n
  exact ofP_runs h _

theorem ofP_string : ofP parseString = dString := by
  unfold parseString dString
  rw [unwrappingVec_id, ofP_bind, ofP_vec ofP_byte]
  congr 1; funext raw
  split
  · rfl
  · rfl

theorem ofP_f32 : ofP parseF32 = dF32 := ofP_map (leBits 32) (ofP_N ofP_byte 4)
theorem ofP_f64 : ofP parseF64 = dF64 := ofP_map (leBits 64) (ofP_N ofP_byte 8)

theorem ofP_sized {p : P α} {q : Q α} (hp : ∀ s, (p s).2 <:+ s) (h : ofP p = q) : ofP (parseSized p) = dSized q := by
  subst h
  refine (ofP_bind parseU32 _).trans (congrArg (fun f : U32 → Q α => dU32 >>= f) (funext fun n => funext fun s => ?_))
  have hs := hp (s.take n.toNat)
  unfold ofP
  match h : p (s.take n.toNat) with
  | (.error e, r) => simp only [h]
  | (.ok x, r) =>
    simp only [h]
    rw [h] at hs
    have hl := hs.length_le
    simp only [List.length_take] at hl ⊢
    by_cases hc : r = [] ∧ n.toNat ≤ s.length
    · obtain ⟨rfl, hn⟩ := hc
      have : ¬ n.toNat ≠ min n.toNat s.length - ([] : List Byte).length := by simp; omega
      rw [if_neg this]
      simp [hn]
    · rw [if_neg hc]
      have : n.toNat ≠ min n.toNat s.length - r.length := by
        intro he
        apply hc
        by_cases h0 : n.toNat = 0
        · have : r.length = 0 := by omega
          exact ⟨List.length_eq_zero_iff.mp this, by omega⟩
        · have : r.length = 0 := by omega
          exact ⟨List.length_eq_zero_iff.mp this, by omega⟩
      rw [if_pos this]; rfl

/-- An enum whose variants have plain discriminants. -/
theorem dEnum_cons (v : Variant α) (vs : List (Variant α)) (b : Byte) (r : List Byte) :
    dEnum (v :: vs) (b :: r) = if v.pattern b then v.content (if v.forward then b :: r else r) else dEnum vs (b :: r) := by
  unfold dEnum
  simp only [List.find?_cons]
  cases v.pattern b <;> rfl

theorem dEnum_nil (b : Byte) (r : List Byte) : dEnum ([] : List (Variant α)) (b :: r) = .error (.invalidEnumDiscriminant b) := rfl

theorem dEnum_empty (vs : List (Variant α)) : dEnum vs [] = .error .unexpectedEndOfStream := rfl

theorem ofP_byteBind {f : Byte → P α} {vs : List (Variant α)} (h : ∀ b r, ofP (f b) r = dEnum vs (b :: r)) :
    ofP (parseByte >>= f) = dEnum vs := by
  rw [ofP_bind, ofP_byte]
  funext s
  cases s with
  | nil => rfl
  | cons b r => exact h b r

end


theorem beq_toNat (b c : Byte) : (b == c) = decide (b.toNat = c.toNat) := by
  rw [Bool.eq_iff_iff]; simp [UInt8.toNat_inj]

theorem ofP_invalid {α : Type} (b : Byte) (n : String) (r : List Byte) : ofP (P.fail (.invalidVariantId b n) : P α) r = .error (.invalidEnumDiscriminant b) := rfl

theorem ofP_val : ofP parseVal = dVal := by
  refine ofP_byteBind fun b r => ?_
  simp only [dEnum_cons, disc, dEnum_nil, beq_toNat]
  split <;> simp_all [ofP_pure, ofP_invalid]

theorem val_byte (b : Byte) (r : List Byte) : parseVal (b :: r) = ((parseVal [b]).1, r) := by
  obtain ⟨q, h, hq⟩ : ∃ q : P Val, (∀ r', parseVal (b :: r') = q r') ∧ ((∃ v, q = pure v) ∨ ∃ e, q = P.fail e) := by
    refine ⟨(match b.toNat with
      | 0x7F => pure .i32
      | 0x7E => pure .i64
      | 0x7D => pure .f32
      | 0x7C => pure .f64
      | _ => P.fail (.invalidVariantId b "ty::Val")), fun r' => bind_of_ok rfl, ?_⟩
    split
    all_goals first | exact .inl ⟨_, rfl⟩ | exact .inr ⟨_, rfl⟩
  rw [h, h]
  rcases hq with ⟨v, rfl⟩ | ⟨e, rfl⟩ <;> rfl

theorem ofP_retVal : ofP parseRetVal = dBlockType := by
  refine ofP_byteBind fun b r => ?_
  simp only [dEnum_cons, disc, dEnum_nil, beq_toNat]
  split
  · simp_all [ofP_pure]
  · rename_i h
    have h0 : (decide (b.toNat = UInt8.toNat 0x40)) = false := by simpa using h
    simp only [h0, Bool.false_eq_true, if_false, if_true]
    refine Eq.trans ?_ (congrFun (ofP_map (fun v => [v]) ofP_val) (b :: r))
    unfold ofP
    have hv := val_byte b r
    match hb : parseVal [b] with
    | (.ok v, r') =>
      rw [hb] at hv
      rw [bind_of_ok hv]
    | (.error e, r') =>
      rw [hb] at hv
      rw [bind_of_error hv]; rfl

theorem ofP_funcTy : ofP parseFuncTy = dFuncTy := by
  refine ofP_byteBind fun b r => ?_
  simp only [dEnum_cons, disc, dEnum_nil, beq_toNat]
  split <;> simp_all [ofP_pure, ofP_invalid, ofP_bind, ofP_vec ofP_val]

theorem ofP_limits : ofP parseLimits = dLimits := by
  refine ofP_byteBind fun b r => ?_
  simp only [dEnum_cons, disc, dEnum_nil, beq_toNat]
  split <;> simp_all [ofP_pure, ofP_invalid, ofP_bind, dU32]

theorem ofP_elemTy : ofP parseElemTy = dElemTy := by
  refine ofP_byteBind fun b r => ?_
  simp only [dEnum_cons, disc, dEnum_nil, beq_toNat]
  split <;> simp_all [ofP_pure, ofP_invalid]

theorem ofP_mut : ofP parseMut = dMut := by
  refine ofP_byteBind fun b r => ?_
  simp only [dEnum_cons, disc, dEnum_nil, beq_toNat]
  split <;> simp_all [ofP_pure, ofP_invalid]

theorem ofP_memTy : ofP parseMemTy = dMemTy := by
  simp only [parseMemTy, dMemTy, ofP_bind, ofP_pure, ofP_limits]

theorem ofP_tableTy : ofP parseTableTy = dTableTy := by
  simp only [parseTableTy, dTableTy, ofP_bind, ofP_pure, ofP_limits, ofP_elemTy]

theorem ofP_globalTy : ofP parseGlobalTy = dGlobalTy := by
  simp only [parseGlobalTy, dGlobalTy, ofP_bind, ofP_pure, ofP_val, ofP_mut]

theorem ofP_idx : ofP parseIdx = dIdx := rfl

/-! ## Instructions -/

/-- `SubExpr` as a pair. -/
def pairOf (p : P SubExpr) : Q (List Instr × Instr) := ofP p >>= fun se => pure (se.body, se.next)

theorem Q.bind_assoc {α β γ : Type} (p : Q α) (f : α → Q β) (g : β → Q γ) : (p >>= f) >>= g = p >>= fun x => f x >>= g := by
  funext s
  show Q.bind (Q.bind p f) g s = Q.bind p (fun x => Q.bind (f x) g) s
  unfold Q.bind
  cases p s <;> rfl

theorem ofP_exprOf (p : P SubExpr) : ofP (exprOf p) = dExprOf (pairOf p) := by
  unfold exprOf dExprOf pairOf
  rw [ofP_bind, Q.bind_assoc]
  congr 1; funext se
  show _ = (match se.next with
    | .endMark => pure se.body
    | _ => Q.fail .unexpectedInstruction : Q Expr)
  split <;> simp_all [ofP_pure] <;> rfl


theorem Q.bind_at {α β : Type} {p : Q α} {f g : α → Q β} {s : List Byte} (h : ∀ x r, p s = .ok (x, r) → f x r = g x r) :
    (p >>= f) s = (p >>= g) s := by
  show Q.bind p f s = Q.bind p g s
  unfold Q.bind
  match hp : p s with
  | .ok (x, r) => exact h x r hp
  | .error e => rfl

theorem ofP_ok {α : Type} {p : P α} {s : List Byte} {x : α} {r : List Byte} (h : ofP p s = .ok (x, r)) : p s = (.ok x, r) := by
  unfold ofP at h
  split at h <;> simp_all

/-- Every `SubExpr` ends with a marker. -/
def Marks (p : P SubExpr) : Prop := ∀ s se r, p s = (.ok se, r) → se.next = .endMark ∨ se.next = .elseMark

theorem ofP_ifOf {p : P SubExpr} (hm : Marks p) : ofP (ifOf p) = dIfOf (pairOf p) := by
  unfold ifOf dIfOf
  rw [ofP_bind, ofP_retVal]
  congr 1; funext ret; funext s
  rw [ofP_bind]
  unfold pairOf
  rw [Q.bind_assoc]
  refine Q.bind_at fun s1 r h1 => ?_
  show ofP (elsePart p s1 >>= _) r = (match s1.next with
    | .endMark => pure (.ifElse ret s1.body [])
    | .elseMark => do
      let l' ← (ofP p >>= fun se => pure (se.body, se.next) : Q (List Instr × Instr))
      match l'.2 with
      | .endMark => pure (.ifElse ret s1.body l'.1)
      | _ => Q.fail .unexpectedInstruction
    | _ => Q.fail .panic : Q Instr) r
  rw [ofP_bind]
  rcases hm _ _ _ (ofP_ok h1) with he | he
  · simp only [elsePart, he, Instr.isElse]
    rfl
  · simp only [elsePart, he, Instr.isElse, if_true]
    rw [ofP_bind, Q.bind_assoc, Q.bind_assoc]
    refine Q.bind_at fun s2 r2 h2 => ?_
    show ofP (if s2.next.isEnd then pure (.ifElse ret s1.body s2.body) else P.fail (.unexpectedOpcode "Unknown") : P Instr) r2 = (match s2.next with
      | .endMark => pure (.ifElse ret s1.body s2.body)
      | _ => Q.fail .unexpectedInstruction : Q Instr) r2
    rcases hm _ _ _ (ofP_ok h2) with he | he <;> rw [he] <;> rfl

/-- The shape of a variant of `Instruction`. -/
def shapeAt (b : Byte) : Option Shape := (instrVariants.find? fun v => b == v.discriminant).map (·.shape)

theorem dEnum_shapes (list : Q (List Instr × Instr)) (b : Byte) (r : List Byte) : ∀ vs : List InstrVariant,
    dEnum (vs.map fun v => disc v.discriminant (dShape list v.shape)) (b :: r) =
      (match (vs.find? fun v => b == v.discriminant).map (·.shape) with
      | none => Q.fail (.invalidEnumDiscriminant b)
      | some sh => dShape list sh : Q Instr) r
  | [] => rfl
  | v :: vs => by
    have ih := dEnum_shapes list b r vs
    simp only [List.map_cons, dEnum_cons, disc, List.find?_cons]
    cases hb : b == v.discriminant
    · exact ih
    · rfl

theorem dInstrOf_cons (list : Q (List Instr × Instr)) (b : Byte) (r : List Byte) :
    dInstrOf list (b :: r) = (match shapeAt b with
      | none => Q.fail (.invalidEnumDiscriminant b)
      | some sh => dShape list sh : Q Instr) r := dEnum_shapes list b r instrVariants

theorem dInstrOf_some {list : Q (List Instr × Instr)} {b : Byte} {sh : Shape} (h : shapeAt b = some sh) (r : List Byte) :
    dInstrOf list (b :: r) = dShape list sh r := by
  rw [dInstrOf_cons, h]

theorem dInstrOf_none {list : Q (List Instr × Instr)} {b : Byte} (h : shapeAt b = none) (r : List Byte) :
    dInstrOf list (b :: r) = .error (.invalidEnumDiscriminant b) := by
  rw [dInstrOf_cons, h]; rfl

theorem shapeAt_load {c : Byte} {op : LoadOp} (h : loadTable.lookup c.toNat = some op) : shapeAt c = some (.memArg (.load op)) := by
  have key : loadTable.map (fun e => shapeAt (UInt8.ofNat e.1)) = loadTable.map (fun e => some (.memArg (.load e.2))) := by rfl
  have := List.map_eq_map_iff.mp key _ (lookup_mem h)
  simpa using this

theorem shapeAt_store {c : Byte} {op : StoreOp} (h : storeTable.lookup c.toNat = some op) : shapeAt c = some (.memArg (.store op)) := by
  have key : storeTable.map (fun e => shapeAt (UInt8.ofNat e.1)) = storeTable.map (fun e => some (.memArg (.store e.2))) := by rfl
  have := List.map_eq_map_iff.mp key _ (lookup_mem h)
  simpa using this

theorem shapeAt_num {c : Byte} {op : NumOp} (h : numTable.lookup c.toNat = some op) : shapeAt c = some (.unit (.num op)) := by
  have key : numTable.map (fun e => shapeAt (UInt8.ofNat e.1)) = numTable.map (fun e => some (.unit (.num e.2))) := by rfl
  have := List.map_eq_map_iff.mp key _ (lookup_mem h)
  simpa using this

/-- The opcodes of the special arms of `instrAt`. -/
def specialOps : List Nat := [0x00, 0x01, 0x02, 0x03, 0x04, 0x05, 0x0B, 0x0C, 0x0D, 0x0E, 0x0F, 0x10, 0x11, 0x1A, 0x1B, 0x20, 0x21, 0x22, 0x23, 0x24,
  0x3F, 0x40, 0x41, 0x42, 0x43, 0x44]

theorem shapeAt_none {c : Byte} (h0 : c.toNat ∉ specialOps) (h1 : loadTable.lookup c.toNat = none) (h2 : storeTable.lookup c.toNat = none)
    (h3 : numTable.lookup c.toNat = none) : shapeAt c = none := by
  have key : ∀ n : Fin 256, n.val ∉ specialOps → (loadTable.lookup n.val).isNone → (storeTable.lookup n.val).isNone →
      (numTable.lookup n.val).isNone → (shapeAt (UInt8.ofNat n.val)).isNone := by decide +kernel
  have := key ⟨c.toNat, c.toNat_lt⟩ h0 (by simp [h1]) (by simp [h2]) (by simp [h3])
  simpa using this

theorem ofP_instrTail {list : Q (List Instr × Instr)} {c : Byte} (h0 : c.toNat ∉ specialOps) (r : List Byte) :
    ofP (instrTail c) r = dInstrOf list (c :: r) := by
  unfold instrTail
  split
  next op hop =>
    rw [dInstrOf_some (shapeAt_load hop), ofP_bind]; simp only [ofP_bind]; rfl
  next hl =>
    split
    next op hop =>
      rw [dInstrOf_some (shapeAt_store hop), ofP_bind]; simp only [ofP_bind]; rfl
    next hs =>
      split
      next op hop => rw [dInstrOf_some (shapeAt_num hop)]; rfl
      next hn => rw [dInstrOf_none (shapeAt_none h0 hl hs hn)]; rfl

theorem ofP_instrAt {p : P SubExpr} (hm : Marks p) (c : Byte) (r : List Byte) : ofP (instrAt p c) r = dInstrOf (pairOf p) (c :: r) := by
  unfold instrAt
  split
  case h_27 => exact ofP_instrTail (by simp_all [specialOps]) r
  all_goals
    rename_i hc
    obtain rfl := byte_of_toNat hc
    refine Eq.trans ?_ (dInstrOf_some (by rfl) r).symm
    simp only [dShape, ofP_pure, ofP_bind, ofP_retVal, ofP_exprOf, ofP_ifOf hm, ofP_idx, ofP_vec ofP_idx, ofP_f32, ofP_f64]
    try rfl

theorem ofP_instrOf {p : P SubExpr} (hm : Marks p) : ofP (instrOf p) = dInstrOf (pairOf p) := ofP_byteBind fun c r => ofP_instrAt hm c r

theorem marks_subExpr (n : Nat) : Marks (parseSubExpr n) := by
  intro s se r h
  obtain ⟨b, _, hb⟩ := sound_subExpr n s se r h
  unfold GSub at hb
  rcases hb with ⟨bs, hb⟩
  grind

theorem pairOf_subExpr (n : Nat) : pairOf (parseSubExpr n) = dInstrList n := by
  induction n with
  | zero => rfl
  | succ n ih =>
    rw [parseSubExpr_succ]
    unfold pairOf dInstrList
    rw [ofP_bind, Q.bind_assoc, ofP_instrOf (marks_subExpr n), ih]
    congr 1; funext i
    unfold subStep
    split
    · rfl
    · rfl
    · rename_i h1 h2
      rw [ofP_bind, Q.bind_assoc]
      rw [← ih]
      split
      · contradiction
      · contradiction
      · unfold pairOf
        rw [Q.bind_assoc]
        rfl

theorem ofP_expr : ofP parseExpr = dExpr := by
  funext s
  show ofP (exprOf (parseSubExpr (s.length + 1))) s = dExprOf (dInstrList (s.length + 1)) s
  rw [ofP_exprOf, pairOf_subExpr]

end Whasm.Decl
