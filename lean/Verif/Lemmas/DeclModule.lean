import Verif.Lemmas.Declarative
import Verif.Lemmas.Modules
import Verif.Spec.Assemble

/-!
# The declarative grammar of modules against `Module::parse`
-/

namespace Whasm.Decl

/-! ## Elements of sections -/

theorem ofP_constExpr : ofP parseConstExpr = dExpr := by rw [constExpr_eq, ofP_expr]

theorem ofP_table : ofP parseTable = dTable := ofP_map _ ofP_tableTy

theorem ofP_mem : ofP parseMem = dMem := ofP_map _ ofP_memTy

theorem ofP_global : ofP parseGlobal = dGlobal := by
  unfold parseGlobal dGlobal
  simp only [ofP_bind, ofP_globalTy, ofP_constExpr, ofP_pure]

theorem ofP_elem : ofP parseElem = dElement := by
  unfold parseElem dElement
  simp only [ofP_bind, ofP_idx, ofP_constExpr, ofP_vec ofP_idx, ofP_pure]

theorem ofP_data : ofP parseData = dData := by
  unfold parseData dData
  rw [unwrappingVec_id]
  simp only [ofP_bind, ofP_idx, ofP_constExpr, ofP_vec ofP_byte, ofP_pure]

theorem ofP_start : ofP parseStart = dStart := ofP_map _ ofP_idx

theorem ofP_importDesc : ofP parseImportDesc = dImportDesc := by
  refine ofP_byteBind fun b r => ?_
  simp only [dEnum_cons, disc, dEnum_nil, beq_toNat]
  split <;> simp_all [ofP_pure, ofP_invalid, ofP_bind, ofP_idx, ofP_tableTy, ofP_memTy, ofP_globalTy]

theorem ofP_exportDesc : ofP parseExportDesc = dExportDesc := by
  refine ofP_byteBind fun b r => ?_
  simp only [dEnum_cons, disc, dEnum_nil, beq_toNat]
  split <;> simp_all [ofP_pure, ofP_invalid, ofP_bind, ofP_idx]

theorem ofP_import : ofP parseImport = dImport := by
  unfold parseImport dImport
  simp only [ofP_bind, ofP_string, ofP_importDesc, ofP_pure]

theorem ofP_export : ofP parseExport = dExport := by
  unfold parseExport dExport
  simp only [ofP_bind, ofP_string, ofP_exportDesc, ofP_pure]

/-- A function body as `Func::parse` returns it. -/
def Body.func (c : Body) : Func := { ty := 0, locals := c.locals, body := c.code }

theorem ofP_func : ofP parseFunc = (do
    let locals ← dVecVec dVal
    let code ← dExpr
    pure ({ locals := locals, code := code } : Body) : Q Body) >>= fun c => pure c.func := by
  unfold parseFunc
  rw [Q.bind_assoc]
  simp only [ofP_bind, ofP_compactVec ofP_val, ofP_expr, ofP_pure]
  congr 1; funext l
  rw [Q.bind_assoc]; rfl

section
variable {α β : Type}

/-- What `dSized` does after the size. -/
def sizedQ (q : Q α) (n : Nat) : Q α := fun s =>
  match q (s.take n) with
  | .error e => .error e
  | .ok (x, r) => if r = [] ∧ n ≤ s.length then .ok (x, s.drop n) else .error .remainingBytesInStream

theorem dSized_eq (q : Q α) : dSized q = dU32 >>= fun n => sizedQ q n.toNat := rfl

theorem Q.map_ok {q : Q α} {s r : List Byte} {x : α} (f : α → β) (h : q s = .ok (x, r)) : (q >>= fun x => pure (f x) : Q β) s = .ok (f x, r) := by
  show Q.bind _ _ s = _
  unfold Q.bind; rw [h]; rfl

theorem Q.map_error {q : Q α} {s : List Byte} {e : DErr} (f : α → β) (h : q s = .error e) : (q >>= fun x => pure (f x) : Q β) s = .error e := by
  show Q.bind _ _ s = _
  unfold Q.bind; rw [h]

theorem sizedQ_error {q : Q α} {n : Nat} {s : List Byte} {e : DErr} (h : q (s.take n) = .error e) : sizedQ q n s = .error e := by
  unfold sizedQ; rw [h]

theorem sizedQ_ok {q : Q α} {n : Nat} {s r : List Byte} {x : α} (h : q (s.take n) = .ok (x, r)) (hc : r = [] ∧ n ≤ s.length) :
    sizedQ q n s = .ok (x, s.drop n) := by
  unfold sizedQ; rw [h]; exact if_pos hc

theorem sizedQ_bad {q : Q α} {n : Nat} {s r : List Byte} {x : α} (h : q (s.take n) = .ok (x, r)) (hc : ¬ (r = [] ∧ n ≤ s.length)) :
    sizedQ q n s = .error .remainingBytesInStream := by
  unfold sizedQ; rw [h]; exact if_neg hc

theorem sizedQ_map (q : Q α) (f : α → β) (n : Nat) : sizedQ (q >>= fun x => pure (f x)) n = sizedQ q n >>= fun x => pure (f x) := by
  funext s
  match h : q (s.take n) with
  | .error e =>
    exact (sizedQ_error (Q.map_error f h)).trans (Q.map_error f (sizedQ_error h)).symm
  | .ok (x, r) =>
    by_cases hc : r = [] ∧ n ≤ s.length
    · exact (sizedQ_ok (Q.map_ok f h) hc).trans (Q.map_ok f (sizedQ_ok h hc)).symm
    · exact (sizedQ_bad (Q.map_ok f h) hc).trans (Q.map_error f (sizedQ_bad h hc)).symm

theorem dSized_map (q : Q α) (f : α → β) : dSized (q >>= fun x => pure (f x)) = dSized q >>= fun x => pure (f x) := by
  rw [dSized_eq, dSized_eq, Q.bind_assoc]
  congr 1; funext n
  exact sizedQ_map q f _

theorem dN_map (q : Q α) (f : α → β) : ∀ n, dN n (q >>= fun x => pure (f x)) = dN n q >>= fun xs => pure (xs.map f)
  | 0 => rfl
  | n + 1 => by
    unfold dN
    rw [Q.bind_assoc, Q.bind_assoc, dN_map q f n]
    congr 1; funext x
    rw [Q.bind_assoc]
    refine Eq.trans (b := (dN n q >>= fun xs => pure (xs.map f)) >>= fun xs => pure (f x :: xs)) rfl ?_
    rw [Q.bind_assoc]; rfl

theorem dVec_map (q : Q α) (f : α → β) : dVec (q >>= fun x => pure (f x)) = dVec q >>= fun xs => pure (xs.map f) := by
  unfold dVec
  rw [Q.bind_assoc]
  congr 1; funext n
  exact dN_map q f _

end

/-! ## Sections -/

/-- The effect of a section on the state of `Module::parse`. -/
def applySec (st : LoopState) : Sec → Option LoopState
  | .custom _ _ => some st
  | .types x => some { st with result := { st.result with types := x } }
  | .imports x => some { st with result := { st.result with imports := x } }
  | .funcs x => some { st with funcTypes := x }
  | .tables x => some { st with result := { st.result with tables := x } }
  | .mems x => some { st with result := { st.result with mems := x } }
  | .globals x => some { st with result := { st.result with globals := x } }
  | .exports x => some { st with result := { st.result with exports := x } }
  | .start x => some { st with result := { st.result with start := some x } }
  | .elems x => some { st with result := { st.result with elem := x } }
  | .code x =>
    if x.length = st.funcTypes.length then
      some { st with result := { st.result with funcs := List.zipWith (fun t f => { f with ty := t }) st.funcTypes (x.map Body.func) } }
    else none
  | .data x => some { st with result := { st.result with data := x } }

/-- A section read, then applied. -/
def applyTo (st : LoopState) : Except DErr (Sec × List Byte) → Except DErr (LoopState × List Byte)
  | .error e => .error e
  | .ok (sec, r) =>
    match applySec st sec with
    | some st' => .ok (st', r)
    | none => .error .unexpectedEndOfStream

theorem ofP_arm {α : Type} {p : P α} {q : Q α} {st : LoopState} (f : α → Sec) (g : α → LoopState) (hp : ∀ s, (p s).2 <:+ s) (h : ofP p = q)
    (ha : ∀ x, applySec st (f x) = some (g x)) (r : List Byte) :
    ofP (parseSized p >>= fun x => pure (g x)) r = applyTo st (dSized (q >>= fun x => pure (f x)) r) := by
  rw [ofP_bind, ofP_sized hp h, dSized_map]
  match hq : dSized q r with
  | .error e => exact (Q.map_error g hq).trans (congrArg (applyTo st) (Q.map_error f hq)).symm
  | .ok (x, r') =>
    refine (Q.map_ok g hq).trans (Eq.trans ?_ (congrArg (applyTo st) (Q.map_ok f hq)).symm)
    simp only [applyTo, ha x]

theorem listLoop_bytes : ∀ (n : Nat) (s : List Byte), s.length < n → listLoop dByte n s = .ok (s, [])
  | 0, _, h => by omega
  | n + 1, [], _ => rfl
  | n + 1, b :: s, h => by
    have ih := listLoop_bytes n s (by simpa using h)
    show Q.bind dByte (fun x => listLoop dByte n >>= fun xs => pure (x :: xs)) (b :: s) = _
    exact Q.map_ok (fun xs => b :: xs) ih

theorem dList_byte (s : List Byte) : dList dByte s = .ok (s, []) := listLoop_bytes _ s (by omega)

theorem ofP_custom : ofP parseCustom = dCustom >>= fun sec => pure (match sec with | .custom name payload => (name, payload.length) | _ => ([], 0)) := by
  unfold parseCustom dCustom
  rw [ofP_bind, ofP_string, Q.bind_assoc]
  congr 1; funext name
  rw [ofP_bind, Q.bind_assoc]
  funext s
  exact (Q.map_ok (fun payload => (name, payload.length)) (dList_byte s)).symm

theorem dSized_map_inv {α β : Type} {q : Q α} {f : α → β} {s r : List Byte} {y : β}
    (h : dSized (q >>= fun x => pure (f x)) s = .ok (y, r)) : ∃ x, y = f x := by
  rw [dSized_map] at h
  match hq : dSized q s with
  | .error e => exact absurd ((Q.map_error f hq).symm.trans h) (by simp)
  | .ok (x', r') =>
    have := (Q.map_ok f hq).symm.trans h
    simp only [Except.ok.injEq, Prod.mk.injEq] at this
    exact ⟨_, this.1.symm⟩

theorem dSized_custom {s r : List Byte} {x : Sec} (h : dSized dCustom s = .ok (x, r)) : ∃ name payload, x = .custom name payload := by
  have h0 : dCustom = (do let name ← dString; let payload ← dList dByte; pure (name, payload) : Q (Name × List Byte)) >>=
      fun x => pure (.custom x.1 x.2) := by
    unfold dCustom
    rw [Q.bind_assoc]
    congr 1; funext name
    rw [Q.bind_assoc]; rfl
  rw [h0] at h
  obtain ⟨x, rfl⟩ := dSized_map_inv h
  exact ⟨_, _, rfl⟩

theorem ofP_section (id : Byte) (st : LoopState) (r : List Byte) : ofP (parseSection id st) r = applyTo st (dSection (id :: r)) := by
  unfold parseSection
  split
  case h_13 =>
    have : dSection (id :: r) = .error (.invalidEnumDiscriminant id) := by
      unfold dSection dSizedEnum
      simp only [List.map_cons, List.map_nil, dEnum_cons, disc, dEnum_nil, beq_toNat]
      simp_all
    rw [this]; rfl
  all_goals
    rename_i hc
    obtain rfl := byte_of_toNat hc
  · rw [ofP_bind, ofP_sized safe_custom.forward ofP_custom, dSized_map, Q.bind_assoc]
    have h0 : dSection (0 :: r) = dSized dCustom r := rfl
    refine Eq.trans ?_ (congrArg (applyTo st) h0).symm
    match hq : dSized dCustom r with
    | .error e => exact Q.map_error (fun _ => st) hq
    | .ok (x, r') =>
      obtain ⟨name, payload, rfl⟩ := dSized_custom hq
      exact Q.map_ok (fun _ => st) hq
  · exact ofP_arm .types _ (good_vec good_funcTy).forward (ofP_vec ofP_funcTy) (fun _ => rfl) r
  · exact ofP_arm .imports _ (good_vec good_import).forward (ofP_vec ofP_import) (fun _ => rfl) r
  · exact ofP_arm .funcs _ (good_vec good_idx).forward (ofP_vec ofP_idx) (fun _ => rfl) r
  · exact ofP_arm .tables _ (good_vec good_table).forward (ofP_vec ofP_table) (fun _ => rfl) r
  · exact ofP_arm .mems _ (good_vec good_mem).forward (ofP_vec ofP_mem) (fun _ => rfl) r
  · exact ofP_arm .globals _ (good_vec good_global).forward (ofP_vec ofP_global) (fun _ => rfl) r
  · exact ofP_arm .exports _ (good_vec good_export).forward (ofP_vec ofP_export) (fun _ => rfl) r
  · exact ofP_arm .start _ good_start.forward ofP_start (fun _ => rfl) r
  · exact ofP_arm .elems _ (good_vec good_elem).forward (ofP_vec ofP_elem) (fun _ => rfl) r
  · rw [ofP_bind, unwrappingVec_id, ofP_sized (good_vec (good_sized good_func)).forward (ofP_vec (ofP_sized good_func.forward ofP_func)),
      dSized_map, dVec_map, dSized_map, Q.bind_assoc]
    have h0 : dSection (10 :: r) = dSized (dVec dFunction >>= fun x => pure (.code x)) r := rfl
    refine Eq.trans ?_ (congrArg (applyTo st) h0).symm
    rw [dSized_map]
    match hq : dSized (dVec dFunction) r with
    | .error e =>
      refine Eq.trans ?_ (congrArg (applyTo st) (Q.map_error Sec.code hq)).symm
      show Q.bind (dSized (dVec dFunction)) _ r = _
      unfold Q.bind; rw [hq]; rfl
    | .ok (x, r') =>
      refine Eq.trans ?_ (congrArg (applyTo st) (Q.map_ok Sec.code hq)).symm
      show Q.bind (dSized (dVec dFunction)) _ r = _
      unfold Q.bind; rw [hq]
      show ofP (if (x.map Body.func).length ≠ st.funcTypes.length then P.fail .unexpectedEndOfFile else
        match assignTys st.funcTypes st.funcTypes.length (x.map Body.func) with
        | none => P.fail .panic
        | some funcs => pure { st with result := { st.result with funcs := funcs } } : P LoopState) r' = _
      by_cases hl : x.length = st.funcTypes.length
      · rw [assignTys_eq _ _ (by simpa using hl.symm)]
        have h2 : applySec st (.code x) = some _ := if_pos hl
        have hl' : ¬ (x.map Body.func).length ≠ st.funcTypes.length := by simpa using hl
        simp only [applyTo, h2, if_neg hl']
        rfl
      · have hl' : (x.map Body.func).length ≠ st.funcTypes.length := by simpa using hl
        have h2 : applySec st (.code x) = none := if_neg hl
        simp only [applyTo, h2, if_pos hl']
        rfl
  · exact ofP_arm .data _ (good_vec good_data).forward (ofP_vec ofP_data) (fun _ => rfl) r

theorem section_error {s : List Byte} {e : DErr} (h : dSection s = .error e) : e ≠ .panic ∧ e ≠ .fuel := by
  cases s with
  | nil => cases h; simp
  | cons id r =>
    have h1 := ofP_section id {} r
    rw [h] at h1
    have h2 := safe_section id {}
    have h3 := h2.noPanic r
    have h4 := h2.noFuel r
    unfold ofP at h1
    simp only [applyTo] at h1
    split at h1
    · cases h1
    · rename_i e' _ he
      rw [he] at h3 h4
      cases h1
      cases e' <;> simp_all [errorOf]

/-- One section in `Module::parse`: the order is checked, then the section is applied. -/
def stepSec (st : LoopState) (sec : Sec) : Option LoopState :=
  if secId sec = 0 then applySec st sec
  else if secId sec ≤ st.lastId then none
  else applySec { st with lastId := secId sec } sec

theorem dSizedEnum_inv {α : Type} {vs : List (Variant α)} {b : Byte} {r r' : List Byte} {x : α} (h : dSizedEnum vs (b :: r) = .ok (x, r')) :
    ∃ v ∈ vs, v.pattern b = true ∧ dSized v.content (if v.forward then b :: r else r) = .ok (x, r') := by
  unfold dSizedEnum at h
  induction vs with
  | nil => cases h
  | cons v vs ih =>
    rw [List.map_cons, dEnum_cons] at h
    by_cases hb : v.pattern b = true
    · rw [if_pos hb] at h; exact ⟨v, by simp, hb, h⟩
    · rw [if_neg hb] at h
      obtain ⟨v', h1, h2⟩ := ih h
      exact ⟨v', by simp [h1], h2⟩

theorem dSection_id {id : Byte} {r r' : List Byte} {sec : Sec} (h : dSection (id :: r) = .ok (sec, r')) : secId sec = id := by
  obtain ⟨v, hv, hp, hc⟩ := dSizedEnum_inv h
  simp only [List.mem_cons, List.not_mem_nil, or_false] at hv
  rcases hv with rfl | hv
  · obtain ⟨_, _, rfl⟩ := dSized_custom hc
    exact (beq_iff_eq.mp hp).symm
  rcases hv with rfl | rfl | rfl | rfl | rfl | rfl | rfl | rfl | rfl | rfl | rfl
  all_goals
    obtain ⟨_, rfl⟩ := dSized_map_inv hc
    exact (beq_iff_eq.mp hp).symm

theorem iteration_iff (st : LoopState) (s : List Byte) (st' : LoopState) (r : List Byte) :
    parseIteration st s = (.ok st', r) ↔ ∃ sec, dSection s = .ok (sec, r) ∧ stepSec st sec = some st' := by
  have key : ∀ (id : Byte) (st : LoopState) (s' : List Byte), parseSection id st s' = (.ok st', r) ↔
      ∃ sec, dSection (id :: s') = .ok (sec, r) ∧ applySec st sec = some st' := by
    intro id st s'
    have h1 := ofP_section id st s'
    constructor
    · intro h
      have h2 : ofP (parseSection id st) s' = .ok (st', r) := by unfold ofP; rw [h]
      rw [h2] at h1
      match hd : dSection (id :: s') with
      | .error e => rw [hd] at h1; simp [applyTo] at h1
      | .ok (sec, r') =>
        rw [hd] at h1
        simp only [applyTo] at h1
        split at h1
        · next h3 => simp only [Except.ok.injEq, Prod.mk.injEq] at h1; exact ⟨sec, by rw [h1.2], by rw [h3, h1.1]⟩
        · simp at h1
    · rintro ⟨sec, h2, h3⟩
      rw [h2] at h1
      simp only [applyTo, h3] at h1
      exact ofP_ok h1
  cases s with
  | nil =>
    constructor
    · intro h; cases h
    · rintro ⟨sec, h, _⟩; cases h
  | cons id s' =>
    have h0 : parseIteration st (id :: s') = (if id ≠ 0x00 then
      if id ≤ st.lastId then P.fail (.unexpectedSectionId id)
      else parseSection id { st with lastId := id }
      else parseSection id st : P LoopState) s' := rfl
    rw [h0]
    unfold stepSec
    by_cases hid : id = 0
    · subst hid
      rw [if_neg (by simp)]
      rw [key]
      constructor
      · rintro ⟨sec, h1, h2⟩; exact ⟨sec, h1, by rw [if_pos (dSection_id h1)]; exact h2⟩
      · rintro ⟨sec, h1, h2⟩; rw [if_pos (dSection_id h1)] at h2; exact ⟨sec, h1, h2⟩
    · rw [if_pos hid]
      by_cases hle : id ≤ st.lastId
      · rw [if_pos hle]
        constructor
        · intro h; cases h
        · rintro ⟨sec, h1, h2⟩
          rw [dSection_id h1, if_neg hid, if_pos hle] at h2; cases h2
      · rw [if_neg hle, key]
        constructor
        · rintro ⟨sec, h1, h2⟩; exact ⟨sec, h1, by rw [dSection_id h1, if_neg hid, if_neg hle]; exact h2⟩
        · rintro ⟨sec, h1, h2⟩
          rw [dSection_id h1, if_neg hid, if_neg hle] at h2; exact ⟨sec, h1, h2⟩

theorem loop_iff : ∀ (fuel : Nat) (st : LoopState) (s : List Byte) (m : Module) (r : List Byte),
    sectionLoop fuel st s = (.ok m, r) ↔ ∃ secs st', listLoop dSection fuel s = .ok (secs, r) ∧ secs.foldlM stepSec st = some st' ∧ st'.result = m
  | 0, st, s, m, r => by
    constructor
    · intro h; cases h
    · rintro ⟨_, _, h, _⟩; cases h
  | fuel + 1, st, [], m, r => by
    constructor
    · intro h
      cases h
      exact ⟨[], st, rfl, rfl, rfl⟩
    · rintro ⟨secs, st', h1, h2, rfl⟩
      cases h1
      cases h2
      rfl
  | fuel + 1, st, b :: s, m, r => by
    have h0 : sectionLoop (fuel + 1) st (b :: s) = (parseIteration st >>= sectionLoop fuel) (b :: s) := rfl
    have h1 : listLoop dSection (fuel + 1) (b :: s) = Q.bind dSection (fun x => listLoop dSection fuel >>= fun xs => pure (x :: xs)) (b :: s) := rfl
    rw [h0, h1, bind_ok_iff]
    simp only [iteration_iff, loop_iff fuel]
    constructor
    · rintro ⟨st1, s1, ⟨sec, hs, hst⟩, secs, st', h2, h3, h4⟩
      refine ⟨sec :: secs, st', ?_, by simp [List.foldlM_cons, hst, h3], h4⟩
      unfold Q.bind; rw [hs]
      exact Q.map_ok (fun xs => sec :: xs) h2
    · rintro ⟨secs, st', h2, h3, h4⟩
      unfold Q.bind at h2
      match hs : dSection (b :: s) with
      | .error e => rw [hs] at h2; cases h2
      | .ok (sec, s1) =>
        rw [hs] at h2
        match hl : listLoop dSection fuel s1 with
        | .error e => exact absurd ((Q.map_error (fun xs => sec :: xs) hl).symm.trans h2) (by simp)
        | .ok (secs', r') =>
          have h5 := (Q.map_ok (fun xs => sec :: xs) hl).symm.trans h2
          simp only [Except.ok.injEq, Prod.mk.injEq] at h5
          obtain ⟨rfl, rfl⟩ := h5
          match hst : stepSec st sec with
          | none => simp [List.foldlM_cons, hst] at h3
          | some st1 =>
            simp only [List.foldlM_cons, hst, Option.bind_eq_bind, Option.bind_some] at h3
            exact ⟨st1, s1, ⟨sec, rfl, hst⟩, secs', st', hl, h3, h4⟩

/-! ## All sections -/

/-- The parts of the state that a section with a number greater than the last one would set are empty. -/
structure Fresh (st : LoopState) : Prop where
  types : st.lastId.toNat < 1 → st.result.types = []
  imports : st.lastId.toNat < 2 → st.result.imports = []
  funcTypes : st.lastId.toNat < 3 → st.funcTypes = []
  tables : st.lastId.toNat < 4 → st.result.tables = []
  mems : st.lastId.toNat < 5 → st.result.mems = []
  globals : st.lastId.toNat < 6 → st.result.globals = []
  exports : st.lastId.toNat < 7 → st.result.exports = []
  start : st.lastId.toNat < 8 → st.result.start = none
  elem : st.lastId.toNat < 9 → st.result.elem = []
  funcs : st.lastId.toNat < 10 → st.result.funcs = []
  data : st.lastId.toNat < 11 → st.result.data = []

/-- The module of a state and the sections to come. -/
def onto (st : LoopState) (secs : List Sec) : Module where
  types := st.result.types ++ typesOf secs
  imports := st.result.imports ++ importsOf secs
  funcs := st.result.funcs ++
    List.zipWith (fun ty c => { ty := ty, locals := c.locals, body := c.code }) (st.funcTypes ++ funcsOf secs) (codeOf secs)
  tables := st.result.tables ++ tablesOf secs
  mems := st.result.mems ++ memsOf secs
  globals := st.result.globals ++ globalsOf secs
  exports := st.result.exports ++ exportsOf secs
  start := st.result.start.or (startOf secs)
  elem := st.result.elem ++ elemsOf secs
  data := st.result.data ++ dataOf secs

theorem ids_cons (sec : Sec) (secs : List Sec) : ids (sec :: secs) = if secId sec = 0 then ids secs else secId sec :: ids secs := by
  unfold ids
  rw [List.map_cons, List.filter_cons]
  by_cases h : secId sec = 0 <;> simp [h]

theorem mem_ids {sec : Sec} {secs : List Sec} (h : sec ∈ secs) (h0 : secId sec ≠ 0) : secId sec ∈ ids secs := by
  unfold ids
  exact List.mem_filter.mpr ⟨List.mem_map_of_mem h, by simpa using h0⟩

theorem flatMap_nil_of_ids {α : Type} {f : Sec → List α} {k : Byte} (hk : k ≠ 0) (hf : ∀ sec, secId sec ≠ k → f sec = []) {secs : List Sec}
    (h : k ∉ ids secs) : secs.flatMap f = [] := by
  rw [List.flatMap_eq_nil_iff]
  intro sec hs
  refine hf sec fun he => h ?_
  rw [← he]
  exact mem_ids hs (by rwa [he])

/-- What `fold_iff` says of a state and the sections to come. -/
def FoldOk (st : LoopState) (secs : List Sec) : Prop := ∀ m : Module,
    (∃ st', secs.foldlM stepSec st = some st' ∧ st'.result = m) ↔
    (st.lastId :: ids secs).Pairwise (· < ·) ∧ (∀ c, .code c ∈ secs → c.length = (st.funcTypes ++ funcsOf secs).length) ∧ m = onto st secs

theorem pairwise_skip {k l : Byte} {xs : List Byte} (h : k < l) :
    (k :: l :: xs).Pairwise (· < ·) ↔ (l :: xs).Pairwise (· < ·) := by
  rw [List.pairwise_cons]
  constructor
  · exact fun h => h.2
  · intro h2
    refine ⟨fun x hx => ?_, h2⟩
    rcases List.mem_cons.mp hx with rfl | hx
    · exact h
    · exact UInt8.lt_trans h ((List.pairwise_cons.mp h2).1 x hx)

theorem fold_case {st st1 : LoopState} {sec : Sec} {secs : List Sec} (h0 : secId sec ≠ 0)
    (hid : st1.lastId = secId sec)
    (happ : st.lastId < secId sec → applySec { st with lastId := secId sec } sec = some st1)
    (hcount : st.lastId < secId sec → (secId sec :: ids secs).Pairwise (· < ·) →
      ((∀ c, .code c ∈ sec :: secs → c.length = (st.funcTypes ++ funcsOf (sec :: secs)).length) ↔
        ∀ c, .code c ∈ secs → c.length = (st1.funcTypes ++ funcsOf secs).length))
    (honto : st.lastId < secId sec → (secId sec :: ids secs).Pairwise (· < ·) → onto st (sec :: secs) = onto st1 secs)
    (ih : st.lastId < secId sec → FoldOk st1 secs) : FoldOk st (sec :: secs) := by
  intro m
  rw [List.foldlM_cons, ids_cons, if_neg h0]
  unfold stepSec
  rw [if_neg h0]
  by_cases hle : secId sec ≤ st.lastId
  · rw [if_pos hle]
    constructor
    · rintro ⟨_, h, _⟩; cases h
    · rintro ⟨h, _⟩
      have := (List.pairwise_cons.mp h).1 (secId sec) (by simp)
      exact absurd this (UInt8.not_lt.mpr hle)
  · have hlt : st.lastId < secId sec := UInt8.not_le.mp hle
    rw [if_neg hle, happ hlt, pairwise_skip hlt]
    have := ih hlt m
    rw [hid] at this
    refine Iff.trans this ?_
    constructor
    · rintro ⟨h1, h2, rfl⟩; exact ⟨h1, (hcount hlt h1).mpr h2, (honto hlt h1).symm⟩
    · rintro ⟨h1, h2, rfl⟩; exact ⟨h1, (hcount hlt h1).mp h2, honto hlt h1⟩

/-- `Fresh` after a section with number `k` has been applied. -/
theorem fresh_step {st st1 : LoopState} {k : Nat} (hf : Fresh st) (h1 : st1.lastId.toNat = k) (hk : st.lastId.toNat < k)
    (htypes : k = 1 ∨ st1.result.types = st.result.types) (himports : k = 2 ∨ st1.result.imports = st.result.imports)
    (hfuncTypes : k = 3 ∨ st1.funcTypes = st.funcTypes) (htables : k = 4 ∨ st1.result.tables = st.result.tables)
    (hmems : k = 5 ∨ st1.result.mems = st.result.mems) (hglobals : k = 6 ∨ st1.result.globals = st.result.globals)
    (hexports : k = 7 ∨ st1.result.exports = st.result.exports) (hstart : k = 8 ∨ st1.result.start = st.result.start)
    (helem : k = 9 ∨ st1.result.elem = st.result.elem) (hfuncs : k = 10 ∨ st1.result.funcs = st.result.funcs)
    (hdata : k = 11 ∨ st1.result.data = st.result.data) : Fresh st1 where
  types h := by rw [htypes.resolve_left (by omega)]; exact hf.types (by omega)
  imports h := by rw [himports.resolve_left (by omega)]; exact hf.imports (by omega)
  funcTypes h := by rw [hfuncTypes.resolve_left (by omega)]; exact hf.funcTypes (by omega)
  tables h := by rw [htables.resolve_left (by omega)]; exact hf.tables (by omega)
  mems h := by rw [hmems.resolve_left (by omega)]; exact hf.mems (by omega)
  globals h := by rw [hglobals.resolve_left (by omega)]; exact hf.globals (by omega)
  exports h := by rw [hexports.resolve_left (by omega)]; exact hf.exports (by omega)
  start h := by rw [hstart.resolve_left (by omega)]; exact hf.start (by omega)
  elem h := by rw [helem.resolve_left (by omega)]; exact hf.elem (by omega)
  funcs h := by rw [hfuncs.resolve_left (by omega)]; exact hf.funcs (by omega)
  data h := by rw [hdata.resolve_left (by omega)]; exact hf.data (by omega)

theorem fold_iff : ∀ (secs : List Sec) (st : LoopState), Fresh st → FoldOk st secs
  | [], st, _ => by
    intro m
    simp [ids, onto, typesOf, importsOf, funcsOf, tablesOf, memsOf, globalsOf, exportsOf, startOf, elemsOf, codeOf, dataOf, eq_comm]
  | .custom n p :: secs, st, hf => by
    intro m
    have := fold_iff secs st hf m
    simpa [stepSec, applySec, secId, ids, onto, typesOf, importsOf, funcsOf, tablesOf, memsOf, globalsOf, exportsOf, startOf, elemsOf, codeOf,
      dataOf] using this
  | .types x :: secs, st, hf => by
    refine fold_case (by simp [secId]) rfl (fun _ => rfl) (fun _ _ => by simp [funcsOf]) (fun h _ => ?_) fun h => fold_iff secs _
      (fresh_step (k := 1) hf rfl h (.inl rfl) (.inr rfl) (.inr rfl) (.inr rfl) (.inr rfl) (.inr rfl) (.inr rfl) (.inr rfl) (.inr rfl) (.inr rfl) (.inr rfl))
    simp [onto, hf.types h, typesOf, importsOf, funcsOf, tablesOf, memsOf, globalsOf, exportsOf, startOf, elemsOf, codeOf, dataOf]
  | .imports x :: secs, st, hf => by
    refine fold_case (by simp [secId]) rfl (fun _ => rfl) (fun _ _ => by simp [funcsOf]) (fun h _ => ?_) fun h => fold_iff secs _
      (fresh_step (k := 2) hf rfl h (.inr rfl) (.inl rfl) (.inr rfl) (.inr rfl) (.inr rfl) (.inr rfl) (.inr rfl) (.inr rfl) (.inr rfl) (.inr rfl) (.inr rfl))
    simp [onto, hf.imports h, typesOf, importsOf, funcsOf, tablesOf, memsOf, globalsOf, exportsOf, startOf, elemsOf, codeOf, dataOf]
  | .funcs x :: secs, st, hf => by
    refine fold_case (by simp [secId]) rfl (fun _ => rfl) (fun h _ => by simp [funcsOf, hf.funcTypes h]) (fun h _ => ?_) fun h => fold_iff secs _
      (fresh_step (k := 3) hf rfl h (.inr rfl) (.inr rfl) (.inl rfl) (.inr rfl) (.inr rfl) (.inr rfl) (.inr rfl) (.inr rfl) (.inr rfl) (.inr rfl) (.inr rfl))
    simp [onto, hf.funcTypes h, typesOf, importsOf, funcsOf, tablesOf, memsOf, globalsOf, exportsOf, startOf, elemsOf, codeOf, dataOf]
  | .tables x :: secs, st, hf => by
    refine fold_case (by simp [secId]) rfl (fun _ => rfl) (fun _ _ => by simp [funcsOf]) (fun h _ => ?_) fun h => fold_iff secs _
      (fresh_step (k := 4) hf rfl h (.inr rfl) (.inr rfl) (.inr rfl) (.inl rfl) (.inr rfl) (.inr rfl) (.inr rfl) (.inr rfl) (.inr rfl) (.inr rfl) (.inr rfl))
    simp [onto, hf.tables h, typesOf, importsOf, funcsOf, tablesOf, memsOf, globalsOf, exportsOf, startOf, elemsOf, codeOf, dataOf]
  | .mems x :: secs, st, hf => by
    refine fold_case (by simp [secId]) rfl (fun _ => rfl) (fun _ _ => by simp [funcsOf]) (fun h _ => ?_) fun h => fold_iff secs _
      (fresh_step (k := 5) hf rfl h (.inr rfl) (.inr rfl) (.inr rfl) (.inr rfl) (.inl rfl) (.inr rfl) (.inr rfl) (.inr rfl) (.inr rfl) (.inr rfl) (.inr rfl))
    simp [onto, hf.mems h, typesOf, importsOf, funcsOf, tablesOf, memsOf, globalsOf, exportsOf, startOf, elemsOf, codeOf, dataOf]
  | .globals x :: secs, st, hf => by
    refine fold_case (by simp [secId]) rfl (fun _ => rfl) (fun _ _ => by simp [funcsOf]) (fun h _ => ?_) fun h => fold_iff secs _
      (fresh_step (k := 6) hf rfl h (.inr rfl) (.inr rfl) (.inr rfl) (.inr rfl) (.inr rfl) (.inl rfl) (.inr rfl) (.inr rfl) (.inr rfl) (.inr rfl) (.inr rfl))
    simp [onto, hf.globals h, typesOf, importsOf, funcsOf, tablesOf, memsOf, globalsOf, exportsOf, startOf, elemsOf, codeOf, dataOf]
  | .exports x :: secs, st, hf => by
    refine fold_case (by simp [secId]) rfl (fun _ => rfl) (fun _ _ => by simp [funcsOf]) (fun h _ => ?_) fun h => fold_iff secs _
      (fresh_step (k := 7) hf rfl h (.inr rfl) (.inr rfl) (.inr rfl) (.inr rfl) (.inr rfl) (.inr rfl) (.inl rfl) (.inr rfl) (.inr rfl) (.inr rfl) (.inr rfl))
    simp [onto, hf.exports h, typesOf, importsOf, funcsOf, tablesOf, memsOf, globalsOf, exportsOf, startOf, elemsOf, codeOf, dataOf]
  | .start x :: secs, st, hf => by
    refine fold_case (by simp [secId]) rfl (fun _ => rfl) (fun _ _ => by simp [funcsOf]) (fun h _ => ?_) fun h => fold_iff secs _
      (fresh_step (k := 8) hf rfl h (.inr rfl) (.inr rfl) (.inr rfl) (.inr rfl) (.inr rfl) (.inr rfl) (.inr rfl) (.inl rfl) (.inr rfl) (.inr rfl) (.inr rfl))
    simp [onto, hf.start h, typesOf, importsOf, funcsOf, tablesOf, memsOf, globalsOf, exportsOf, startOf, elemsOf, codeOf, dataOf]
  | .elems x :: secs, st, hf => by
    refine fold_case (by simp [secId]) rfl (fun _ => rfl) (fun _ _ => by simp [funcsOf]) (fun h _ => ?_) fun h => fold_iff secs _
      (fresh_step (k := 9) hf rfl h (.inr rfl) (.inr rfl) (.inr rfl) (.inr rfl) (.inr rfl) (.inr rfl) (.inr rfl) (.inr rfl) (.inl rfl) (.inr rfl) (.inr rfl))
    simp [onto, hf.elem h, typesOf, importsOf, funcsOf, tablesOf, memsOf, globalsOf, exportsOf, startOf, elemsOf, codeOf, dataOf]
  | .data x :: secs, st, hf => by
    refine fold_case (by simp [secId]) rfl (fun _ => rfl) (fun _ _ => by simp [funcsOf]) (fun h _ => ?_) fun h => fold_iff secs _
      (fresh_step (k := 11) hf rfl h (.inr rfl) (.inr rfl) (.inr rfl) (.inr rfl) (.inr rfl) (.inr rfl) (.inr rfl) (.inr rfl) (.inr rfl) (.inr rfl) (.inl rfl))
    simp [onto, hf.data h, typesOf, importsOf, funcsOf, tablesOf, memsOf, globalsOf, exportsOf, startOf, elemsOf, codeOf, dataOf]
  | .code x :: secs, st, hf => by
    by_cases hl : x.length = st.funcTypes.length
    · refine fold_case (st1 := { st with
          lastId := 10
          result := { st.result with funcs := List.zipWith (fun t f => { f with ty := t }) st.funcTypes (x.map Body.func) } })
        (by simp [secId]) rfl (fun _ => if_pos hl) (fun h hp => ?_) (fun h hp => ?_) fun h => fold_iff secs _
        (fresh_step (k := 10) hf rfl h (.inr rfl) (.inr rfl) (.inr rfl) (.inr rfl) (.inr rfl) (.inr rfl) (.inr rfl) (.inr rfl) (.inr rfl) (.inl rfl) (.inr rfl))
      · have h3 : funcsOf secs = [] := flatMap_nil_of_ids (k := 3) (by simp) (by intro sec h; cases sec <;> first | rfl | exact absurd rfl h) (by
          intro h; have := (List.pairwise_cons.mp hp).1 _ h; simp [secId] at this)
        have h3' : funcsOf (.code x :: secs) = [] := h3
        rw [h3, h3']
        simp only [List.append_nil, List.mem_cons, Sec.code.injEq]
        constructor
        · exact fun h c hc => h c (.inr hc)
        · rintro h c (rfl | hc)
          · exact hl
          · exact h c hc
      · have h3 : funcsOf secs = [] := flatMap_nil_of_ids (k := 3) (by simp) (by intro sec h; cases sec <;> first | rfl | exact absurd rfl h) (by
          intro h; have := (List.pairwise_cons.mp hp).1 _ h; simp [secId] at this)
        have h10 : codeOf secs = [] := flatMap_nil_of_ids (k := 10) (by simp) (by intro sec h; cases sec <;> first | rfl | exact absurd rfl h) (by
          intro h; have := (List.pairwise_cons.mp hp).1 _ h; simp [secId] at this)
        have h3' : funcsOf (.code x :: secs) = [] := h3
        have h10' : codeOf (.code x :: secs) = x ++ codeOf secs := rfl
        have hfn := hf.funcs h
        unfold onto
        simp only [h3, h3', h10, h10', hfn]
        simp [typesOf, importsOf, tablesOf, memsOf, globalsOf, exportsOf, startOf, elemsOf, dataOf, Body.func, List.zipWith_map_right]
    · intro m
      constructor
      · rintro ⟨st', h, _⟩
        rw [List.foldlM_cons] at h
        have : stepSec st (.code x) = none := by
          unfold stepSec
          simp only [secId, applySec, if_neg hl]
          simp
        rw [this] at h; cases h
      · rintro ⟨h1, h2, _⟩
        exfalso
        rw [ids_cons, if_neg (by simp [secId])] at h1
        have hp := (List.pairwise_cons.mp h1).2
        have h3 : funcsOf secs = [] := flatMap_nil_of_ids (k := 3) (by simp) (by intro sec h; cases sec <;> first | rfl | exact absurd rfl h) (by
          intro h; have := (List.pairwise_cons.mp hp).1 _ h; simp [secId] at this)
        have h3' : funcsOf (.code x :: secs) = [] := h3
        have := h2 x (by simp)
        rw [h3'] at this
        exact hl (by simpa using this)

theorem onto_nil (secs : List Sec) : onto {} secs = assemble secs := by
  simp [onto, assemble]

theorem parseSections_iff (s : List Byte) (m : Module) (r : List Byte) : parseSections s = (.ok m, r) ↔
    ∃ secs, dList dSection s = .ok (secs, r) ∧ (ids secs).Pairwise (· < ·) ∧
      (∀ c, .code c ∈ secs → c.length = (funcsOf secs).length) ∧ m = assemble secs := by
  have h0 : Fresh {} := by constructor <;> intro _ <;> rfl
  show sectionLoop (s.length + 1) {} s = _ ↔ _
  rw [loop_iff]
  have key := fun secs => fold_iff secs {} h0 m
  constructor
  · rintro ⟨secs, st', h1, h2⟩
    obtain ⟨h3, h4, h5⟩ := (key secs).mp ⟨st', h2⟩
    exact ⟨secs, h1, (List.pairwise_cons.mp h3).2, by simpa using h4, by rw [h5, onto_nil]⟩
  · rintro ⟨secs, h1, h3, h4, h5⟩
    have h6 : ∀ k ∈ ids secs, (0 : Byte) < k := fun k hk => by
      have h7 := (List.mem_filter.mp hk).2
      exact UInt8.pos_iff_ne_zero.mpr (by simpa using h7)
    obtain ⟨st', h2⟩ := (key secs).mpr ⟨List.pairwise_cons.mpr ⟨h6, h3⟩, by simpa using h4, by rw [h5, onto_nil]⟩
    exact ⟨secs, st', h1, h2⟩

theorem bind_ok_q {α β : Type} {q : Q α} {f : α → Q β} {s : List Byte} {y : β} {r : List Byte} :
    (q >>= f) s = .ok (y, r) ↔ ∃ x s', q s = .ok (x, s') ∧ f x s' = .ok (y, r) := by
  show Q.bind q f s = _ ↔ _
  unfold Q.bind
  match hq : q s with
  | .error e => simp
  | .ok (x, s') =>
    constructor
    · intro h; exact ⟨x, s', rfl, h⟩
    · rintro ⟨x', s'', h1, h2⟩
      simp only [Except.ok.injEq, Prod.mk.injEq] at h1
      obtain ⟨rfl, rfl⟩ := h1
      exact h2

theorem ofP_ok_iff {α : Type} {p : P α} {s : List Byte} {x : α} {r : List Byte} : ofP p s = .ok (x, r) ↔ p s = (.ok x, r) := by
  constructor
  · exact ofP_ok
  · intro h; unfold ofP; rw [h]

theorem matching_ok {α : Type} {pat : α → Bool} {q : Q α} {s : List Byte} {x : α} {r : List Byte} :
    dMatching pat q s = .ok (x, r) ↔ q s = .ok (x, r) ∧ pat x = true := by
  unfold dMatching
  rw [bind_ok_q]
  constructor
  · rintro ⟨y, s', h1, h2⟩
    by_cases hp : pat y = true
    · rw [if_pos hp] at h2
      cases h2
      exact ⟨h1, hp⟩
    · rw [if_neg hp] at h2; cases h2
  · rintro ⟨h1, h2⟩
    refine ⟨x, r, h1, ?_⟩
    rw [if_pos h2]; rfl

theorem parseModule_sections (s : List Byte) (m : Module) (r : List Byte) : parseModule s = (.ok m, r) ↔
    ∃ secs, dModule s = .ok (secs, r) ∧ (ids secs).Pairwise (· < ·) ∧
      (∀ c, .code c ∈ secs → c.length = (funcsOf secs).length) ∧ m = assemble secs := by
  have h4 : ∀ {s : List Byte} {xs : List Byte} {r : List Byte}, dN 4 dByte s = .ok (xs, r) ↔ parseN 4 parseByte s = (.ok xs, r) := by
    intro s xs r
    rw [← ofP_N ofP_byte 4]; exact ofP_ok_iff
  have hm : parseModule s = (.ok m, r) ↔ ∃ m1 s1, parseN 4 parseByte s = (.ok m1, s1) ∧
      m1.map (fun b => b.toNat) = magicChars.map (fun c => c.toNat) ∧ ∃ v s2, parseN 4 parseByte s1 = (.ok v, s2) ∧ v = [1, 0, 0, 0] ∧
        parseSections s2 = (.ok m, r) := by
    unfold parseModule
    rw [bind_ok_iff]
    refine exists_congr fun m1 => exists_congr fun s1 => and_congr_right fun _ => ?_
    by_cases hm : m1.map (fun b => b.toNat) = magicChars.map (fun c => c.toNat)
    · rw [if_neg (not_not_intro hm), bind_ok_iff]
      simp only [hm, true_and]
      refine exists_congr fun v => exists_congr fun s2 => and_congr_right fun _ => ?_
      by_cases hv : v = [1, 0, 0, 0]
      · rw [if_neg (not_not_intro hv)]; simp [hv]
      · rw [if_pos hv]; simp [hv, P.fail]
    · rw [if_pos hm]; simp [hm, P.fail]
  rw [hm]
  have hd : ∀ secs, dModule s = .ok (secs, r) ↔ ∃ m1 s1, parseN 4 parseByte s = (.ok m1, s1) ∧
      m1.map (fun b => b.toNat) = magicChars.map (fun c => c.toNat) ∧ ∃ v s2, parseN 4 parseByte s1 = (.ok v, s2) ∧ v = [1, 0, 0, 0] ∧
        dList dSection s2 = .ok (secs, r) := by
    intro secs
    unfold dModule
    simp only [bind_ok_q, matching_ok, h4, beq_iff_eq, and_assoc]
  simp only [hd, parseSections_iff]
  constructor
  · rintro ⟨m1, s1, h1, h2, v, s2, h3, h4, secs, h5, h6⟩; exact ⟨secs, ⟨m1, s1, h1, h2, v, s2, h3, h4, h5⟩, h6⟩
  · rintro ⟨secs, ⟨m1, s1, h1, h2, v, s2, h3, h4, h5⟩, h6⟩; exact ⟨m1, s1, h1, h2, v, s2, h3, h4, secs, h5, h6⟩

theorem dSized_suffix {α : Type} {q : Q α} {s r : List Byte} {x : α} (h : dSized q s = .ok (x, r)) : r <:+ s := by
  rw [dSized_eq, bind_ok_q] at h
  obtain ⟨n, s1, h1, h2⟩ := h
  have hs : s1 <:+ s := by
    have := good_u32.forward s
    rw [ofP_ok (p := parseU32) h1] at this
    exact this
  unfold sizedQ at h2
  split at h2
  · cases h2
  · split at h2
    · cases h2
      exact (List.drop_suffix _ _).trans hs
    · cases h2

theorem dSection_consumes {s r : List Byte} {sec : Sec} (h : dSection s = .ok (sec, r)) : r.length < s.length := by
  cases s with
  | nil => cases h
  | cons b s' =>
    obtain ⟨v, hv, _, hc⟩ := dSizedEnum_inv h
    have hfw : v.forward = false := by
      simp only [List.mem_cons, List.not_mem_nil, or_false] at hv
      rcases hv with rfl | rfl | rfl | rfl | rfl | rfl | rfl | rfl | rfl | rfl | rfl | rfl <;> rfl
    rw [hfw] at hc
    have := (dSized_suffix hc).length_le
    simp only [Bool.false_eq_true, if_false] at this
    simp only [List.length_cons]
    omega

theorem listLoop_total : ∀ (n : Nat) (s : List Byte), s.length < n →
    (∃ secs, listLoop dSection n s = .ok (secs, [])) ∨
      ∃ e, listLoop dSection n s = .error e ∧ e ≠ .panic ∧ e ≠ .fuel
  | 0, _, h => by omega
  | n + 1, [], _ => .inl ⟨[], rfl⟩
  | n + 1, b :: s, h => by
    have h1 : listLoop dSection (n + 1) (b :: s) = Q.bind dSection (fun x => listLoop dSection n >>= fun xs => pure (x :: xs)) (b :: s) := rfl
    rw [h1]
    unfold Q.bind
    match hs : dSection (b :: s) with
    | .error e => exact .inr ⟨e, rfl, section_error hs⟩
    | .ok (sec, s1) =>
      have hlt := dSection_consumes hs
      rcases listLoop_total n s1 (by omega) with ⟨secs, h2⟩ | ⟨e, h2, h3⟩
      · exact .inl ⟨sec :: secs, Q.map_ok (fun xs => sec :: xs) h2⟩
      · exact .inr ⟨e, Q.map_error (fun xs => sec :: xs) h2, h3⟩

theorem dModule_total (s : List Byte) : (∃ secs, dModule s = .ok (secs, [])) ∨ ∃ e, dModule s = .error e ∧ e ≠ .panic ∧ e ≠ .fuel := by
  have key : ∀ {α : Type} {pat : List Byte → Bool} {f : List Byte → Q α} {P : Except DErr (α × List Byte) → Prop} {s : List Byte},
      (∀ x r, P (f x r)) → (∀ e, e ≠ .panic → e ≠ .fuel → P (.error e)) → P ((dMatching pat (dN 4 dByte) >>= f) s) := by
    intro α pat f P s h1 h2
    show P (Q.bind (dMatching pat (dN 4 dByte)) f s)
    unfold Q.bind
    match h : dMatching pat (dN 4 dByte) s with
    | .ok (x, r) => exact h1 x r
    | .error e =>
      unfold dMatching at h
      have hn : ∀ e, dN 4 dByte s = .error e → e ≠ .panic ∧ e ≠ .fuel := by
        intro e he
        rw [← ofP_N ofP_byte 4] at he
        have h3 := (good_parseN good_byte 4).noPanic s
        have h4 := noFuel_parseN noFuel_byte 4 s
        unfold ofP at he
        split at he
        · cases he
        · rename_i e' _ h5
          rw [h5] at h3 h4
          cases he
          cases e' <;> simp_all [errorOf]
      change Q.bind _ _ s = _ at h
      unfold Q.bind at h
      match hd : dN 4 dByte s with
      | .error e' => rw [hd] at h; cases h; exact h2 _ (hn _ hd).1 (hn _ hd).2
      | .ok (x, r) =>
        rw [hd] at h
        by_cases hp : pat x = true
        · simp only [if_pos hp] at h; cases h
        · simp only [if_neg hp] at h; cases h; exact h2 _ (by simp) (by simp)
  refine key (P := fun o => (∃ secs, o = .ok (secs, [])) ∨ ∃ e, o = .error e ∧ e ≠ .panic ∧ e ≠ .fuel) (fun _ r => ?_)
    (fun e h1 h2 => .inr ⟨e, rfl, h1, h2⟩)
  refine key (P := fun o => (∃ secs, o = .ok (secs, [])) ∨ ∃ e, o = .error e ∧ e ≠ .panic ∧ e ≠ .fuel) (fun _ r => ?_)
    (fun e h1 h2 => .inr ⟨e, rfl, h1, h2⟩)
  exact listLoop_total _ _ (by omega)

end Whasm.Decl
