import Verif.Lemmas.Items
import Verif.Spec.Sections

/-!
# The parser of modules
-/

namespace Whasm
open Spec

/-! ## Pairing of types and bodies -/

theorem setTy_ok {tys : List Idx} {funcs : List Func} {i : Nat} {f : Func} {ty : Idx} (h1 : funcs[i]? = some f) (h2 : tys[i]? = some ty) :
    setTy tys funcs i = some (funcs.set i { f with ty := ty }) := by
  unfold setTy; rw [h1, h2]

theorem foldlM_range_succ {β : Type} (f : β → Nat → Option β) (n : Nat) (x : β) :
    (List.range (n + 1)).foldlM f x = ((List.range n).foldlM f x).bind fun y => f y n := by
  rw [List.range_succ, List.foldlM_append]
  cases (List.range n).foldlM f x <;> simp

theorem assignTys_aux (tys : List Idx) (funcs : List Func) (h : tys.length = funcs.length) :
    ∀ n, n ≤ funcs.length → ∃ fs, assignTys tys n funcs = some fs ∧ fs.length = funcs.length ∧
      ∀ i, fs[i]? = if i < n then (do let f ← funcs[i]?; let t ← tys[i]?; pure { f with ty := t }) else funcs[i]? := by
  intro n
  induction n with
  | zero => intro _; exact ⟨funcs, rfl, rfl, fun i => by simp⟩
  | succ n ih =>
    intro hn
    obtain ⟨fs, h1, h2, h3⟩ := ih (by omega)
    have hf : fs[n]? = some funcs[n] := by rw [h3 n]; simp
    have ht : tys[n]? = some tys[n] := by simp
    refine ⟨fs.set n { funcs[n] with ty := tys[n] }, ?_, by simpa using h2, fun i => ?_⟩
    · unfold assignTys at h1 ⊢
      rw [foldlM_range_succ, h1]
      exact setTy_ok hf ht
    · rw [List.getElem?_set]
      by_cases hi : n = i
      · subst hi
        have hfn : funcs[n]? = some funcs[n] := by simp
        rw [if_pos rfl, if_pos (by omega), if_pos (by omega), hfn, ht]; rfl
      · rw [if_neg hi, h3 i]
        by_cases hlt : i < n
        · rw [if_pos hlt, if_pos (by omega)]
        · rw [if_neg hlt, if_neg (by omega)]

theorem assignTys_eq (tys : List Idx) (funcs : List Func) (h : tys.length = funcs.length) :
    assignTys tys tys.length funcs = some (List.zipWith (fun t f => { f with ty := t }) tys funcs) := by
  obtain ⟨fs, h1, h2, h3⟩ := assignTys_aux tys funcs h tys.length (by omega)
  rw [h1]
  congr 1
  apply List.ext_getElem?
  intro i
  rw [h3 i, List.getElem?_zipWith]
  by_cases hi : i < tys.length
  · rw [if_pos hi]
    have hf : funcs[i]? = some funcs[i] := by simp
    have ht : tys[i]? = some tys[i] := by simp
    rw [hf, ht]; rfl
  · rw [if_neg hi]
    have hf : funcs[i]? = none := by simp; omega
    have ht : tys[i]? = none := by simp; omega
    rw [hf, ht]

/-- The value `parseFunc` returns for locals and body. -/
def preFunc (c : List Val × Expr) : Func := { ty := 0, locals := c.1, body := c.2 }

theorem zip_preFunc (tys : List Idx) (codes : List (List Val × Expr)) :
    List.zipWith (fun t f => { f with ty := t }) tys (codes.map preFunc) = pairFuncs tys codes := by
  unfold pairFuncs
  rw [List.zipWith_map_right]
  rfl

section
variable {α β : Type}

theorem gseq_map {G : List Byte → α → Prop} (g : α → β) {b : List Byte} {ys : List β} :
    GSeq (fun b y => ∃ x, G b x ∧ y = g x) b ys ↔ ∃ xs, GSeq G b xs ∧ ys = xs.map g := by
  constructor
  · intro h
    induction h with
    | nil => exact ⟨[], .nil, rfl⟩
    | cons h1 _ ih =>
      obtain ⟨x, hx, rfl⟩ := h1
      obtain ⟨xs, hxs, rfl⟩ := ih
      exact ⟨x :: xs, .cons hx hxs, rfl⟩
  · rintro ⟨xs, h, rfl⟩
    induction h with
    | nil => exact .nil
    | cons h1 _ ih => exact .cons ⟨_, h1, rfl⟩ ih

theorem gvec_map {D : Dialect} {G : List Byte → α → Prop} (g : α → β) {b : List Byte} {ys : List β} :
    GVec D (fun b y => ∃ x, G b x ∧ y = g x) b ys ↔ ∃ xs, GVec D G b xs ∧ ys = xs.map g := by
  constructor
  · rintro ⟨h1, h2, h3⟩
    obtain ⟨xs, h4, rfl⟩ := (gseq_map g).mp h3
    exact ⟨xs, .mk h1 (by simpa using h2) h4, rfl⟩
  · rintro ⟨xs, ⟨h1, h2, h3⟩, rfl⟩
    exact .mk h1 (by simpa using h2) ((gseq_map g).mpr ⟨_, h3, rfl⟩)

theorem gsized_map {D : Dialect} {G : List Byte → α → Prop} (g : α → β) {b : List Byte} {y : β} :
    GSized D (fun b y => ∃ x, G b x ∧ y = g x) b y ↔ ∃ x, GSized D G b x ∧ y = g x := by
  constructor
  · rintro ⟨h1, h2, ⟨x, h3, rfl⟩⟩; exact ⟨x, .mk h1 h2 h3, rfl⟩
  · rintro ⟨x, ⟨h1, h2, h3⟩, rfl⟩; exact .mk h1 h2 ⟨x, h3, rfl⟩

theorem gsized_iff {D : Dialect} {G H : List Byte → α → Prop} (h : ∀ b x, G b x ↔ H b x) {b : List Byte} {x : α} :
    GSized D G b x ↔ GSized D H b x := by
  have : G = H := by funext b x; exact propext (h b x)
  rw [this]

end

/-! ## One section -/

/-- What the loop carries besides the last section number: function section and module so far. -/
abbrev SecState := List Idx × Module

/-- The effect of section `id` with content `b` (size included). -/
def Sec (id : Nat) (s : SecState) (b : List Byte) (s' : SecState) : Prop :=
  match id with
  | 1 => ∃ x, GSized .code (GVec .code (GFuncTy .code)) b x ∧ s' = (s.1, { s.2 with types := x })
  | 2 => ∃ x, GSized .code (GVec .code (GImport .code)) b x ∧ s' = (s.1, { s.2 with imports := x })
  | 3 => ∃ x, GSized .code (GVec .code Dialect.code.u32) b x ∧ s' = (x, s.2)
  | 4 => ∃ x, GSized .code (GVec .code (GTable .code)) b x ∧ s' = (s.1, { s.2 with tables := x })
  | 5 => ∃ x, GSized .code (GVec .code (GMem .code)) b x ∧ s' = (s.1, { s.2 with mems := x })
  | 6 => ∃ x, GSized .code (GVec .code (GGlobal .code)) b x ∧ s' = (s.1, { s.2 with globals := x })
  | 7 => ∃ x, GSized .code (GVec .code (GExport .code)) b x ∧ s' = (s.1, { s.2 with exports := x })
  | 8 => ∃ x, GSized .code (GStart .code) b x ∧ s' = (s.1, { s.2 with start := some x })
  | 9 => ∃ x, GSized .code (GVec .code (GElem .code)) b x ∧ s' = (s.1, { s.2 with elem := x })
  | 10 => ∃ x, GSized .code (GVec .code (GSized .code (GFunc .code))) b x ∧ x.length = s.1.length ∧
      s' = (s.1, { s.2 with funcs := pairFuncs s.1 x })
  | 11 => ∃ x, GSized .code (GVec .code (GData .code)) b x ∧ s' = (s.1, { s.2 with data := x })
  | _ => False

theorem parses_codeContent : Parses (parseSized (parseUnwrappingVec (fun f : Func => f) (parseSized parseFunc)))
    fun b fs => ∃ x, GSized .code (GVec .code (GSized .code (GFunc .code))) b x ∧ fs = x.map preFunc := by
  rw [unwrappingVec_id]
  refine (parses_sized (good_vec (good_sized good_func)) (parses_vec (parses_sized good_func parses_func))).congr fun b y => ?_
  refine Iff.trans ?_ (gsized_map (List.map preFunc))
  apply gsized_iff
  intro b x
  refine Iff.trans ?_ (gvec_map preFunc)
  have : GSized Dialect.code (fun b f => ∃ c, GFunc .code b c ∧ f = { ty := 0, locals := c.1, body := c.2 }) =
      fun b y => ∃ x, GSized .code (GFunc .code) b x ∧ y = preFunc x := by
    funext b x; exact propext (gsized_map preFunc)
  rw [this]

theorem parses_section_field {α : Type} {p : P α} {G : List Byte → α → Prop} (hg : Good p) (hp : Parses p G) (f : α → LoopState) (k : Byte)
    (hf : ∀ x, (f x).lastId = k) :
    Parses (parseSized p >>= fun x => pure (f x)) fun b st' => ∃ s', (∃ x, GSized .code G b x ∧
      s' = ((f x).funcTypes, (f x).result)) ∧ st' = ⟨s'.1, s'.2, k⟩ := by
  refine (Parses.map f (parses_sized hg hp)).congr fun b y => ⟨?_, ?_⟩
  · rintro ⟨x, h, rfl⟩; exact ⟨_, ⟨x, h, rfl⟩, by rw [← hf x]⟩
  · rintro ⟨_, ⟨x, h, rfl⟩, rfl⟩; exact ⟨x, h, by rw [← hf x]⟩

theorem parses_section (id : Byte) (hid : id ≠ 0) (st : LoopState) : Parses (parseSection id st) fun b st' =>
    ∃ s', Sec id.toNat (st.funcTypes, st.result) b s' ∧ st' = ⟨s'.1, s'.2, st.lastId⟩ := by
  unfold parseSection
  split
  case h_1 h => exact (hid (byte_of_toNat h)).elim
  case h_9 h =>
    rw [h]
    exact parses_section_field good_start parses_start _ _ fun _ => rfl
  case h_11 h =>
    rw [h]
    refine (Parses.bind parses_codeContent (H := fun x b st' => b = [] ∧ x.length = st.funcTypes.length ∧
      st' = { st with result := { st.result with funcs := List.zipWith (fun t f => { f with ty := t }) st.funcTypes x } })
      fun x => ?_).congr fun b st' => ⟨?_, ?_⟩
    · simp only
      split
      next hx => exact (parses_fail _).congr fun b y => ⟨False.elim, fun h => (hx h.2.1).elim⟩
      next hx =>
        have hx : x.length = st.funcTypes.length := by simpa using hx
        rw [assignTys_eq _ _ hx.symm]
        exact (parses_pure _).congr fun b y => ⟨fun h => ⟨h.1, hx, h.2⟩, fun h => ⟨h.1, h.2.2⟩⟩
    · rintro ⟨b1, _, _, ⟨x, h1, rfl⟩, ⟨rfl, h2, rfl⟩, rfl⟩
      rw [zip_preFunc]
      refine ⟨_, ⟨x, by simpa using h1, by simpa using h2, rfl⟩, rfl⟩
    · rintro ⟨_, ⟨x, h1, h2, rfl⟩, rfl⟩
      refine ⟨b, _, [], ⟨x, h1, rfl⟩, ⟨rfl, by simpa using h2, ?_⟩, by simp⟩
      rw [zip_preFunc]
  case h_13 h1 h2 h3 h4 h5 h6 h7 h8 h9 h10 h11 h12 =>
    refine (parses_fail _).congr fun b y => ⟨False.elim, ?_⟩
    rintro ⟨s', h, _⟩
    unfold Sec at h
    split at h <;> simp_all
  all_goals
    rename_i h
    rw [h]
    first
      | exact parses_section_field (good_vec good_funcTy) (parses_vec parses_funcTy) _ _ fun _ => rfl
      | exact parses_section_field (good_vec good_import) (parses_vec parses_import) _ _ fun _ => rfl
      | exact parses_section_field (good_vec good_idx) (parses_vec parses_idx) _ _ fun _ => rfl
      | exact parses_section_field (good_vec good_table) (parses_vec parses_table) _ _ fun _ => rfl
      | exact parses_section_field (good_vec good_mem) (parses_vec parses_mem) _ _ fun _ => rfl
      | exact parses_section_field (good_vec good_global) (parses_vec parses_global) _ _ fun _ => rfl
      | exact parses_section_field (good_vec good_export) (parses_vec parses_export) _ _ fun _ => rfl
      | exact parses_section_field (good_vec good_elem) (parses_vec parses_elem) _ _ fun _ => rfl
      | exact parses_section_field (good_vec good_data) (parses_vec parses_data) _ _ fun _ => rfl

theorem parses_customSection (st : LoopState) : Parses (parseSection 0 st) fun b st' =>
    GSized .code (GCustom .code) b () ∧ st' = st := by
  refine (Parses.map (fun _ => st) parses_sizedCustom).congr fun b st' => ⟨?_, ?_⟩
  · rintro ⟨x, ⟨h1, h2, ⟨c, rest, rfl, h3, _⟩⟩, rfl⟩; exact ⟨.mk h1 h2 (.mk rest h3), rfl⟩
  · rintro ⟨⟨h1, h2, ⟨rest, h3⟩⟩, rfl⟩
    exact ⟨(_, rest.length), .mk h1 h2 ⟨_, rest, rfl, h3, rfl⟩, rfl⟩

/-! ## The loop -/

/-- The sections with numbers above `j` that remain and the module they lead to. -/
inductive Loop : Nat → SecState → List Byte → Module → Prop
  | done {j : Nat} {s : SecState} : Loop j s [] s.2
  | custom {j : Nat} {s : SecState} {b bs : List Byte} {m : Module} :
      GSized .code (GCustom .code) b () → Loop j s bs m → Loop j s (0x00 :: b ++ bs) m
  | sec {j : Nat} {s s' : SecState} {id : Byte} {b bs : List Byte} {m : Module} :
      j < id.toNat → Sec id.toNat s b s' → Loop id.toNat s' bs m → Loop j s (id :: b ++ bs) m

theorem parses_iteration (st : LoopState) : Parses (parseIteration st) fun b st' =>
    (∃ b', b = 0x00 :: b' ∧ GSized .code (GCustom .code) b' () ∧ st' = st) ∨
    (∃ id b' s', b = id :: b' ∧ st.lastId.toNat < id.toNat ∧ Sec id.toNat (st.funcTypes, st.result) b' s' ∧
      st' = ⟨s'.1, s'.2, id⟩) := by
  refine parses_switch ?_ fun id => ?_
  · rintro y (⟨_, h, _⟩ | ⟨_, _, _, h, _⟩) <;> cases h
  · split
    next hid =>
      split
      next hle =>
        refine (parses_fail _).congr fun b y => ⟨False.elim, ?_⟩
        rintro (⟨b', h, _⟩ | ⟨id', b', s', h, h2, _⟩)
        · cases h; exact hid rfl
        · cases h
          have := UInt8.le_iff_toNat_le.mp hle
          omega
      next hle =>
        refine (parses_section id hid _).congr fun b y => ⟨?_, ?_⟩
        · rintro ⟨s', h, rfl⟩
          refine .inr ⟨id, b, s', rfl, ?_, h, rfl⟩
          have := mt UInt8.le_iff_toNat_le.mpr hle
          omega
        · rintro (⟨b', h, _⟩ | ⟨id', b', s', h, h2, h3, rfl⟩)
          · cases h; exact (hid rfl).elim
          · cases h; exact ⟨s', h3, rfl⟩
    next hid =>
      have hid : id = 0 := by simpa using hid
      subst hid
      refine (parses_customSection st).congr fun b y => ⟨?_, ?_⟩
      · rintro ⟨h, rfl⟩; exact .inl ⟨b, rfl, h, rfl⟩
      · rintro (⟨b', h, h1, h2⟩ | ⟨id', b', s', h, h2, _⟩)
        · cases h; exact ⟨h1, h2⟩
        · cases h; simp at h2

theorem sectionLoop_iff : ∀ (fuel : Nat) (st : LoopState) (s : List Byte) (m : Module) (r : List Byte), s.length < fuel →
    (sectionLoop fuel st s = (.ok m, r) ↔ r = [] ∧ Loop st.lastId.toNat (st.funcTypes, st.result) s m) := by
  intro fuel
  induction fuel with
  | zero => intro st s m r h; omega
  | succ fuel ih =>
    intro st s m r hs
    cases s with
    | nil =>
      constructor
      · intro h; cases h; exact ⟨rfl, .done⟩
      · rintro ⟨rfl, h⟩
        cases h; rfl
    | cons c s =>
      show (parseIteration st >>= _) (c :: s) = _ ↔ _
      rw [bind_ok_iff]
      constructor
      · rintro ⟨st', s', h1, h2⟩
        obtain ⟨b, hb, h3⟩ := (parses_iteration st _ _ _).mp h1
        rcases h3 with ⟨b', rfl, h3, rfl⟩ | ⟨id, b', s'', rfl, h3, h4, rfl⟩
        · have : s'.length < fuel := by rw [hb] at hs; simp at hs; omega
          obtain ⟨rfl, hl⟩ := (ih _ _ _ _ this).mp h2
          rw [hb]; exact ⟨rfl, .custom h3 hl⟩
        · have : s'.length < fuel := by rw [hb] at hs; simp at hs; omega
          obtain ⟨rfl, hl⟩ := (ih _ _ _ _ this).mp h2
          rw [hb]; exact ⟨rfl, .sec h3 h4 hl⟩
      · rintro ⟨rfl, h⟩
        generalize hcs : c :: s = t at h
        cases h with
        | done => cases hcs
        | @custom _ _ b bs _ h1 h2 =>
          refine ⟨st, bs, (parses_iteration st _ _ _).mpr ⟨0 :: b, rfl, .inl ⟨b, rfl, h1, rfl⟩⟩, ?_⟩
          refine (ih _ _ _ _ ?_).mpr ⟨rfl, h2⟩
          rw [hcs] at hs; simp at hs; omega
        | @sec _ _ s' id b bs _ h1 h2 h3 =>
          refine ⟨⟨s'.1, s'.2, id⟩, bs, (parses_iteration st _ _ _).mpr ⟨id :: b, rfl, .inr ⟨id, b, s', rfl, h1, h2, rfl⟩⟩, ?_⟩
          refine (ih _ _ _ _ ?_).mpr ⟨rfl, h3⟩
          rw [hcs] at hs; simp at hs; omega

/-! ## The fixed order -/

/-- Section `k` if present. -/
def Opt (k : Nat) (s : SecState) (b : List Byte) (s' : SecState) : Prop :=
  (b = [] ∧ s' = s) ∨ (∃ b', b = UInt8.ofNat k :: b' ∧ Sec k s b' s')

/-- The remaining `n` sections, numbered `12 - n`, ..., `11`. -/
def Rest : Nat → SecState → List Byte → Module → Prop
  | 0, s, b, m => GCustoms .code b ∧ m = s.2
  | n + 1, s, b, m => ∃ c bk rest s', GCustoms .code c ∧ Opt (11 - n) s bk s' ∧ Rest n s' rest m ∧ b = c ++ (bk ++ rest)

theorem rest_nil : ∀ (n : Nat) (s : SecState), Rest n s [] s.2
  | 0, _ => ⟨.nil, rfl⟩
  | n + 1, s => ⟨[], [], [], s, .nil, .inl ⟨rfl, rfl⟩, rest_nil n s, rfl⟩

theorem rest_custom {n : Nat} {s : SecState} {b bs : List Byte} {m : Module} (h : GSized .code (GCustom .code) b ()) (hr : Rest n s bs m) :
    Rest n s (0x00 :: b ++ bs) m := by
  cases n with
  | zero => exact ⟨.cons (.mk h) hr.1, hr.2⟩
  | succ n =>
    obtain ⟨c, bk, rest, s', h1, h2, h3, rfl⟩ := hr
    exact ⟨_, bk, rest, s', .cons (.mk h) h1, h2, h3, by simp⟩

theorem rest_skip {n k : Nat} {s : SecState} {b : List Byte} {m : Module} (hr : Rest n s b m) : Rest (n + k) s b m := by
  induction k with
  | zero => exact hr
  | succ k ih => exact ⟨[], [], b, s, .nil, .inl ⟨rfl, rfl⟩, ih, rfl⟩

theorem sec_le {id : Nat} {s s' : SecState} {b : List Byte} (h : Sec id s b s') : 1 ≤ id ∧ id ≤ 11 := by
  unfold Sec at h; split at h <;> first | simp | exact h.elim

theorem loop_rest {j : Nat} {s : SecState} {b : List Byte} {m : Module} (h : Loop j s b m) : Rest (11 - j) s b m := by
  induction h with
  | done => exact rest_nil _ _
  | custom h _ ih => exact rest_custom h ih
  | @sec j s s' id b bs m hlt hs _ ih =>
    have hle := sec_le hs
    have : 11 - j = (11 - id.toNat + 1) + (id.toNat - j - 1) := by omega
    rw [this]
    apply rest_skip
    refine ⟨[], id :: b, bs, s', .nil, .inr ⟨b, ?_, ?_⟩, ih, rfl⟩
    · have : 11 - (11 - id.toNat) = id.toNat := by omega
      rw [this]; simp
    · have : 11 - (11 - id.toNat) = id.toNat := by omega
      rw [this]; exact hs

theorem loop_mono {j j' : Nat} {s : SecState} {b : List Byte} {m : Module} (h : Loop j s b m) (hj : j' ≤ j) : Loop j' s b m := by
  induction h generalizing j' with
  | done => exact .done
  | custom h _ ih => exact .custom h (ih hj)
  | sec hlt hs h _ => exact .sec (by omega) hs h

theorem loop_customs {j : Nat} {s : SecState} {c b : List Byte} {m : Module} (hc : GCustoms .code c) (h : Loop j s b m) :
    Loop j s (c ++ b) m := by
  induction hc with
  | nil => exact h
  | cons h1 _ ih =>
    cases h1 with
    | mk h1 => have := Loop.custom h1 ih; simpa using this

theorem rest_loop : ∀ {n : Nat} {s : SecState} {b : List Byte} {m : Module}, n ≤ 11 → Rest n s b m → Loop (11 - n) s b m := by
  intro n
  induction n with
  | zero =>
    rintro s b m _ ⟨h, rfl⟩
    have := loop_customs (j := 11) (s := s) h .done
    simpa using this
  | succ n ih =>
    rintro s b m hn ⟨c, bk, rest, s', h1, h2, h3, rfl⟩
    have hl := ih (by omega) h3
    apply loop_customs h1
    rcases h2 with ⟨rfl, rfl⟩ | ⟨b', rfl, h2⟩
    · exact loop_mono hl (by omega)
    · have hk : (UInt8.ofNat (11 - n)).toNat = 11 - n := by
        rw [UInt8.toNat_ofNat']; apply Nat.mod_eq_of_lt; omega
      refine .sec (s' := s') ?_ ?_ ?_
      · rw [hk]; omega
      · rw [hk]; exact h2
      · rw [hk]; exact hl

theorem loop_iff_rest {s : SecState} {b : List Byte} {m : Module} : Loop 0 s b m ↔ Rest 11 s b m :=
  ⟨loop_rest, fun h => rest_loop (n := 11) (by omega) h⟩

theorem opt_iff {α : Type} {k : Nat} {G : List Byte → α → Prop} {s : SecState} (set : List α → SecState)
    (hsec : ∀ b s', Sec k s b s' ↔ ∃ x, GSized .code (GVec .code G) b x ∧ s' = set x) (hnil : set [] = s) (b : List Byte) (s' : SecState) :
    Opt k s b s' ↔ ∃ x, GVecSection .code (UInt8.ofNat k) G b x ∧ s' = set x := by
  constructor
  · rintro (⟨rfl, rfl⟩ | ⟨b', rfl, h⟩)
    · exact ⟨[], .absent, hnil.symm⟩
    · obtain ⟨x, h1, rfl⟩ := (hsec _ _).mp h
      exact ⟨x, .present (.mk h1), rfl⟩
  · rintro ⟨x, h, rfl⟩
    cases h with
    | absent => exact .inl ⟨rfl, hnil⟩
    | present h =>
      cases h with
      | mk h => exact .inr ⟨_, rfl, (hsec _ _).mpr ⟨x, h, rfl⟩⟩

theorem optStart_iff {s : SecState} (hs : s.2.start = none) (b : List Byte) (s' : SecState) :
    Opt 8 s b s' ↔ ∃ x, GStartSection .code b x ∧ s' = (s.1, { s.2 with start := x }) := by
  constructor
  · rintro (⟨rfl, rfl⟩ | ⟨b', rfl, x, h, rfl⟩)
    · exact ⟨none, .absent, by rw [← hs]⟩
    · exact ⟨some x, .present (.mk h), rfl⟩
  · rintro ⟨x, h, rfl⟩
    cases h with
    | absent => exact .inl ⟨rfl, by rw [← hs]⟩
    | present h =>
      cases h with
      | mk h => exact .inr ⟨_, rfl, _, h, rfl⟩

theorem optCode_iff {s : SecState} (hs : s.2.funcs = []) (b : List Byte) (s' : SecState) :
    Opt 10 s b s' ↔ ∃ x, GFuncs .code s.1 b x ∧ s' = (s.1, { s.2 with funcs := x }) := by
  constructor
  · rintro (⟨rfl, rfl⟩ | ⟨b', rfl, x, h, h2, rfl⟩)
    · exact ⟨[], .missing trivial, by rw [← hs]⟩
    · exact ⟨_, .paired (.present (.mk h)) h2, rfl⟩
  · rintro ⟨x, h, rfl⟩
    cases h with
    | missing => exact .inl ⟨rfl, by rw [← hs]⟩
    | paired h hl =>
      cases h with
      | absent => exact .inl ⟨rfl, by simp [pairFuncs, ← hs]⟩
      | present h =>
        cases h with
        | mk h => exact .inr ⟨_, rfl, _, h, hl, rfl⟩

theorem rest_iff_module {b : List Byte} {m : Module} : Rest 11 ([], {}) b m ↔ GModule .code (preamble ++ b) m := by
  constructor
  · rintro ⟨c0, b1, r1, s1, hc0, h1, ⟨c1, b2, r2, s2, hc1, h2, ⟨c2, b3, r3, s3, hc2, h3, ⟨c3, b4, r4, s4, hc3, h4,
      ⟨c4, b5, r5, s5, hc4, h5, ⟨c5, b6, r6, s6, hc5, h6, ⟨c6, b7, r7, s7, hc6, h7, ⟨c7, b8, r8, s8, hc7, h8,
      ⟨c8, b9, r9, s9, hc8, h9, ⟨c9, b10, r10, s10, hc9, h10, ⟨c10, b11, r11, s11, hc10, h11, ⟨hc11, rfl⟩, rfl⟩,
      rfl⟩, rfl⟩, rfl⟩, rfl⟩, rfl⟩, rfl⟩, rfl⟩, rfl⟩, rfl⟩, rfl⟩
    obtain ⟨x1, g1, rfl⟩ := (opt_iff (fun x => ([], { types := x })) (fun _ _ => Iff.rfl) rfl _ _).mp h1
    obtain ⟨x2, g2, rfl⟩ := (opt_iff (fun x => ([], { types := x1, imports := x })) (fun _ _ => Iff.rfl) rfl _ _).mp h2
    obtain ⟨x3, g3, rfl⟩ := (opt_iff (fun x => (x, { types := x1, imports := x2 })) (fun _ _ => Iff.rfl) rfl _ _).mp h3
    obtain ⟨x4, g4, rfl⟩ := (opt_iff (fun x => (x3, { types := x1, imports := x2, tables := x })) (fun _ _ => Iff.rfl) rfl _ _).mp h4
    obtain ⟨x5, g5, rfl⟩ := (opt_iff (fun x => (x3, { types := x1, imports := x2, tables := x4, mems := x }))
      (fun _ _ => Iff.rfl) rfl _ _).mp h5
    obtain ⟨x6, g6, rfl⟩ := (opt_iff (fun x => (x3, { types := x1, imports := x2, tables := x4, mems := x5, globals := x }))
      (fun _ _ => Iff.rfl) rfl _ _).mp h6
    obtain ⟨x7, g7, rfl⟩ := (opt_iff (fun x => (x3, { types := x1, imports := x2, tables := x4, mems := x5, globals := x6, exports := x }))
      (fun _ _ => Iff.rfl) rfl _ _).mp h7
    obtain ⟨x8, g8, rfl⟩ := (optStart_iff (by rfl) _ _).mp h8
    obtain ⟨x9, g9, rfl⟩ := (opt_iff (fun x => (x3, { types := x1, imports := x2, tables := x4, mems := x5, globals := x6, exports := x7, start := x8, elem := x })) (fun _ _ => Iff.rfl) rfl _ _).mp h9
    obtain ⟨x10, g10, rfl⟩ := (optCode_iff (by rfl) _ _).mp h10
    obtain ⟨x11, g11, rfl⟩ := (opt_iff (fun x => (x3, { types := x1, imports := x2, tables := x4, mems := x5, globals := x6, exports := x7, start := x8, elem := x9, funcs := x10, data := x })) (fun _ _ => Iff.rfl) rfl _ _).mp h11
    exact .mk hc0 g1 hc1 g2 hc2 g3 hc3 g4 hc4 g5 hc5 g6 hc6 g7 hc7 g8 hc8 g9 hc9 g10 hc10 g11 hc11
  · intro h
    generalize hb : preamble ++ b = l at h
    obtain ⟨hc0, h1, hc1, h2, hc2, h3, hc3, h4, hc4, h5, hc5, h6, hc6, h7, hc7, h8, hc8, h9, hc9, h10, hc10, h11, hc11⟩ := h
    obtain rfl := List.append_cancel_left hb
    rename_i tys
    refine ⟨_, _, _, _, hc0, (opt_iff (fun x => ([], { types := x })) (fun _ _ => Iff.rfl) rfl _ _).mpr ⟨_, h1, rfl⟩,
      ⟨_, _, _, _, hc1, (opt_iff (fun x => ([], { types := m.types, imports := x })) (fun _ _ => Iff.rfl) rfl _ _).mpr ⟨_, h2, rfl⟩,
      ⟨_, _, _, _, hc2, (opt_iff (fun x => (x, { types := m.types, imports := m.imports })) (fun _ _ => Iff.rfl) rfl _ _).mpr ⟨_, h3, rfl⟩,
      ⟨_, _, _, _, hc3, (opt_iff (fun x => (tys, { types := m.types, imports := m.imports, tables := x })) (fun _ _ => Iff.rfl) rfl _ _).mpr
        ⟨_, h4, rfl⟩,
      ⟨_, _, _, _, hc4, (opt_iff (fun x => (tys, { types := m.types, imports := m.imports, tables := m.tables, mems := x }))
        (fun _ _ => Iff.rfl) rfl _ _).mpr ⟨_, h5, rfl⟩,
      ⟨_, _, _, _, hc5, (opt_iff (fun x => (tys, { types := m.types, imports := m.imports, tables := m.tables, mems := m.mems, globals := x }))
        (fun _ _ => Iff.rfl) rfl _ _).mpr ⟨_, h6, rfl⟩,
      ⟨_, _, _, _, hc6, (opt_iff (fun x => (tys, { types := m.types, imports := m.imports, tables := m.tables, mems := m.mems, globals := m.globals, exports := x })) (fun _ _ => Iff.rfl) rfl _ _).mpr ⟨_, h7, rfl⟩,
      ⟨_, _, _, _, hc7, (optStart_iff (by rfl) _ _).mpr ⟨_, h8, rfl⟩,
      ⟨_, _, _, _, hc8, (opt_iff (fun x => (tys, { types := m.types, imports := m.imports, tables := m.tables, mems := m.mems, globals := m.globals, exports := m.exports, start := m.start, elem := x })) (fun _ _ => Iff.rfl) rfl _ _).mpr ⟨_, h9, rfl⟩,
      ⟨_, _, _, _, hc9, (optCode_iff (by rfl) _ _).mpr ⟨_, h10, rfl⟩,
      ⟨_, _, _, _, hc10, (opt_iff (fun x => (tys, { types := m.types, imports := m.imports, tables := m.tables, mems := m.mems, globals := m.globals, exports := m.exports, start := m.start, elem := m.elem, funcs := m.funcs, data := x }))
        (fun _ _ => Iff.rfl) rfl _ _).mpr ⟨_, h11, rfl⟩,
      ⟨hc11, rfl⟩, rfl⟩, rfl⟩, rfl⟩, rfl⟩, rfl⟩, rfl⟩, rfl⟩, rfl⟩, rfl⟩, rfl⟩, rfl⟩

/-! ## The whole module -/

theorem magic_iff (l : List Byte) : l.map (fun b => b.toNat) = magicChars.map (fun c => c.toNat) ↔ l = [0x00, 0x61, 0x73, 0x6D] := by
  have hinj : ∀ a b : Byte, (fun b : Byte => b.toNat) a = (fun b : Byte => b.toNat) b → a = b := fun a b h => UInt8.toNat_inj.mp h
  have : magicChars.map (fun c => c.toNat) = [0x00, 0x61, 0x73, 0x6D].map (fun b : Byte => b.toNat) := by decide
  rw [this]
  exact ⟨fun h => (List.map_inj_right hinj).mp h, fun h => by rw [h]⟩

theorem parses4 : Parses (parseN 4 parseByte) fun b xs => xs.length = 4 ∧ b = xs := by
  refine (parses_parseN parses_byte 4).congr fun b xs => ?_
  rw [gseq_byte]

theorem parseModule_iff (s : List Byte) (m : Module) (r : List Byte) :
    parseModule s = (.ok m, r) ↔ r = [] ∧ GModule .code s m := by
  unfold parseModule
  rw [bind_ok_iff]
  constructor
  · rintro ⟨magic, s1, h1, h2⟩
    obtain ⟨_, rfl, _, rfl⟩ := (parses4 _ _ _).mp h1
    split at h2
    · cases h2
    rename_i hm
    rw [Decidable.not_not] at hm
    obtain rfl := (magic_iff _).mp hm
    obtain ⟨version, s2, h3, h4⟩ := bind_ok_iff.mp h2
    obtain ⟨_, rfl, _, rfl⟩ := (parses4 _ _ _).mp h3
    split at h4
    · cases h4
    rename_i hv
    rw [Decidable.not_not] at hv
    subst hv
    obtain ⟨rfl, h5⟩ := (sectionLoop_iff _ _ _ _ _ (Nat.lt_succ_self _)).mp h4
    exact ⟨rfl, rest_iff_module.mp (loop_iff_rest.mp h5)⟩
  · rintro ⟨rfl, h⟩
    have : ∃ b, s = preamble ++ b := by cases h; exact ⟨_, rfl⟩
    obtain ⟨b, rfl⟩ := this
    have h5 := loop_iff_rest.mpr (rest_iff_module.mpr h)
    refine ⟨[0x00, 0x61, 0x73, 0x6D], [0x01, 0x00, 0x00, 0x00] ++ b, (parses4 _ _ _).mpr ⟨_, rfl, rfl, rfl⟩, ?_⟩
    rw [if_neg (by rw [Decidable.not_not, magic_iff])]
    refine bind_ok_iff.mpr ⟨[0x01, 0x00, 0x00, 0x00], b, (parses4 _ _ _).mpr ⟨_, rfl, rfl, rfl⟩, ?_⟩
    rw [if_neg (by rw [Decidable.not_not])]
    exact (sectionLoop_iff _ _ _ _ _ (Nat.lt_succ_self _)).mpr ⟨rfl, h5⟩

/-! ## No panic, no lack of fuel -/

theorem safe_section (id : Byte) (st : LoopState) : Safe (parseSection id st) := by
  unfold parseSection
  split
  case h_1 => exact (safe_sized safe_custom).bind fun _ => safe_pure _
  case h_9 => exact (safe_sized (good_start.safe noFuel_start)).bind fun _ => safe_pure _
  case h_11 =>
    refine (safe_sized ?_).bind fun x => ?_
    · rw [unwrappingVec_id]
      exact (good_vec (good_sized good_func)).safe (noFuel_vec (noFuel_sized noFuel_func))
    · simp only
      split
      · exact safe_fail (by simp) (by simp)
      · rename_i hx
        rw [Decidable.not_not] at hx
        rw [assignTys_eq _ _ hx.symm]
        exact safe_pure _
  case h_13 => exact safe_fail (by simp) (by simp)
  all_goals
    first
      | exact (safe_sized ((good_vec good_funcTy).safe (noFuel_vec noFuel_funcTy))).bind fun _ => safe_pure _
      | exact (safe_sized ((good_vec good_import).safe (noFuel_vec noFuel_import))).bind fun _ => safe_pure _
      | exact (safe_sized ((good_vec good_idx).safe (noFuel_vec noFuel_idx))).bind fun _ => safe_pure _
      | exact (safe_sized ((good_vec good_table).safe (noFuel_vec noFuel_table))).bind fun _ => safe_pure _
      | exact (safe_sized ((good_vec good_mem).safe (noFuel_vec noFuel_mem))).bind fun _ => safe_pure _
      | exact (safe_sized ((good_vec good_global).safe (noFuel_vec noFuel_global))).bind fun _ => safe_pure _
      | exact (safe_sized ((good_vec good_export).safe (noFuel_vec noFuel_export))).bind fun _ => safe_pure _
      | exact (safe_sized ((good_vec good_elem).safe (noFuel_vec noFuel_elem))).bind fun _ => safe_pure _
      | exact (safe_sized ((good_vec good_data).safe (noFuel_vec noFuel_data))).bind fun _ => safe_pure _

theorem safe_iteration (st : LoopState) : Safe (parseIteration st) := by
  refine (good_byte.safe noFuel_byte).bind fun id => ?_
  split
  · split
    · exact safe_fail (by simp) (by simp)
    · exact safe_section _ _
  · exact safe_section _ _

theorem iteration_consumes (st : LoopState) {s r : List Byte} {st' : LoopState} (h : parseIteration st s = (.ok st', r)) :
    r.length < s.length := by
  obtain ⟨b, rfl, h'⟩ := (parses_iteration st _ _ _).mp h
  clear h
  rcases h' with ⟨b', rfl, _⟩ | ⟨id, b', s', rfl, _⟩ <;> simp <;> omega

theorem sectionLoop_safe : ∀ (fuel : Nat) (st : LoopState) (s : List Byte),
    (sectionLoop fuel st s).2 <:+ s ∧ (sectionLoop fuel st s).1 ≠ .error .panic ∧
    (s.length < fuel → (sectionLoop fuel st s).1 ≠ .error .fuel) := by
  intro fuel
  induction fuel with
  | zero => intro st s; exact ⟨List.suffix_refl s, (by intro h; cases h), by intro h; omega⟩
  | succ fuel ih =>
    intro st s
    cases s with
    | nil => exact ⟨List.suffix_refl _, (by intro h; cases h), fun _ h => by cases h⟩
    | cons c s =>
      show ((parseIteration st >>= _) (c :: s)).2 <:+ _ ∧ ((parseIteration st >>= _) (c :: s)).1 ≠ _ ∧
        (_ → ((parseIteration st >>= _) (c :: s)).1 ≠ _)
      have hs := safe_iteration st
      have f0 := hs.forward (c :: s)
      have p0 := hs.noPanic (c :: s)
      have u0 := hs.noFuel (c :: s)
      rcases bind_cases (parseIteration st) (sectionLoop fuel) (c :: s) with ⟨st', s', h1, h2⟩ | ⟨e, s', h1, h2⟩
      · rw [h2]
        rw [h1] at f0
        have := ih st' s'
        refine ⟨this.1.trans f0, this.2.1, fun hl => this.2.2 ?_⟩
        have := iteration_consumes st h1
        omega
      · rw [h2]
        rw [h1] at f0 p0 u0
        refine ⟨f0, fun h => p0 (by cases h; rfl), fun _ h => u0 (by cases h; rfl)⟩

theorem safe_module : Safe parseModule := by
  have h4 := (good_parseN good_byte 4).safe (noFuel_parseN noFuel_byte 4)
  refine h4.bind fun magic => ?_
  split
  · exact safe_fail (by simp) (by simp)
  · refine h4.bind fun version => ?_
    split
    · exact safe_fail (by simp) (by simp)
    · exact ⟨fun s => (sectionLoop_safe _ _ s).1, fun s => (sectionLoop_safe _ _ s).2.1,
        fun s => (sectionLoop_safe _ _ s).2.2 (Nat.lt_succ_self _)⟩

end Whasm
