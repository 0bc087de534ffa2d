import Verif.Lemmas.Encode

/-!
# The encoder: every other input for the same module is longer
-/

namespace Whasm
open Spec

/-- `b` is `e` or longer. -/
def Near (b e : List Byte) : Prop := b = e ∨ e.length < b.length

theorem Near.refl (b : List Byte) : Near b b := .inl rfl

theorem Near.le {b e : List Byte} (h : Near b e) : e.length ≤ b.length := by
  rcases h with rfl | h <;> omega

theorem Near.append {b1 b2 e1 e2 : List Byte} (h1 : Near b1 e1) (h2 : Near b2 e2) : Near (b1 ++ b2) (e1 ++ e2) := by
  have l1 := h1.le
  have l2 := h2.le
  rcases h1 with rfl | h1
  · rcases h2 with rfl | h2
    · exact .inl rfl
    · exact .inr (by simp only [List.length_append]; omega)
  · exact .inr (by simp only [List.length_append]; omega)

theorem Near.cons {b e : List Byte} (c : Byte) (h : Near b e) : Near (c :: b) (c :: e) := Near.append (.refl [c]) h

theorem near_uval (n : Nat) : ∀ bs : List Byte, Group bs → uval bs = n → Near bs (encU n) := by
  induction n using encU.induct with
  | case1 n h =>
    intro bs hg hv; rw [encU, if_pos h]
    match bs, hg, hv with
    | [b], hg, hv =>
      left
      simp only [uval, Group] at hv hg
      have : b.toNat = n := by omega
      rw [← this]; simp
    | b :: c :: bs, _, _ => right; simp
  | case2 n h ih =>
    intro bs hg hv; rw [encU, if_neg h]
    match bs, hg, hv with
    | [b], hg, hv => simp only [uval] at hv; omega
    | b :: c :: bs, hg, hv =>
      have h1 := ih (c :: bs) hg.2 (by rw [uval] at hv; omega)
      have h2 : b = UInt8.ofNat (n % 128 + 128) := by
        have hg1 := hg.1
        have := b.toNat_lt
        rw [uval] at hv
        have e : n % 128 + 128 = b.toNat := by omega
        rw [e]; simp
      rw [← h2]; exact h1.cons b

theorem near_sval (i : Int) : ∀ bs : List Byte, Group bs → sval bs = i → Near bs (encS i) := by
  induction i using encS.induct with
  | case1 n h =>
    intro bs hg hv; rw [encS, if_pos h]
    match bs, hg, hv with
    | [b], hg, hv =>
      left
      simp only [sval, Group] at hv hg
      have : (n % 128).toNat = b.toNat := by split at hv <;> omega
      rw [this]; simp
    | b :: c :: bs, _, _ => right; simp
  | case2 n h ih =>
    intro bs hg hv; rw [encS, if_neg h]
    match bs, hg, hv with
    | [b], hg, hv => simp only [sval] at hv; split at hv <;> omega
    | b :: c :: bs, hg, hv =>
      have h1 := ih (c :: bs) hg.2 (by rw [sval] at hv; omega)
      have h2 : b = UInt8.ofNat ((n % 128).toNat + 128) := by
        have hg1 := hg.1
        have := b.toNat_lt
        rw [sval] at hv
        have e : (n % 128).toNat + 128 = b.toNat := by omega
        rw [e]; simp
      rw [← h2]; exact h1.cons b

theorem near_len {b : List Byte} {v : U32} (h : Dialect.code.u32 b v) : Near b (encU v.toNat) := near_uval _ _ h.1 h.2

theorem near_leVal : ∀ (k : Nat) (b : List Byte) (v : Nat), b.length = k → leVal b = v → b = leBytes k v
  | 0, b, v, h, _ => by simpa [leBytes] using h
  | k + 1, [], v, h, _ => by simp at h
  | k + 1, c :: b, v, h, hv => by
    have hc := c.toNat_lt
    rw [leVal] at hv
    have ih := near_leVal k b (v / 256) (by simpa using h) (by omega)
    rw [leBytes, ← ih]
    have : v % 256 = c.toNat := by omega
    rw [this]; simp

section
variable {α : Type} {G : List Byte → α → Prop} {enc : α → List Byte}

theorem near_seq (hG : ∀ b x, G b x → Near b (enc x)) {b : List Byte} {xs : List α} (h : GSeq G b xs) : Near b (xs.flatMap enc) := by
  induction h with
  | nil => exact .refl _
  | cons h1 _ ih => rw [List.flatMap_cons]; exact (hG _ _ h1).append ih

theorem near_vec (hG : ∀ b x, G b x → Near b (enc x)) {b : List Byte} {xs : List α} (h : GVec .code G b xs) : Near b (encVec enc xs) := by
  cases h with
  | mk h1 h2 h3 => unfold encVec; rw [h2]; exact (near_len h1).append (near_seq hG h3)

/-- A sized element: if the content is longer, its size takes at least as many bytes. -/
theorem near_sized {f : α → List Byte} (hG : ∀ b x, G b x → Near b (f x)) {b : List Byte} {x : α} (h : GSized .code G b x) :
    Near b (encSized (f x)) := by
  cases h with
  | mk h1 h2 h3 =>
    have h4 := near_len h1
    rw [← h2] at h4
    rcases hG _ _ h3 with h5 | h5
    · unfold encSized; rw [← h5]; exact h4.append (.refl _)
    · right
      have := h4.le
      have := encU_mono (Nat.le_of_lt h5)
      simp only [encSized, List.length_append]; omega

theorem near_section {id : Byte} (hG : ∀ b x, G b x → Near b (enc x)) {b : List Byte} {xs : List α} (h : GVecSection .code id G b xs) :
    Near b (encSection id xs (encVec enc xs)) := by
  cases h with
  | absent => exact .refl _
  | present h =>
    cases h with
    | mk h =>
      unfold encSection
      split
      · right; simp
      · exact (near_sized (f := encVec enc) (fun _ _ => near_vec hG) h).cons id

end

theorem near_byte {b : List Byte} {x : Byte} (h : GByte b x) : Near b (encByte x) := by cases h; exact .refl _

theorem near_name {b : List Byte} {n : Name} (h : GName .code b n) : Near b (encName n) := by
  cases h with
  | mk h _ => exact near_vec (G := GByte) (fun _ _ => near_byte) h

theorem near_val {b : List Byte} {t : Val} (h : GVal b t) : Near b (encVal t) := by cases h <;> exact .refl _

theorem near_retVal {b : List Byte} {t : RetVal} (h : GRetVal b t) : Near b (encRetVal t) := by
  cases h with
  | empty => exact .refl _
  | val h => exact near_val h

theorem near_funcTy {b : List Byte} {t : FuncTy} (h : GFuncTy .code b t) : Near b (encFuncTy t) := by
  cases h with
  | mk h1 h2 => exact ((near_vec (G := GVal) (fun _ _ => near_val) h1).cons _).append (near_vec (G := GVal) (fun _ _ => near_val) h2)

theorem near_limits {b : List Byte} {l : Limits} (h : GLimits .code b l) : Near b (encLimits l) := by
  cases h with
  | min h => exact (near_len h).cons _
  | minMax h1 h2 => exact ((near_len h1).cons _).append (near_len h2)

theorem near_tableTy {b : List Byte} {t : TableTy} (h : GTableTy .code b t) : Near b (encTableTy t) := by
  cases h with
  | mk h1 h2 => cases h1; exact (Near.refl _).append (near_limits h2)

theorem near_memTy {b : List Byte} {t : MemTy} (h : GMemTy .code b t) : Near b (encLimits t.lim) := by
  cases h with
  | mk h => exact near_limits h

theorem near_globalTy {b : List Byte} {t : GlobalTy} (h : GGlobalTy b t) : Near b (encGlobalTy t) := by
  cases h with
  | mk h1 h2 => cases h2 <;> exact (near_val h1).append (.refl _)

theorem near_instrs {b : List Byte} {x : List Instr} (h : GInstrs .code b x) : Near b (encInstrs x) := by
  refine GInstrs.rec (D := .code) (motive_1 := fun b i _ => Near b (encInstr i))
    (motive_2 := fun b is _ => Near b (encInstrs is))
    ?_ ?_ ?_ ?_ ?_ ?_ ?_ ?_ ?_ ?_ ?_ ?_ ?_ ?_ ?_ ?_ ?_ ?_ ?_ ?_ ?_ ?_ ?_ ?_ ?_ ?_ ?_ ?_ ?_ ?_ h
  · simp only [encInstr]; exact .refl _
  · simp only [encInstr]; exact .refl _
  · intro b1 b2 t is h1 h2 ih
    simp only [encInstr]; exact (((near_retVal h1).cons _).append ih).append (.refl _)
  · intro b1 b2 t is h1 h2 ih
    simp only [encInstr]; exact (((near_retVal h1).cons _).append ih).append (.refl _)
  · intro b1 b2 t is h1 h2 ih
    simp only [encInstr]; exact (((near_retVal h1).cons _).append ih).append (.refl _)
  · intro b1 b2 b3 t is js h1 h2 h3 ih ih2
    cases js with
    | nil =>
      right
      have := (near_retVal h1).le
      have := ih.le
      simp only [encInstr, List.length_append, List.length_cons]; omega
    | cons j js =>
      rw [encInstrs_cons] at ih2
      simp only [encInstr]
      exact (((((near_retVal h1).cons _).append ih).append (.refl _)).append ih2).append (.refl _)
  · intro b l h; simp only [encInstr]; exact (near_len h).cons _
  · intro b l h; simp only [encInstr]; exact (near_len h).cons _
  · intro b1 b2 ls l h1 h2
    simp only [encInstr]
    exact ((near_vec (enc := encIdx) (G := Dialect.code.u32) (fun _ _ => near_len) h1).cons _).append (near_len h2)
  · simp only [encInstr]; exact .refl _
  · intro b l h; simp only [encInstr]; exact (near_len h).cons _
  · intro b1 b2 x y h1 h2
    simp only [encInstr]; exact ((near_len h1).cons _).append (near_len h2)
  · simp only [encInstr]; exact .refl _
  · simp only [encInstr]; exact .refl _
  · intro b l h; simp only [encInstr]; exact (near_len h).cons _
  · intro b l h; simp only [encInstr]; exact (near_len h).cons _
  · intro b l h; simp only [encInstr]; exact (near_len h).cons _
  · intro b l h; simp only [encInstr]; exact (near_len h).cons _
  · intro b l h; simp only [encInstr]; exact (near_len h).cons _
  · intro b1 b2 x y op h1 h2
    simp only [encInstr]; exact ((near_len h1).cons _).append (near_len h2)
  · intro b1 b2 x y op h1 h2
    simp only [encInstr]; exact ((near_len h1).cons _).append (near_len h2)
  · intro b l h; simp only [encInstr]; exact (near_len h).cons _
  · intro b l h; simp only [encInstr]; exact (near_len h).cons _
  · intro b v h; simp only [encInstr]; exact (near_sval _ _ h.1 h.2).cons _
  · intro b v h; simp only [encInstr]; exact (near_sval _ _ h.1 h.2).cons _
  · intro b v h
    cases h with
    | mk h h2 => simp only [encInstr]; rw [← near_leVal 4 b v.toNat h h2]; exact .refl _
  · intro b v h
    cases h with
    | mk h h2 => simp only [encInstr]; rw [← near_leVal 8 b v.toNat h h2]; exact .refl _
  · intro op; simp only [encInstr]; exact .refl _
  · simp only [encInstrs]; exact .refl _
  · intro b bs i is h1 h2 ih1 ih2
    simp only [encInstrs]; exact ih1.append ih2

theorem near_expr {b : List Byte} {e : Expr} (h : GExpr .code b e) : Near b (encExpr e) := by
  cases h with
  | mk h => exact (near_instrs h).append (.refl _)

theorem near_importDesc {b : List Byte} {d : ImportDesc} (h : GImportDesc .code b d) : Near b (encImportDesc d) := by
  cases h with
  | func h => exact (near_len h).cons _
  | table h => exact (near_tableTy h).cons _
  | mem h => exact (near_memTy h).cons _
  | global h => exact (near_globalTy h).cons _

theorem near_import {b : List Byte} {i : Import} (h : GImport .code b i) : Near b (encImport i) := by
  cases h with
  | mk h1 h2 h3 => exact ((near_name h1).append (near_name h2)).append (near_importDesc h3)

theorem near_exportDesc {b : List Byte} {d : ExportDesc} (h : GExportDesc .code b d) : Near b (encExportDesc d) := by
  cases h <;> exact (near_len ‹_›).cons _

theorem near_export {b : List Byte} {i : Export} (h : GExport .code b i) : Near b (encExport i) := by
  cases h with
  | mk h1 h2 => exact (near_name h1).append (near_exportDesc h2)

theorem near_table {b : List Byte} {t : Table} (h : GTable .code b t) : Near b (encTable t) := by
  cases h with
  | mk h => exact near_tableTy h

theorem near_mem {b : List Byte} {t : Mem} (h : GMem .code b t) : Near b (encMem t) := by
  cases h with
  | mk h => exact near_memTy h

theorem near_global {b : List Byte} {g : Global} (h : GGlobal .code b g) : Near b (encGlobal g) := by
  cases h with
  | mk h1 h2 => exact (near_globalTy h1).append (near_expr h2)

theorem near_elem {b : List Byte} {g : Elem} (h : GElem .code b g) : Near b (encElem g) := by
  cases h with
  | mk h1 h2 h3 =>
    exact ((near_len h1).append (near_expr h2)).append
      (near_vec (enc := encIdx) (G := Dialect.code.u32) (fun _ _ => near_len) h3)

theorem near_data {b : List Byte} {g : Data} (h : GData .code b g) : Near b (encData g) := by
  cases h with
  | mk h1 h2 h3 => exact ((near_len h1).append (near_expr h2)).append (near_vec (G := GByte) (fun _ _ => near_byte) h3)

/-! ## Locals -/

/-- Any other way to write down less than 2^32 locals is longer. -/
theorem runs_only : ∀ rs : List (Nat × Val), (∀ r ∈ rs, r.1 < 2 ^ 32) → (expand rs).length < 2 ^ 32 →
    rs = runs (expand rs) ∨ ((runs (expand rs)).length ≤ rs.length ∧ ((runs (expand rs)).flatMap encRun).length < (rs.flatMap encRun).length)
  | [], _, _ => .inl rfl
  | (n, t) :: rs, h, hl => by
    have hn := h (n, t) List.mem_cons_self
    have he : expand ((n, t) :: rs) = List.replicate n t ++ expand rs := rfl
    rw [he, List.length_append, List.length_replicate] at hl
    have ih := runs_only rs (fun r hr => h r (List.mem_cons_of_mem _ hr)) (by omega)
    obtain ⟨l1, l2⟩ := runs_least rs fun r hr => h r (List.mem_cons_of_mem _ hr)
    rw [he]
    cases n with
    | zero =>
      have := encU_pos 0
      right
      simp only [List.replicate_zero, List.nil_append, List.length_cons, List.flatMap_cons, List.length_append, encRun_length]; omega
    | succ n =>
      rw [runs_replicate t _ n hn]
      cases hr : runs (expand rs) with
      | nil =>
        rw [hr] at ih
        rcases ih with rfl | ⟨_, ih⟩
        · exact .inl rfl
        · right
          simp only [addRun, List.length_cons, List.flatMap_cons, List.length_append, encRun_length, List.flatMap_nil, List.length_nil] at ih ⊢
          omega
      | cons r rs' =>
        obtain ⟨k, u⟩ := r
        rw [hr] at ih l1 l2
        have hk : k ≤ (expand rs).length := by
          have := runs_expand (expand rs)
          rw [← this, hr]
          simp only [expand, List.flatMap_cons, List.length_append, List.length_replicate]; omega
        simp only [addRun]
        by_cases hu : u = t
        · rw [if_pos hu, if_pos (by omega)]
          right
          have := encU_add k (n + 1)
          simp only [List.length_cons, List.flatMap_cons, List.length_append, encRun_length] at l1 l2 ⊢
          omega
        · rw [if_neg hu]
          rcases ih with rfl | ⟨i1, i2⟩
          · exact .inl rfl
          · right
            simp only [List.length_cons, List.flatMap_cons, List.length_append, encRun_length] at i1 i2 ⊢
            omega

theorem near_run {b : List Byte} {r : Nat × Val} (h : GLocals .code b r) : Near b (encRun r) := by
  cases h with
  | mk h1 h2 => exact (near_len h1).append (near_val h2)

theorem near_func {b : List Byte} {f : List Val × Expr} (h : GFunc .code b f) (hl : f.1.length < 2 ^ 32) : Near b (encFunc f) := by
  cases h with
  | @mk b1 b2 rs e h1 _ h2 =>
    have hr := near_vec (G := GLocals .code) (fun _ _ => near_run) h1
    refine Near.append ?_ (near_expr h2)
    rcases runs_only rs (gvec_all (G := GLocals .code) (P := fun r => r.1 < 2 ^ 32) (fun _ _ => grun_bound) h1) hl with e | ⟨e1, e2⟩
    · simp only
      rw [← e]; exact hr
    · right
      have := hr.le
      have := encU_mono e1
      simp only [encVec, List.length_append] at *; omega

/-! ## Modules -/

theorem near_start {b : List Byte} {s : Option Start} (h : GStartSection .code b s) : Near b (encStart s) := by
  cases h with
  | absent => exact .refl _
  | @present b s h =>
    cases h with
    | mk h => exact (near_sized (f := fun s : Start => encIdx s.func) (fun b s h => by cases h with | mk h => exact near_len h) h).cons _

theorem near_customs {c : List Byte} (h : GCustoms .code c) : Near c [] := by
  cases c with
  | nil => exact .refl _
  | cons => right; simp

/-- A vector whose items are known to be admissible. -/
theorem gseq_and {α : Type} {G : List Byte → α → Prop} {P : α → Prop} {b : List Byte} {xs : List α} (h : GSeq G b xs) (hp : ∀ x ∈ xs, P x) :
    GSeq (fun b x => G b x ∧ P x) b xs := by
  induction h with
  | nil => exact .nil
  | cons h1 _ ih => exact .cons ⟨h1, hp _ List.mem_cons_self⟩ (ih fun x hx => hp x (List.mem_cons_of_mem _ hx))

theorem gvecSection_and {α : Type} {G : List Byte → α → Prop} {P : α → Prop} {id : Byte} {b : List Byte} {xs : List α}
    (h : GVecSection .code id G b xs) (hp : ∀ x ∈ xs, P x) : GVecSection .code id (fun b x => G b x ∧ P x) b xs := by
  cases h with
  | absent => exact .absent
  | present h =>
    obtain ⟨⟨h1, h2, ⟨h3, h4, h5⟩⟩⟩ := h
    exact .present (.mk (.mk h1 h2 (.mk h3 h4 (gseq_and h5 hp))))

theorem near_funcs {tys : List Idx} {b3 b10 : List Byte} {fs : List Func} (e3 : GVecSection .code 0x03 Dialect.code.u32 b3 tys)
    (e10 : GFuncs .code tys b10 fs) (hl : ∀ f ∈ fs, f.locals.length < 2 ^ 32) :
    Near b3 (encSection 0x03 fs (encVec encIdx (fs.map Func.ty))) ∧
    Near b10 (encSection 0x0A fs (encVec (fun f => encSized (encFunc f)) (fs.map fun f : Func => (f.locals, f.body)))) := by
  cases e10 with
  | @paired _ codes h hle =>
    obtain ⟨p1, p2⟩ := pair_parts _ _ hle
    have h3 := near_section (enc := encIdx) (G := Dialect.code.u32) (fun _ _ => near_len) e3
    have hc : ∀ c ∈ codes, c.1.length < 2 ^ 32 := by
      intro c hc
      rw [← p2] at hc
      obtain ⟨f, hf, rfl⟩ := List.mem_map.mp hc
      exact hl f hf
    have h10 := near_section (enc := fun f => encSized (encFunc f)) (fun b x hx => near_sized
      (G := fun b x => GFunc .code b x ∧ x.1.length < 2 ^ 32) (fun _ _ h => near_func h.1 h.2)
      (by obtain ⟨⟨h1, h2, h3⟩, h4⟩ := hx; exact .mk h1 h2 ⟨h3, h4⟩)) (gvecSection_and h hc)
    have p1' : (pairFuncs tys _).map Func.ty = tys := p1
    refine ⟨?_, ?_⟩
    · rw [p1', ← encSection_map 0x03 Func.ty, p1']; exact h3
    · rw [p2, ← encSection_map 0x0A (fun f : Func => (f.locals, f.body)), p2]; exact h10
  | missing _ =>
    refine ⟨?_, .refl _⟩
    cases b3 with
    | nil => exact .refl _
    | cons => right; simp [encSection]

theorem near_module {s : List Byte} {m : Module} (h : GModule .code s m) (hl : ∀ f ∈ m.funcs, f.locals.length < 2 ^ 32) :
    Near s (encModule m) := by
  cases h with
  | mk k0 e1 k1 e2 k2 e3 k3 e4 k4 e5 k5 e6 k6 e7 k7 e8 k8 e9 k9 e10 k10 e11 k11 =>
    have c1 := near_section (G := GFuncTy .code) (fun _ _ => near_funcTy) e1
    have c2 := near_section (G := GImport .code) (fun _ _ => near_import) e2
    have c4 := near_section (G := GTable .code) (fun _ _ => near_table) e4
    have c5 := near_section (G := GMem .code) (fun _ _ => near_mem) e5
    have c6 := near_section (G := GGlobal .code) (fun _ _ => near_global) e6
    have c7 := near_section (G := GExport .code) (fun _ _ => near_export) e7
    have c8 := near_start e8
    have c9 := near_section (G := GElem .code) (fun _ _ => near_elem) e9
    obtain ⟨c3, c10⟩ := near_funcs e3 e10 hl
    have c11 := near_section (G := GData .code) (fun _ _ => near_data) e11
    have := (Near.refl [0x00, 0x61, 0x73, 0x6D, 0x01, 0x00, 0x00, 0x00]).append ((near_customs k0).append (c1.append ((near_customs k1).append
      (c2.append ((near_customs k2).append (c3.append ((near_customs k3).append (c4.append ((near_customs k4).append (c5.append
      ((near_customs k5).append (c6.append ((near_customs k6).append (c7.append ((near_customs k7).append (c8.append ((near_customs k8).append
      (c9.append ((near_customs k9).append (c10.append ((near_customs k10).append (c11.append (near_customs k11)))))))))))))))))))))))
    simp only [List.nil_append, List.append_nil] at this
    simp only [encModule, List.append_assoc]
    exact this

end Whasm
