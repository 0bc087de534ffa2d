import Verif.Lemmas.InstrGrammar

/-!
# Parsers of the parts of modules
-/

namespace Whasm
open Spec

/-! ## Good and without fuel -/

theorem constExpr_eq : parseConstExpr = parseExpr := by
  rfl

theorem good_constExpr : Good parseConstExpr := constExpr_eq ▸ good_expr
theorem noFuel_constExpr : NoFuel parseConstExpr := constExpr_eq ▸ noFuel_expr
theorem parses_constExpr : Parses parseConstExpr (GExpr .code) := constExpr_eq ▸ parses_expr

theorem good_func : Good parseFunc := (good_compactVec good_val).bind fun _ => good_expr.bind fun _ => good_pure _
theorem noFuel_func : NoFuel parseFunc :=
  (noFuel_compactVec noFuel_val).bind fun _ => noFuel_expr.bind fun _ => noFuel_pure _

theorem good_table : Good parseTable := good_tableTy.bind fun _ => good_pure _
theorem noFuel_table : NoFuel parseTable := noFuel_tableTy.bind fun _ => noFuel_pure _

theorem good_mem : Good parseMem := good_memTy.bind fun _ => good_pure _
theorem noFuel_mem : NoFuel parseMem := noFuel_memTy.bind fun _ => noFuel_pure _

theorem good_global : Good parseGlobal := good_globalTy.bind fun _ => good_constExpr.bind fun _ => good_pure _
theorem noFuel_global : NoFuel parseGlobal := noFuel_globalTy.bind fun _ => noFuel_constExpr.bind fun _ => noFuel_pure _

theorem good_elem : Good parseElem :=
  good_idx.bind fun _ => good_constExpr.bind fun _ => (good_vec good_idx).bind fun _ => good_pure _
theorem noFuel_elem : NoFuel parseElem :=
  noFuel_idx.bind fun _ => noFuel_constExpr.bind fun _ => (noFuel_vec noFuel_idx).bind fun _ => noFuel_pure _

theorem good_data : Good parseData :=
  good_idx.bind fun _ => good_constExpr.bind fun _ => good_vecByte.bind fun _ => good_pure _
theorem noFuel_data : NoFuel parseData :=
  noFuel_idx.bind fun _ => noFuel_constExpr.bind fun _ => noFuel_vecByte.bind fun _ => noFuel_pure _

theorem good_start : Good parseStart := good_idx.bind fun _ => good_pure _
theorem noFuel_start : NoFuel parseStart := noFuel_idx.bind fun _ => noFuel_pure _

theorem good_importDesc : Good parseImportDesc :=
  good_byte.bind fun c => by
    split
    · exact good_idx.bind fun _ => good_pure _
    · exact good_tableTy.bind fun _ => good_pure _
    · exact good_memTy.bind fun _ => good_pure _
    · exact good_globalTy.bind fun _ => good_pure _
    · exact good_fail (by simp)

theorem noFuel_importDesc : NoFuel parseImportDesc :=
  noFuel_byte.bind fun c => by
    split
    · exact noFuel_idx.bind fun _ => noFuel_pure _
    · exact noFuel_tableTy.bind fun _ => noFuel_pure _
    · exact noFuel_memTy.bind fun _ => noFuel_pure _
    · exact noFuel_globalTy.bind fun _ => noFuel_pure _
    · exact noFuel_fail (by simp)

theorem good_exportDesc : Good parseExportDesc :=
  good_byte.bind fun c => by
    split
    · exact good_idx.bind fun _ => good_pure _
    · exact good_idx.bind fun _ => good_pure _
    · exact good_idx.bind fun _ => good_pure _
    · exact good_idx.bind fun _ => good_pure _
    · exact good_fail (by simp)

theorem noFuel_exportDesc : NoFuel parseExportDesc :=
  noFuel_byte.bind fun c => by
    split
    · exact noFuel_idx.bind fun _ => noFuel_pure _
    · exact noFuel_idx.bind fun _ => noFuel_pure _
    · exact noFuel_idx.bind fun _ => noFuel_pure _
    · exact noFuel_idx.bind fun _ => noFuel_pure _
    · exact noFuel_fail (by simp)

theorem good_import : Good parseImport :=
  good_string.bind fun _ => good_string.bind fun _ => good_importDesc.bind fun _ => good_pure _
theorem noFuel_import : NoFuel parseImport :=
  noFuel_string.bind fun _ => noFuel_string.bind fun _ => noFuel_importDesc.bind fun _ => noFuel_pure _

theorem good_export : Good parseExport :=
  good_string.bind fun _ => good_exportDesc.bind fun _ => good_pure _
theorem noFuel_export : NoFuel parseExport :=
  noFuel_string.bind fun _ => noFuel_exportDesc.bind fun _ => noFuel_pure _

/-! ## Grammar -/

theorem glocals_grun (b : List Byte) (x : Nat × Val) : GRun GVal b x ↔ GLocals .code b x := by
  constructor
  · rintro ⟨h1, h2⟩; exact .mk h1 h2
  · rintro ⟨h1, h2⟩; exact .mk h1 h2

theorem gseq_congr {α : Type} {G H : List Byte → α → Prop} (h : ∀ b x, G b x → H b x) {b : List Byte} {xs : List α}
    (hs : GSeq G b xs) : GSeq H b xs := by
  induction hs with
  | nil => exact .nil
  | cons h1 _ ih => exact .cons (h _ _ h1) ih

theorem gvec_congr {α : Type} {D : Dialect} {G H : List Byte → α → Prop} (h : ∀ b x, G b x → H b x) {b : List Byte}
    {xs : List α} (hs : GVec D G b xs) : GVec D H b xs := by
  cases hs with
  | mk h1 h2 h3 => exact .mk h1 h2 (gseq_congr h h3)

theorem parses_func : Parses parseFunc fun b f => ∃ c, GFunc .code b c ∧ f = { ty := 0, locals := c.1, body := c.2 } := by
  refine (Parses.bind (parses_compactVec parses_val) fun e => Parses.map _ parses_expr).congr fun b y => ⟨?_, ?_⟩
  · rintro ⟨b1, _, b2, ⟨runs, h1, rfl⟩, ⟨m, h2, rfl⟩, rfl⟩
    exact ⟨(expand runs, m), .mk (gvec_congr (fun b x => (glocals_grun b x).mp) h1) trivial h2, rfl⟩
  · rintro ⟨c, ⟨h1, _, h2⟩, rfl⟩
    exact ⟨_, _, _, ⟨_, gvec_congr (fun b x => (glocals_grun b x).mpr) h1, rfl⟩, ⟨_, h2, rfl⟩, rfl⟩

theorem parses_table : Parses parseTable (GTable .code) := by
  refine (Parses.map _ parses_tableTy).congr fun b y => ⟨?_, ?_⟩
  · rintro ⟨m, h2, rfl⟩; exact .mk h2
  · rintro ⟨h⟩; exact ⟨_, h, rfl⟩

theorem parses_mem : Parses parseMem (GMem .code) := by
  refine (Parses.map _ parses_memTy).congr fun b y => ⟨?_, ?_⟩
  · rintro ⟨m, h2, rfl⟩; exact .mk h2
  · rintro ⟨h⟩; exact ⟨_, h, rfl⟩

theorem parses_global : Parses parseGlobal (GGlobal .code) := by
  refine (Parses.bind parses_globalTy fun e => Parses.map _ parses_constExpr).congr fun b y => ⟨?_, ?_⟩
  · rintro ⟨b1, n, b2, h1, ⟨m, h2, rfl⟩, rfl⟩; exact .mk h1 h2
  · rintro ⟨h1, h2⟩; exact ⟨_, _, _, h1, ⟨_, h2, rfl⟩, rfl⟩

theorem parses_start : Parses parseStart (GStart .code) := by
  refine (Parses.map _ parses_idx).congr fun b y => ⟨?_, ?_⟩
  · rintro ⟨m, h2, rfl⟩; exact .mk h2
  · rintro ⟨h⟩; exact ⟨_, h, rfl⟩

theorem parses_elem : Parses parseElem (GElem .code) := by
  refine (Parses.bind parses_idx fun e => Parses.bind parses_constExpr fun _ =>
    Parses.map _ (parses_vec parses_idx)).congr fun b y => ⟨?_, ?_⟩
  · rintro ⟨b1, n, _, h1, ⟨b2, m, b3, h2, ⟨k, h3, rfl⟩, rfl⟩, rfl⟩
    rw [← List.append_assoc]; exact .mk h1 h2 h3
  · rintro ⟨h1, h2, h3⟩; exact ⟨_, _, _, h1, ⟨_, _, _, h2, ⟨_, h3, rfl⟩, rfl⟩, by rw [List.append_assoc]⟩

theorem parses_data : Parses parseData (GData .code) := by
  refine (Parses.bind parses_idx fun e => Parses.bind parses_constExpr fun _ =>
    Parses.map _ parses_vecByte).congr fun b y => ⟨?_, ?_⟩
  · rintro ⟨b1, n, _, h1, ⟨b2, m, b3, h2, ⟨k, h3, rfl⟩, rfl⟩, rfl⟩
    rw [← List.append_assoc]; exact .mk h1 h2 h3
  · rintro ⟨h1, h2, h3⟩; exact ⟨_, _, _, h1, ⟨_, _, _, h2, ⟨_, h3, rfl⟩, rfl⟩, by rw [List.append_assoc]⟩

theorem gimportDesc_inv {D : Dialect} {c : Byte} {b : List Byte} {y : ImportDesc} (h : GImportDesc D (c :: b) y) :
    (c.toNat = 0 ∧ ∃ x, D.u32 b x ∧ y = .func x) ∨ (c.toNat = 1 ∧ ∃ x, GTableTy D b x ∧ y = .table x) ∨
    (c.toNat = 2 ∧ ∃ x, GMemTy D b x ∧ y = .mem x) ∨ (c.toNat = 3 ∧ ∃ x, GGlobalTy b x ∧ y = .global x) := by
  cases h with
  | func h => exact .inl ⟨rfl, _, h, rfl⟩
  | table h => exact .inr (.inl ⟨rfl, _, h, rfl⟩)
  | mem h => exact .inr (.inr (.inl ⟨rfl, _, h, rfl⟩))
  | global h => exact .inr (.inr (.inr ⟨rfl, _, h, rfl⟩))

theorem gexportDesc_inv {D : Dialect} {c : Byte} {b : List Byte} {y : ExportDesc} (h : GExportDesc D (c :: b) y) :
    (c.toNat = 0 ∧ ∃ x, D.u32 b x ∧ y = .func x) ∨ (c.toNat = 1 ∧ ∃ x, D.u32 b x ∧ y = .table x) ∨
    (c.toNat = 2 ∧ ∃ x, D.u32 b x ∧ y = .mem x) ∨ (c.toNat = 3 ∧ ∃ x, D.u32 b x ∧ y = .global x) := by
  cases h with
  | func h => exact .inl ⟨rfl, _, h, rfl⟩
  | table h => exact .inr (.inl ⟨rfl, _, h, rfl⟩)
  | mem h => exact .inr (.inr (.inl ⟨rfl, _, h, rfl⟩))
  | global h => exact .inr (.inr (.inr ⟨rfl, _, h, rfl⟩))

theorem parses_importDesc : Parses parseImportDesc (GImportDesc .code) := by
  refine parses_switch (fun y h => by cases h) fun c => ?_
  split
  case h_1 hc =>
    refine (Parses.map _ parses_idx).congr fun b y => ⟨?_, fun h => ?_⟩
    · rintro ⟨x, h, rfl⟩; obtain rfl := byte_of_toNat hc; exact .func h
    · have := gimportDesc_inv h; simp_all
  case h_2 hc =>
    refine (Parses.map _ parses_tableTy).congr fun b y => ⟨?_, fun h => ?_⟩
    · rintro ⟨x, h, rfl⟩; obtain rfl := byte_of_toNat hc; exact .table h
    · have := gimportDesc_inv h; simp_all
  case h_3 hc =>
    refine (Parses.map _ parses_memTy).congr fun b y => ⟨?_, fun h => ?_⟩
    · rintro ⟨x, h, rfl⟩; obtain rfl := byte_of_toNat hc; exact .mem h
    · have := gimportDesc_inv h; simp_all
  case h_4 hc =>
    refine (Parses.map _ parses_globalTy).congr fun b y => ⟨?_, fun h => ?_⟩
    · rintro ⟨x, h, rfl⟩; obtain rfl := byte_of_toNat hc; exact .global h
    · have := gimportDesc_inv h; simp_all
  case h_5 h1 h2 h3 h4 =>
    refine (parses_fail _).congr fun b y => ⟨False.elim, fun h => ?_⟩
    have := gimportDesc_inv h; simp_all

theorem parses_exportDesc : Parses parseExportDesc (GExportDesc .code) := by
  refine parses_switch (fun y h => by cases h) fun c => ?_
  split
  case h_1 hc =>
    refine (Parses.map _ parses_idx).congr fun b y => ⟨?_, fun h => ?_⟩
    · rintro ⟨x, h, rfl⟩; obtain rfl := byte_of_toNat hc; exact .func h
    · have := gexportDesc_inv h; simp_all
  case h_2 hc =>
    refine (Parses.map _ parses_idx).congr fun b y => ⟨?_, fun h => ?_⟩
    · rintro ⟨x, h, rfl⟩; obtain rfl := byte_of_toNat hc; exact .table h
    · have := gexportDesc_inv h; simp_all
  case h_3 hc =>
    refine (Parses.map _ parses_idx).congr fun b y => ⟨?_, fun h => ?_⟩
    · rintro ⟨x, h, rfl⟩; obtain rfl := byte_of_toNat hc; exact .mem h
    · have := gexportDesc_inv h; simp_all
  case h_4 hc =>
    refine (Parses.map _ parses_idx).congr fun b y => ⟨?_, fun h => ?_⟩
    · rintro ⟨x, h, rfl⟩; obtain rfl := byte_of_toNat hc; exact .global h
    · have := gexportDesc_inv h; simp_all
  case h_5 h1 h2 h3 h4 =>
    refine (parses_fail _).congr fun b y => ⟨False.elim, fun h => ?_⟩
    have := gexportDesc_inv h; simp_all

theorem parses_import : Parses parseImport (GImport .code) := by
  refine (Parses.bind parses_string fun e => Parses.bind parses_string fun _ =>
    Parses.map _ parses_importDesc).congr fun b y => ⟨?_, ?_⟩
  · rintro ⟨b1, n, _, h1, ⟨b2, m, b3, h2, ⟨k, h3, rfl⟩, rfl⟩, rfl⟩
    rw [← List.append_assoc]; exact .mk h1 h2 h3
  · rintro ⟨h1, h2, h3⟩; exact ⟨_, _, _, h1, ⟨_, _, _, h2, ⟨_, h3, rfl⟩, rfl⟩, by rw [List.append_assoc]⟩

theorem parses_export : Parses parseExport (GExport .code) := by
  refine (Parses.bind parses_string fun e => Parses.map _ parses_exportDesc).congr fun b y => ⟨?_, ?_⟩
  · rintro ⟨b1, n, b2, h1, ⟨m, h2, rfl⟩, rfl⟩; exact .mk h1 h2
  · rintro ⟨h1, h2⟩; exact ⟨_, _, _, h1, ⟨_, h2, rfl⟩, rfl⟩

/-! ## Custom sections -/

section
variable {α β : Type}

/-- The part of `Good` that also holds of parsers that look at the end of the input. -/
structure Safe (p : P α) : Prop where
  forward : ∀ s, (p s).2 <:+ s
  noPanic : ∀ s, (p s).1 ≠ .error .panic
  noFuel : ∀ s, (p s).1 ≠ .error .fuel

theorem Good.safe {p : P α} (h : Good p) (h' : NoFuel p) : Safe p := ⟨h.forward, h.noPanic, h'⟩

theorem safe_pure (x : α) : Safe (pure x : P α) := (good_pure x).safe (noFuel_pure x)

theorem safe_fail {e : Error} (h1 : e ≠ .panic) (h2 : e ≠ .fuel) : Safe (P.fail e : P α) :=
  (good_fail h1).safe (noFuel_fail h2)

theorem forward_bind {p : P α} {f : α → P β} (hp : ∀ s, (p s).2 <:+ s) (hf : ∀ x s, (f x s).2 <:+ s) (s : List Byte) :
    ((p >>= f) s).2 <:+ s := by
  have h0 := hp s
  rcases bind_cases p f s with ⟨x, s', h1, h2⟩ | ⟨e, s', h1, h2⟩
  · rw [h2]; rw [h1] at h0; exact (hf x s').trans h0
  · rw [h2]; rw [h1] at h0; exact h0

theorem error_bind {e : Error} {p : P α} {f : α → P β} (hp : ∀ s, (p s).1 ≠ .error e) (hf : ∀ x s, (f x s).1 ≠ .error e)
    (s : List Byte) : ((p >>= f) s).1 ≠ .error e := by
  have h0 := hp s
  rcases bind_cases p f s with ⟨x, s', h1, h2⟩ | ⟨e', s', h1, h2⟩
  · rw [h2]; exact hf x s'
  · rw [h2]; rw [h1] at h0; intro h; apply h0; cases h; rfl

theorem Safe.bind {p : P α} {f : α → P β} (hp : Safe p) (hf : ∀ x, Safe (f x)) : Safe (p >>= f) :=
  ⟨forward_bind hp.forward fun x => (hf x).forward, error_bind hp.noPanic fun x => (hf x).noPanic,
    error_bind hp.noFuel fun x => (hf x).noFuel⟩

theorem sizedBody_error {e : Error} (he : e ≠ .sizeMissmatch) {p : P α} (hp : ∀ s, (p s).1 ≠ .error e) (n : Nat)
    (s : List Byte) : (sizedBody p n s).1 ≠ .error e := by
  have h := hp (s.take n)
  unfold sizedBody
  rcases hq : p (s.take n) with ⟨e' | x, r⟩ <;> rw [hq] at h
  · simpa using h
  · simp only; split
    · intro h'; cases h'; exact he rfl
    · intro h'; cases h'

theorem safe_sized {p : P α} (hp : Safe p) : Safe (parseSized p) := by
  rw [parseSized_eq]
  exact (good_u32.safe noFuel_u32).bind fun n => ⟨sizedBody_forward hp.forward _, sizedBody_error (by simp) hp.noPanic _,
    sizedBody_error (by simp) hp.noFuel _⟩

end

theorem safe_consume : Safe parseConsume :=
  ⟨fun s => List.nil_suffix, fun s h => (by cases h), fun s h => (by cases h)⟩

theorem safe_custom : Safe parseCustom :=
  (good_string.safe noFuel_string).bind fun _ => safe_consume.bind fun _ => safe_pure _

theorem custom_nil_iff (b : List Byte) (x : Name × Nat) : parseCustom b = (.ok x, []) ↔
    ∃ c rest, b = c ++ rest ∧ GName .code c x.1 ∧ x.2 = rest.length := by
  unfold parseCustom
  rw [bind_ok_iff]
  constructor
  · rintro ⟨n, s', h1, h2⟩
    obtain ⟨c, rfl, hc⟩ := (parses_string _ _ _).mp h1
    cases h2
    exact ⟨c, s', rfl, hc, rfl⟩
  · rintro ⟨c, rest, rfl, hc, hl⟩
    refine ⟨x.1, rest, (parses_string _ _ _).mpr ⟨c, rfl, hc⟩, ?_⟩
    obtain ⟨x1, x2⟩ := x
    cases hl
    rfl

theorem parses_sizedCustom : Parses (parseSized parseCustom) (GSized .code fun b x =>
    ∃ c rest, b = c ++ rest ∧ GName .code c x.1 ∧ x.2 = rest.length) :=
  parses_sized' safe_custom.forward custom_nil_iff

end Whasm
