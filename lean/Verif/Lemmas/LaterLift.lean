import Verif.Lemmas.Later

/-!
# Files of 1.0 are files of later versions
-/

namespace Whasm.Later
open Spec Spec.Pass Spec.Later Pass

theorem w3c_le_later : DialectLe .w3c dialect where
  u32 := id
  s32 := id
  s64 := id
  reserved := by
    rintro b v ⟨rfl, rfl⟩
    exact .last (by decide) (by decide)
  locals := id
  code := id

/-- What is read in one way can be read in the other. -/
def Lifts {α β : Type} (G : List Byte → α → Prop) (H : List Byte → β → Prop) (P : α → Prop) (R : α → β → Prop) : Prop :=
  ∀ (b : List Byte) (x : α), G b x → P x → ∃ y, H b y ∧ R x y

theorem UN_wider {N N' : Nat} {b : List Byte} {n : Nat} (h : UN N b n) (hN : N ≤ N') : UN N' b n := by
  induction h generalizing N' with
  | last h1 h2 => exact .last h1 (Nat.lt_of_lt_of_le h2 (Nat.pow_le_pow_right (by decide) hN))
  | more h1 h2 _ ih => exact .more h1 (by omega) (ih (by omega))

section
variable {α β : Type} {G : List Byte → α → Prop} {H : List Byte → β → Prop} {P : α → Prop} {R : α → β → Prop}

theorem seq_lifts (h : Lifts G H P R) : ∀ {xs : List α} {b : List Byte}, GSeq G b xs → (∀ x ∈ xs, P x) → ∃ ys, GSeq H b ys ∧ Related R xs ys
  | [], _, .nil, _ => ⟨[], .nil, .nil⟩
  | x :: xs, _, .cons h1 h2, hP => by
    obtain ⟨y, h3, h4⟩ := h _ _ h1 (hP x List.mem_cons_self)
    obtain ⟨ys, h5, h6⟩ := seq_lifts h h2 fun x hx => hP x (List.mem_cons_of_mem _ hx)
    exact ⟨y :: ys, .cons h3 h5, .cons h4 h6⟩

theorem vec_lifts (h : Lifts G H P R) : Lifts (GVec .w3c G) (GVec dialect H) (fun xs => ∀ x ∈ xs, P x) (Related R) := by
  rintro b xs ⟨h1, h2, h3⟩ hP
  obtain ⟨ys, h4, h5⟩ := seq_lifts h h3 hP
  exact ⟨ys, .mk h1 ((related_length h5).symm.trans h2) h4, h5⟩

theorem sized_lifts (h : Lifts G H P R) : Lifts (GSized .w3c G) (GSized dialect H) P R := by
  rintro b x ⟨h1, h2, h3⟩ hP
  obtain ⟨y, h4, h5⟩ := h _ _ h3 hP
  exact ⟨y, .mk h1 h2 h4, h5⟩
end

abbrev Any {α β : Type} : α → β → Prop := fun _ _ => True

theorem val_lifts : Lifts GVal GValTy All fun t y => y = .old t := fun _ t h _ => ⟨.old t, .old h, rfl⟩

theorem defTy_lifts : Lifts (GFuncTy .w3c) GDefTy All Any := by
  rintro b t ⟨h1, h2⟩ _
  obtain ⟨ps, h3, _⟩ := vec_lifts val_lifts _ _ h1 fun _ _ => trivial
  obtain ⟨rs, h4, _⟩ := vec_lifts val_lifts _ _ h2 fun _ _ => trivial
  exact ⟨.func ps rs, .func h3 h4, trivial⟩

theorem lim_lifts : Lifts (GLimits .w3c) GLim All Any := by
  intro b l h _
  cases h with
  | min h => exact ⟨_, .min (UN_wider h (by decide)), trivial⟩
  | minMax h h' => exact ⟨_, .minMax (UN_wider h (by decide)) (UN_wider h' (by decide)), trivial⟩

theorem tabTy_lifts : Lifts (GTableTy .w3c) GTabTy All Any := by
  rintro b t ⟨⟨⟩, h2⟩ _
  obtain ⟨l, h, _⟩ := lim_lifts _ _ h2 trivial
  exact ⟨_, .old h, trivial⟩

theorem globTy_lifts : Lifts GGlobalTy GGlobTy All Any := by
  rintro b t ⟨h1, h2⟩ _
  exact ⟨_, .mk (.old h1) (.old h2), trivial⟩

theorem u32_lifts : Lifts Dialect.w3c.u32 dialect.u32 All Any := fun _ x h _ => ⟨x, h, trivial⟩

theorem bytes_lift : Lifts (GVec .w3c GByte) (GVec dialect GByte) All Any := by
  rintro b xs ⟨h1, h2, h3⟩ _
  exact ⟨xs, .mk h1 h2 h3, trivial⟩

theorem name_lifts : Lifts (GName .w3c) (GName dialect) All Any := by
  rintro b n ⟨⟨h1, h2, h3⟩, h4⟩ _
  exact ⟨n, .mk (.mk h1 h2 h3) h4, trivial⟩

/-! ## Code -/

theorem op_lifts : Lifts (GOp .w3c) GCodeOp SmallOp fun op y => y = code op := by
  intro b op h hs
  refine ⟨code op, ?_, rfl⟩
  by_cases ha : Access op
  · cases h with
    | instr h _ =>
      cases h with
      | load o h1 h2 => exact .load o (.old h1 hs (UN_wider h2 (by decide)))
      | store o h1 h2 => exact .store o (.old h1 hs (UN_wider h2 (by decide)))
      | _ => exact ha.elim
    | _ => exact ha.elim
  · have : code op = .old op := by
      unfold code
      split
      · exact (ha trivial).elim
      · exact (ha trivial).elim
      · rfl
    rw [this]
    exact .old (gop_mono w3c_le_later h) ha

theorem expr_lifts : Lifts (GExpr .w3c) GCodeExpr (fun e => ∀ i, Occurs i e → Small i) Any := by
  rintro b e ⟨h⟩ hP
  obtain ⟨ops, h3, hf⟩ := ops_of_instrs h
  have h4 : GSeq (GOp .w3c) _ (ops ++ [.endOp]) := gseq_append h3 (gseq_single .endOp)
  have h5 : Closes 1 ((ops ++ [Op.endOp]).map code) := by
    rw [List.map_append]
    exact (closes_flatL hf 0 _).mpr trivial
  obtain ⟨ys, h7, h8⟩ := seq_lifts op_lifts h4 (flat_small hf hP)
  obtain rfl := related_map h8
  exact ⟨_, .mk h7 h5, trivial⟩

/-! ## Sections -/

theorem impDesc_lifts : Lifts (GImportDesc .w3c) GImpDesc All Any := by
  intro b d h _
  cases h with
  | func h => exact ⟨_, .func h, trivial⟩
  | table h => obtain ⟨_, h, _⟩ := tabTy_lifts _ _ h trivial; exact ⟨_, .table h, trivial⟩
  | mem h => obtain ⟨h⟩ := h; obtain ⟨_, h, _⟩ := lim_lifts _ _ h trivial; exact ⟨_, .mem h, trivial⟩
  | global h => obtain ⟨_, h, _⟩ := globTy_lifts _ _ h trivial; exact ⟨_, .global h, trivial⟩

theorem imp_lifts : Lifts (GImport .w3c) GImp All Any := by
  rintro b i ⟨h1, h2, h3⟩ _
  obtain ⟨_, h1, _⟩ := name_lifts _ _ h1 trivial
  obtain ⟨_, h2, _⟩ := name_lifts _ _ h2 trivial
  obtain ⟨_, h3, _⟩ := impDesc_lifts _ _ h3 trivial
  exact ⟨_, .mk h1 h2 h3, trivial⟩

theorem exp_lifts : Lifts (GExport .w3c) GExp All Any := by
  rintro b i ⟨h1, h2⟩ _
  obtain ⟨_, h1, _⟩ := name_lifts _ _ h1 trivial
  cases h2 with
  | func h => exact ⟨_, .mk h1 (.old (.func h)), trivial⟩
  | table h => exact ⟨_, .mk h1 (.old (.table h)), trivial⟩
  | mem h => exact ⟨_, .mk h1 (.old (.mem h)), trivial⟩
  | global h => exact ⟨_, .mk h1 (.old (.global h)), trivial⟩

theorem table_lifts : Lifts (GTable .w3c) GTabTy All Any := by
  rintro b x ⟨h⟩ _
  obtain ⟨_, h, _⟩ := tabTy_lifts _ _ h trivial
  exact ⟨_, h, trivial⟩

theorem mem_lifts : Lifts (GMem .w3c) GLim All Any := by
  rintro b x ⟨⟨h⟩⟩ _
  obtain ⟨_, h, _⟩ := lim_lifts _ _ h trivial
  exact ⟨_, h, trivial⟩

theorem glob_lifts : Lifts (GGlobal .w3c) GGlob (fun g => ∀ i, Occurs i g.init → Small i) Any := by
  rintro b x ⟨h1, h2⟩ hP
  obtain ⟨_, h1, _⟩ := globTy_lifts _ _ h1 trivial
  obtain ⟨_, h2, _⟩ := expr_lifts _ _ h2 hP
  exact ⟨_, .mk h1 h2, trivial⟩

theorem elem_lifts : Lifts (GElem .w3c) GElemSeg (fun x => x.table = 0 ∧ ∀ i, Occurs i x.offset → Small i) Any := by
  rintro b x ⟨h1, h2, h3⟩ ⟨h4, hP⟩
  dsimp only at h4
  subst h4
  obtain ⟨_, h2, _⟩ := expr_lifts _ _ h2 hP
  obtain ⟨_, h3, _⟩ := vec_lifts u32_lifts _ _ h3 fun _ _ => trivial
  exact ⟨_, .old h1 h2 h3, trivial⟩

theorem data_lifts : Lifts (GData .w3c) GDataSeg (fun x => x.mem = 0 ∧ ∀ i, Occurs i x.offset → Small i) Any := by
  rintro b x ⟨h1, h2, h3⟩ ⟨h4, hP⟩
  dsimp only at h4
  subst h4
  obtain ⟨_, h2, _⟩ := expr_lifts _ _ h2 hP
  obtain ⟨_, h3, _⟩ := bytes_lift _ _ h3 trivial
  exact ⟨_, .old h1 h2 h3, trivial⟩

theorem run_lifts : Lifts (GLocals .w3c) GLocalRun All fun x y => y = (x.1, .old x.2) := by
  rintro b x ⟨h1, h2⟩ _
  exact ⟨_, .mk h1 (.old h2), rfl⟩

theorem body_lifts : Lifts (GFunc .w3c) GBody (fun x => ∀ i, Occurs i x.2 → Small i) Any := by
  rintro b x ⟨h1, h2, h3⟩ hP
  rename_i runs e
  obtain ⟨_, h1, h4⟩ := vec_lifts run_lifts _ _ h1 fun _ _ => trivial
  obtain rfl := related_map h4
  obtain ⟨_, h3, _⟩ := expr_lifts _ _ h3 hP
  refine ⟨_, .mk h1 ?_ h3, trivial⟩
  have : (expand runs).length = ((runs.map fun x => (x.1, ValTy.old x.2)).map (·.1)).sum := by
    simp [expand, List.length_flatMap, Function.comp_def]
  rw [← this]
  exact h2

theorem sect_lifts {α β : Type} {k : Byte} {G : List Byte → α → Prop} {H : List Byte → β → Prop} {P : α → Prop}
    {l secs : List (Byte × List Byte)} {xs : List α} (hc : Content .w3c k G l xs) (hm : ∀ c, (k, c) ∈ secs ↔ (k, c) ∈ l) (hP : ∀ x ∈ xs, P x)
    (h : Lifts G H P Any) : ∃ ys, Sect k H secs ys ∧ ys.length = xs.length := by
  rcases hc with ⟨rfl, rfl⟩ | ⟨c, rfl, h1⟩
  · exact ⟨[], .absent fun c hc => (by cases (hm c).mp hc), rfl⟩
  · obtain ⟨ys, h2, h3⟩ := vec_lifts h _ _ h1 hP
    exact ⟨ys, .present ((hm c).mpr (List.mem_singleton.mpr rfl)) h2, (related_length h3).symm⟩

theorem ids_append (a b : List (Byte × List Byte)) : secIds (a ++ b) = secIds a ++ secIds b := by simp [secIds]

theorem ids_customs {l : List (Byte × List Byte)} (h : Piece.Ok (0x00, l)) : secIds l = [] := by
  simp only [secIds, List.filter_eq_nil_iff, List.mem_map]
  rintro _ ⟨x, hx, rfl⟩
  simp [h x hx]

theorem ids_content {α : Type} {k : Byte} {G : List Byte → α → Prop} {l : List (Byte × List Byte)} {xs : List α} (h : Content .w3c k G l xs) : (secIds l).Sublist [k.toNat] := by
  rcases h with ⟨rfl, _⟩ | ⟨c, rfl, _⟩
  · exact List.nil_sublist _
  · exact List.filter_sublist

theorem file_lifts {s : List Byte} {m : Module} (h : GModule .w3c s m) (hm : NoRoom m) : ∃ y, GLater s y := by
  obtain ⟨b, l0, l1, l2, l3, l4, l5, l6, l7, l8, l9, l10, l11, s1, s2, s3, s4, s5, s6, s7, s8, s9, s10, s11, tys, rfl, hr, hp, c1, c2, c3, c4, c5, c6, c7, c8, c9, c10, c11⟩ := module_raw w3c_le_code h
  generalize e : (l0 ++ (s1 ++ (l1 ++ (s2 ++ (l2 ++ (s3 ++ (l3 ++ (s4 ++ (l4 ++ (s5 ++ (l5 ++ (s6 ++ (l6 ++ (s7 ++ (l7 ++ (s8 ++ (l8 ++ (s9 ++ (l9 ++ (s10 ++ (l10 ++ (s11 ++ l11)))))))))))))))))))))) = secs at hr
  have e' : secs = ([(0x00, l0), (0x01, s1), (0x00, l1), (0x02, s2), (0x00, l2), (0x03, s3), (0x00, l3), (0x04, s4), (0x00, l4), (0x05, s5), (0x00, l5), (0x06, s6), (0x00, l6), (0x07, s7), (0x00, l7), (0x08, s8),
      (0x00, l8), (0x09, s9), (0x00, l9), (0x0A, s10), (0x00, l10), (0x0B, s11), (0x00, l11)] : List Piece).flatMap (·.2) := by
    rw [← e]; simp
  have hk : ∀ {k : Byte} {l : List (Byte × List Byte)}, _ → _ → ∀ c, (k, c) ∈ secs ↔ (k, c) ∈ l := fun {k l} h1 h2 c => by
    rw [e']; exact mem_piece hp h1 h2 c
  rcases c10 with ⟨_, _, hc⟩ | ⟨codes, c10, hl, hf⟩
  · exact hc.elim
  have hcs := hm.bodies
  rw [hf] at hcs
  obtain ⟨y1, d1, _⟩ := sect_lifts c1 (hk (by simp) (by simp)) (fun _ _ => trivial) defTy_lifts
  obtain ⟨y2, d2, _⟩ := sect_lifts c2 (hk (by simp) (by simp)) (fun _ _ => trivial) imp_lifts
  obtain ⟨y3, d3, n3⟩ := sect_lifts c3 (hk (by simp) (by simp)) (fun _ _ => trivial) u32_lifts
  obtain ⟨y4, d4, _⟩ := sect_lifts c4 (hk (by simp) (by simp)) (fun _ _ => trivial) table_lifts
  obtain ⟨y5, d5, _⟩ := sect_lifts c5 (hk (by simp) (by simp)) (fun _ _ => trivial) mem_lifts
  obtain ⟨y6, d6, _⟩ := sect_lifts c6 (hk (by simp) (by simp)) hm.inits glob_lifts
  obtain ⟨y7, d7, _⟩ := sect_lifts c7 (hk (by simp) (by simp)) (fun _ _ => trivial) exp_lifts
  obtain ⟨y9, d9, _⟩ := sect_lifts c9 (hk (by simp) (by simp)) (fun x hx => ⟨hm.elem x hx, hm.elemOffsets x hx⟩) elem_lifts
  obtain ⟨y10, d10, n10⟩ := sect_lifts c10 (hk (by simp) (by simp)) (codes_small hl hcs) (sized_lifts body_lifts)
  obtain ⟨y11, d11, _⟩ := sect_lifts c11 (hk (by simp) (by simp)) (fun x hx => ⟨hm.data x hx, hm.dataOffsets x hx⟩) data_lifts
  have k8 := hk (k := 0x08) (l := s8) (by simp) (by simp)
  obtain ⟨y8, d8⟩ : ∃ y, StartSect secs y := by
    rcases c8 with ⟨rfl, _⟩ | ⟨c, x, rfl, _, ⟨h⟩⟩
    · exact ⟨none, .absent fun c hc => (by cases (k8 c).mp hc)⟩
    · exact ⟨_, .present ((k8 c).mpr (List.mem_singleton.mpr rfl)) h⟩
  refine ⟨⟨y1, y2, y3, y4, y5, y6, y7, y8, y9, y10, y11⟩, ⟨b, secs, rfl, hr, ?_, d1, d2, d3, d4, d5, d6, d7, d8, d9, d10, d11⟩, (n10.trans hl).trans n3.symm⟩
  simp only [List.forall_mem_cons] at hp
  obtain ⟨o0, _, o1, _, o2, _, o3, _, o4, _, o5, _, o6, _, o7, _, o8, _, o9, _, o10, _, o11, _⟩ := hp
  have i8 : (secIds s8).Sublist [8] := by
    rcases c8 with ⟨rfl, _⟩ | ⟨c, x, rfl, _, _⟩
    · exact List.nil_sublist _
    · exact List.filter_sublist
  rw [← e]
  simp only [ids_append, ids_customs o0, ids_customs o1, ids_customs o2, ids_customs o3, ids_customs o4, ids_customs o5, ids_customs o6, ids_customs o7, ids_customs o8, ids_customs o9, ids_customs o10, ids_customs o11,
    List.nil_append, List.append_nil]
  refine List.Sublist.trans ?_ (show [1, 2, 3, 4, 5, 6, 7, 8, 9, 10, 11].Sublist order by decide)
  exact (ids_content c1).append ((ids_content c2).append ((ids_content c3).append ((ids_content c4).append ((ids_content c5).append ((ids_content c6).append ((ids_content c7).append (i8.append
    ((ids_content c9).append ((ids_content c10).append (ids_content c11))))))))))

/-! ## What a file says leaves no room -/

theorem related_mem {α β : Type} {R : α → β → Prop} : ∀ {xs : List α} {ys : List β}, Related R xs ys → ∀ x ∈ xs, ∃ y ∈ ys, R x y
  | _, _, .cons h hs, x, hx => by
    rcases List.mem_cons.mp hx with rfl | hx
    · exact ⟨_, List.mem_cons_self, h⟩
    · obtain ⟨y, h1, h2⟩ := related_mem hs x hx
      exact ⟨y, List.mem_cons_of_mem _ h1, h2⟩

theorem seq_mem {β : Type} {H : List Byte → β → Prop} : ∀ {ys : List β} {b : List Byte}, GSeq H b ys → ∀ y ∈ ys, ∃ b, H b y
  | _, _, .cons h hs, y, hy => by
    rcases List.mem_cons.mp hy with rfl | hy
    · exact ⟨_, h⟩
    · exact seq_mem hs y hy

theorem sect_mem {β : Type} {k : Byte} {H : List Byte → β → Prop} {secs : List (Byte × List Byte)} {ys : List β} (h : Sect k H secs ys) : ∀ y ∈ ys, ∃ b, H b y := by
  cases h with
  | absent => exact fun y hy => (by cases hy)
  | present _ h =>
    obtain ⟨_, _, h⟩ := h
    exact seq_mem h

theorem memArg_small {b : List Byte} {y : Nat × Nat × Nat} (h : GMemArg b y) : y.2.1 < 64 := by
  cases h with
  | old _ h _ => exact h
  | «at» _ h1 h2 _ _ => show _ - 64 < 64; omega

theorem said_small {b : List Byte} {e : Expr} {cs : List Code} (h : GCodeExpr b cs) (hs : SameExpr e cs) (i : Instr) (hi : Occurs i e) : Small i := by
  obtain ⟨h, _⟩ := h
  obtain ⟨ops, hf, rfl⟩ := hs
  have key : Simple i → ∃ b, GCodeOp b (code (.instr i)) := fun hsi =>
    seq_mem h _ (List.mem_map_of_mem (List.mem_append_left _ ((occurs_flatL hf hsi).mpr hi)))
  cases i with
  | load op a o =>
    obtain ⟨b, h⟩ := key trivial
    cases h with
    | load _ h => exact memArg_small h
  | store op a o =>
    obtain ⟨b, h⟩ := key trivial
    cases h with
    | store _ h => exact memArg_small h
  | _ => trivial

theorem said_noRoom {s : List Byte} {m : Module} {y : File} (hy : GLater s y) (h : Says y m) : NoRoom m := by
  obtain ⟨⟨b, secs, _, _, _, _, _, _, _, _, d6, _, _, d9, d10, d11⟩, _⟩ := hy
  have hel : ∀ e ∈ m.elem, e.table = 0 ∧ ∀ i, Occurs i e.offset → Small i := by
    intro e he
    obtain ⟨_, h1, cs, rfl, h2, h3⟩ := related_mem h.elem e he
    obtain ⟨_, h4⟩ := sect_mem d9 _ h1
    cases h4 with
    | old _ h4 _ => exact ⟨h2, said_small h4 h3⟩
  have hda : ∀ e ∈ m.data, e.mem = 0 ∧ ∀ i, Occurs i e.offset → Small i := by
    intro e he
    obtain ⟨_, h1, cs, rfl, h2, h3⟩ := related_mem h.data e he
    obtain ⟨_, h4⟩ := sect_mem d11 _ h1
    cases h4 with
    | old _ h4 _ => exact ⟨h2, said_small h4 h3⟩
  refine ⟨fun e he => (hel e he).1, fun e he => (hda e he).1, fun f hf => ?_, fun g hg => ?_, fun e he => (hel e he).2, fun e he => (hda e he).2⟩
  · obtain ⟨⟨ls, cs⟩, h1, _, h3⟩ := related_mem h.bodies f hf
    obtain ⟨_, ⟨_, _, ⟨_, _, h4⟩⟩⟩ := sect_mem d10 _ h1
    exact said_small h4 h3
  · obtain ⟨⟨t, cs⟩, h1, _, h3⟩ := related_mem h.globals g hg
    obtain ⟨_, ⟨_, h4⟩⟩ := sect_mem d6 _ h1
    exact said_small h4 h3

end Whasm.Later
