import Verif.Props.Pass
import Verif.Props.Typing
import Verif.Spec.PassFile

/-!
# C100, whole files: one pass over the bytes of a file comes to the verdict of the crate
-/

namespace Whasm
open Spec Spec.Pass Pass

section
variable {D : Dialect} {α β : Type} {G : List Byte → α → Prop} {G' : List Byte → β → Prop} {Q : α → β → Prop}

theorem Spec.Related.length : ∀ {xs : List α} {ys : List β}, Related Q xs ys → ys.length = xs.length
  | _, _, .nil => rfl
  | _, _, .cons _ h => congrArg (· + 1) h.length

theorem Spec.Related.swap : ∀ {xs : List α} {ys : List β}, Related Q xs ys → Related (fun y x => Q x y) ys xs
  | _, _, .nil => .nil
  | _, _, .cons h hs => .cons h hs.swap

theorem gseq_rel : ∀ {xs : List α} {b : List Byte}, (∀ b x, x ∈ xs → G b x → ∃ y, G' b y ∧ Q x y) → GSeq G b xs → ∃ ys, GSeq G' b ys ∧ Related Q xs ys
  | [], _, _, .nil => ⟨[], .nil, .nil⟩
  | x :: xs, _, hG, .cons h1 h2 => by
    obtain ⟨y, h3, h4⟩ := hG _ x List.mem_cons_self h1
    obtain ⟨ys, h5, h6⟩ := gseq_rel (fun b x hx => hG b x (List.mem_cons_of_mem _ hx)) h2
    exact ⟨y :: ys, .cons h3 h5, .cons h4 h6⟩

theorem gvecSection_rel {id : Byte} {xs : List α} {b : List Byte} (hG : ∀ b x, x ∈ xs → G b x → ∃ y, G' b y ∧ Q x y) (h : GVecSection D id (GSized D G) b xs) :
    ∃ ys, GVecSection D id (GSized D G') b ys ∧ Related Q xs ys := by
  cases h with
  | absent => exact ⟨[], .absent, .nil⟩
  | present h =>
    obtain ⟨⟨h1, h2, h3⟩⟩ := h
    obtain ⟨h4, h5, h6⟩ := h3
    obtain ⟨ys, h7, h8⟩ := gseq_rel (G' := GSized D G') (Q := Q) (fun b x hx hb => by
      obtain ⟨h1, h2, h3⟩ := hb
      obtain ⟨y, h4, h5⟩ := hG _ x hx h3
      exact ⟨y, .mk h1 h2 h4, h5⟩) h6
    exact ⟨ys, .present (.mk (.mk h1 h2 (.mk h4 (h8.length.trans h5) h7))), h8⟩
end

/-- The module without its bodies. -/
def bare (m : Module) : Module := { m with funcs := m.funcs.map fun f => { f with body := [] } }

theorem bare_funcSpace (m : Module) : funcSpace (bare m) = funcSpace m := by
  simp [funcSpace, bare, importedFuncs, List.filterMap_map, Function.comp_def]

theorem bare_moduleEnv (R : Rules) (m : Module) : moduleEnv R (bare m) = moduleEnv R m := by
  unfold moduleEnv
  rw [bare_funcSpace]
  rfl

theorem bare_bodyEnv (R : Rules) (m : Module) (t : FuncTy) (ls : List Val) : bodyEnv R (bare m) t ls = bodyEnv R m t ls := by
  unfold bodyEnv
  rw [bare_moduleEnv]

theorem bare_exportType (m : Module) (e : Export) : exportType (bare m) e = exportType m e := by
  unfold exportType
  rw [bare_funcSpace]
  rfl

theorem bare_externals (m : Module) : externals (bare m) = externals m := by
  unfold externals
  rw [show exportType (bare m) = exportType m from funext (bare_exportType m)]
  rfl

theorem bare_decls {R : Rules} (hR : R = .w3c ∨ R = .code) (m : Module) : DeclsOk R (bare m) ↔ DeclsOk R m := by
  have h1 : R.initGlobals (bare m) = R.initGlobals m := by rcases hR with rfl | rfl <;> rfl
  have h2 : R.tableCount (bare m) = R.tableCount m := by rcases hR with rfl | rfl <;> rfl
  have h3 : R.memCount (bare m) = R.memCount m := by rcases hR with rfl | rfl <;> rfl
  have h4 : ∀ e, ElemOk R (bare m) e ↔ ElemOk R m e := fun e => by unfold ElemOk; rw [bare_moduleEnv, bare_funcSpace]; exact Iff.rfl
  have h5 : ∀ d, DataOk R (bare m) d ↔ DataOk R m d := fun d => by unfold DataOk; rw [bare_moduleEnv]; exact Iff.rfl
  constructor
  · intro h
    exact ⟨h.types, h.tables, h.mems, fun g hg => h1 ▸ h.globals g hg, fun e he => (h4 e).mp (h.elem e he), fun d hd => (h5 d).mp (h.data d hd),
      fun s hs => bare_funcSpace m ▸ h.start s hs, h.imports, h.importTables, h.importMems, fun e he => bare_exportType m e ▸ h.exports e he, h2 ▸ h.oneTable, h3 ▸ h.oneMem, h.names⟩
  · intro h
    exact ⟨h.types, h.tables, h.mems, fun g hg => h1.symm ▸ h.globals g hg, fun e he => (h4 e).mpr (h.elem e he), fun d hd => (h5 d).mpr (h.data d hd),
      fun s hs => (bare_funcSpace m).symm ▸ h.start s hs, h.imports, h.importTables, h.importMems, fun e he => (bare_exportType m e).symm ▸ h.exports e he, h2.symm ▸ h.oneTable, h3.symm ▸ h.oneMem, h.names⟩

/-- The same code, as a tree and in sequence. -/
def SameCode (x : List Val × Expr) (y : List Val × List Op) : Prop := x.1 = y.1 ∧ ∃ ops, y.2 = ops ++ [.endOp] ∧ FlatL ops x.2

theorem SameCode.accepts {x : List Val × Expr} {y : List Val × List Op} (h : SameCode x y) (C : Env) (r : List Val) : Accepts C r y.2 ↔ ExprType C x.2 r := by
  obtain ⟨_, ops, e, hf⟩ := h
  rw [e]
  exact accepts_flat hf

def blank (ty : Idx) (c : List Val × List Op) : Func := { ty := ty, locals := c.1, body := [] }

theorem same_bare : ∀ (tys : List Idx) {xs : List (List Val × Expr)} {ys : List (List Val × List Op)}, Related SameCode xs ys →
    List.zipWith blank tys ys = (pairFuncs tys xs).map fun f => { f with body := [] }
  | [], _, _, _ => by simp [pairFuncs]
  | _ :: _, _, _, .nil => by simp [pairFuncs]
  | ty :: tys, _, _, .cons h hs => by
    have := same_bare tys hs
    simp only [pairFuncs] at this ⊢
    simp [this, blank, h.1]

/-- A function of given type and locals is accepted. -/
theorem same_verdict (m : Module) (R : Rules) : ∀ (tys : List Idx) {xs : List (List Val × Expr)} {ys : List (List Val × List Op)}, Related SameCode xs ys →
    ((∀ f ∈ pairFuncs tys xs, FuncOk R m f) ↔
      ∀ p ∈ (List.zipWith blank tys ys).zip (ys.map (·.2)), ∃ t, m.types[p.1.ty.toNat]? = some t ∧ Accepts (bodyEnv R m t p.1.locals) t.results p.2)
  | [], _, _, _ => by simp [pairFuncs]
  | _ :: _, _, _, .nil => by simp [pairFuncs]
  | ty :: tys, x :: xs, y :: ys, .cons h hs => by
    have ih := same_verdict m R tys hs
    simp only [pairFuncs] at ih
    simp only [pairFuncs, List.zipWith_cons_cons, List.map_cons, List.zip_cons_cons, List.forall_mem_cons]
    rw [ih]
    refine and_congr_left fun _ => exists_congr fun t => and_congr_right fun _ => ?_
    simp only [blank, h.1]
    exact (h.accepts _ _).symm

theorem each_accepted {m : Module} {R : Rules} : ∀ {tys : List Idx} {ys : List (List Val × List Op)}, ys.length = tys.length →
    (∀ p ∈ (List.zipWith blank tys ys).zip (ys.map (·.2)), ∃ t, m.types[p.1.ty.toNat]? = some t ∧ Accepts (bodyEnv R m t p.1.locals) t.results p.2) →
    ∀ y ∈ ys, ∃ C r, Accepts C r y.2
  | [], [], _, _, _, hy => by cases hy
  | ty :: tys, y :: ys, hl, h, z, hz => by
    simp only [List.zipWith_cons_cons, List.map_cons, List.zip_cons_cons, List.forall_mem_cons] at h
    rcases List.mem_cons.mp hz with rfl | hz
    · obtain ⟨t, _, h⟩ := h.1
      exact ⟨_, _, h⟩
    · exact each_accepted (Nat.succ.inj hl) h.2 z hz

theorem gcode_of_gfunc {D : Dialect} {b : List Byte} {x : List Val × Expr} (h : GFunc D b x) : ∃ y, GCode D b y ∧ SameCode x y := by
  obtain ⟨h1, h2, ⟨h3⟩⟩ := h
  obtain ⟨ops, h4, hf⟩ := ops_of_instrs h3
  exact ⟨(_, ops ++ [.endOp]), .mk h1 h2 (gseq_append h4 (gseq_single .endOp)), rfl, ops, rfl, hf⟩

theorem gfunc_of_gcode {D : Dialect} {b : List Byte} {y : List Val × List Op} (h : GCode D b y) {C : Env} {r : List Val} (ha : Accepts C r y.2) : ∃ x, GFunc D b x ∧ SameCode x y := by
  obtain ⟨h1, h2, h3⟩ := h
  obtain ⟨ops1, e, rfl, hf⟩ := accepts_tree h3 ha
  obtain ⟨b1, b2, rfl, h4, h5⟩ := gseq_split h3
  rw [gop_end h5]
  exact ⟨(_, e), .mk h1 h2 (.mk (instrs_of_ops hf h4)), rfl, ops1, rfl, hf⟩

theorem same_codes : ∀ (tys : List Idx) {xs : List (List Val × Expr)} {ys : List (List Val × List Op)}, Related SameCode xs ys →
    Related (fun f ops => ∃ ops1, ops = ops1 ++ [.endOp] ∧ FlatL ops1 f.body) (pairFuncs tys xs) ((ys.take tys.length).map (·.2))
  | [], _, _, _ => by simp only [pairFuncs, List.zipWith_nil_left, List.length_nil, List.take_zero, List.map_nil]; exact .nil
  | _ :: _, _, _, .nil => by simp only [pairFuncs, List.zipWith_nil_right, List.take_nil, List.map_nil]; exact .nil
  | ty :: tys, _, _, .cons h hs => by
    have ih := same_codes tys hs
    simp only [pairFuncs] at ih ⊢
    exact .cons h.2 ih

/-- What passes is a binary of a valid module, and the codes are those of its functions. -/
theorem file_module {D : Dialect} {R : Rules} (hR : R = .w3c ∨ R = .code) {s : List Byte} {m : Module} {codes : List (List Op)} (hs : GFile D s m codes) (hv : Verdict R m codes) :
    ∃ m', GModule D s m' ∧ Valid R m' ∧ m = bare m' ∧ Related (fun f ops => ∃ ops1, ops = ops1 ++ [.endOp] ∧ FlatL ops1 f.body) m'.funcs codes := by
  obtain ⟨hd, hc⟩ := hv
  obtain ⟨k0, g1, k1, g2, k2, g3, k3, g4, k4, g5, k5, g6, k6, g7, k7, g8, k8, g9, k9, g10, k10, g11, k11⟩ := hs
  rename_i tys
  suffices h : ∃ fs, GFuncs D tys _ fs ∧ m.funcs = fs.map (fun f => { f with body := [] }) ∧ (∀ f ∈ fs, FuncOk R m f) ∧
      Related (fun f ops => ∃ ops1, ops = ops1 ++ [.endOp] ∧ FlatL ops1 f.body) fs codes by
    obtain ⟨fs, g10, hb, hf, hq⟩ := h
    have hm : m = bare { m with funcs := fs } := by
      cases m
      simp only [bare, Module.mk.injEq, true_and, and_true]
      exact hb
    refine ⟨{ m with funcs := fs }, .mk k0 g1 k1 g2 k2 g3 k3 g4 k4 g5 k5 g6 k6 g7 k7 g8 k8 g9 k9 g10 k10 g11 k11, ⟨(bare_decls hR _).mp (hm ▸ hd), fun f hx => ?_⟩, hm, hq⟩
    obtain ⟨t, ht, he⟩ := hf f hx
    rw [hm, bare_bodyEnv] at he
    exact ⟨t, ht, he⟩
  generalize hf : m.funcs = fs at g10 hc
  cases g10 with
  | paired g hl =>
    obtain ⟨xs, g', hq⟩ := gvecSection_rel (G' := GFunc D) (Q := fun y x => SameCode x y) (fun b y hy hb => by
      obtain ⟨C, r, ha⟩ := each_accepted hl hc y hy
      exact gfunc_of_gcode hb ha) g
    have hq' := hq.swap
    refine ⟨_, .paired g' (hq.length.trans hl), same_bare tys hq', (same_verdict m R tys hq').mpr hc, ?_⟩
    have := same_codes tys hq'
    rwa [← hl, List.take_length] at this
  | missing h => exact ⟨[], .missing h, rfl, fun f hx => (by cases hx), .nil⟩

/-- **C100, files, by any rules.** A file is the binary of a valid module exactly if one pass over its bytes, which never builds the tree of a body, finds no error. Both by the document and by the crate. -/
theorem C100_file_rules (D : Dialect) {R : Rules} (hR : R = .w3c ∨ R = .code) (s : List Byte) : FilePasses D R s ↔ ∃ m, GModule D s m ∧ Valid R m := by
  constructor
  · rintro ⟨m, codes, hs, hv⟩
    obtain ⟨m', h1, h2, _⟩ := file_module hR hs hv
    exact ⟨m', h1, h2⟩
  · rintro ⟨m, hs, hv⟩
    obtain ⟨k0, g1, k1, g2, k2, g3, k3, g4, k4, g5, k5, g6, k6, g7, k7, g8, k8, g9, k9, g10, k10, g11, k11⟩ := hs
    rename_i tys
    suffices h : ∃ codes, GCodes D tys _ (bare m).funcs codes ∧
        ∀ p ∈ (bare m).funcs.zip codes, ∃ t, m.types[p.1.ty.toNat]? = some t ∧ Accepts (bodyEnv R m t p.1.locals) t.results p.2 by
      obtain ⟨codes, g10, hc⟩ := h
      refine ⟨bare m, codes, .mk k0 g1 k1 g2 k2 g3 k3 g4 k4 g5 k5 g6 k6 g7 k7 g8 k8 g9 k9 g10 k10 g11 k11, (bare_decls hR m).mpr hv.toDeclsOk, fun p hp => ?_⟩
      obtain ⟨t, ht, ha⟩ := hc p hp
      rw [← bare_bodyEnv] at ha
      exact ⟨t, ht, ha⟩
    have hfs := hv.funcs
    unfold bare
    generalize hf : m.funcs = fs at g10 hfs
    cases g10 with
    | paired g hl =>
      obtain ⟨ys, g', hq⟩ := gvecSection_rel (G' := GCode D) (Q := SameCode) (fun b x _ hb => gcode_of_gfunc hb) g
      refine ⟨ys.map (·.2), ?_, ?_⟩
      · rw [← same_bare tys hq]
        exact .paired g' (hq.length.trans hl)
      · rw [← same_bare tys hq]
        exact (same_verdict m R tys hq).mp hfs
    | missing h => exact ⟨[], .missing h, fun p hp => (by cases hp)⟩

/-- **C100, files.** The crate reads and accepts a file exactly if one pass over its bytes finds no error. -/
theorem C100_file (s : List Byte) : (∃ m r, parseModule s = (.ok m, []) ∧ validateModule m = .ok r) ↔ FilePasses .code .code s := by
  rw [C100_file_rules .code (.inr rfl)]
  constructor
  · rintro ⟨m, r, h1, h2⟩
    exact ⟨m, ((C23_module _ _ _).mp h1).2, valid_of_ok h2 (parsed_noElse h1)⟩
  · rintro ⟨m, h1, h2⟩
    exact ⟨m, _, (C23_module _ _ _).mpr ⟨rfl, h1⟩, ok_of_valid h2⟩

/-- **C100, files, by the document.** The binaries of the document that the document calls valid, in one pass. Whatever passes is read by the crate. -/
theorem C100_file_w3c (s : List Byte) (h : FilePasses .w3c .w3c s) : ∃ m, parseModule s = (.ok m, []) ∧ Valid .w3c m := by
  obtain ⟨m, h1, h2⟩ := (C100_file_rules .w3c (.inl rfl) s).mp h
  exact ⟨m, C23_w3c h1, h2⟩

/-- **C100, files, the answer.** What the pass has of the module besides the verdict is enough for the answer: imports and exports with their types do not depend on the bodies. -/
theorem C100_file_answer {s : List Byte} {m : Module} {codes : List (List Op)} (h : GFile .code s m codes) (hv : Verdict .code m codes) :
    ∃ m', parseModule s = (.ok m', []) ∧ validateModule m' = .ok (externals m) := by
  obtain ⟨m', h1, h2, rfl, _⟩ := file_module (.inr rfl) h hv
  exact ⟨m', (C23_module _ _ _).mpr ⟨rfl, h1⟩, bare_externals m' ▸ ok_of_valid h2⟩

theorem gfile_mono {D E : Dialect} (le : DialectLe D E) {b : List Byte} {m : Module} {codes : List (List Op)} (h : GFile D b m codes) : GFile E b m codes := by
  cases h with
  | mk c0 h1 c1 h2 c2 h3 c3 h4 c4 h5 c5 h6 c6 h7 c7 h8 c8 h9 c9 h10 c10 h11 c11 =>
    refine .mk (gcustoms_mono le c0) (gvecSection_mono le (fun _ _ => gfuncTy_mono le) h1)
      (gcustoms_mono le c1) (gvecSection_mono le (fun _ _ => gimport_mono le) h2)
      (gcustoms_mono le c2) (gvecSection_mono le (fun _ _ => le.u32) h3)
      (gcustoms_mono le c3) (gvecSection_mono le (fun _ _ => gtable_mono le) h4)
      (gcustoms_mono le c4) (gvecSection_mono le (fun _ _ => gmem_mono le) h5)
      (gcustoms_mono le c5) (gvecSection_mono le (fun _ _ => gglobal_mono le) h6)
      (gcustoms_mono le c6) (gvecSection_mono le (fun _ _ => gexport_mono le) h7)
      (gcustoms_mono le c7) (gstartSection_mono le h8)
      (gcustoms_mono le c8) (gvecSection_mono le (fun _ _ => gelem_mono le) h9)
      (gcustoms_mono le c9) ?_
      (gcustoms_mono le c10) (gvecSection_mono le (fun _ _ => gdata_mono le) h11)
      (gcustoms_mono le c11)
    generalize m.funcs = fs at h10 ⊢
    cases h10 with
    | paired h1 h2 =>
      refine .paired (gvecSection_mono le (fun _ _ => gsized_mono le fun _ _ h => ?_) h1) h2
      obtain ⟨h1, h2, h3⟩ := h
      exact .mk (gvec_mono le (fun _ _ => glocals_mono le) h1) (le.locals h2) (gops_mono le h3)
    | missing h => exact .missing (le.code h)

/-- The binary of `passModule`, with a local variable of type i64 in its function. -/
def passFile : List Byte :=
  [0x00, 0x61, 0x73, 0x6D, 0x01, 0x00, 0x00, 0x00, 0x01, 0x06, 0x01, 0x60, 0x01, 0x7F, 0x01, 0x7F, 0x03, 0x02, 0x01, 0x00,
    0x0A, 0x10, 0x01, 0x0E, 0x01, 0x01, 0x7E, 0x20, 0x00, 0x04, 0x7F, 0x41, 0x01, 0x05, 0x41, 0x02, 0x0B, 0x0B]

theorem smallU32 (n : Byte) (h : n.toNat < 128) (v : U32) (hv : n.toNat = v.toNat) : Dialect.w3c.u32 [n] v := by
  show UN 32 [n] v.toNat
  rw [← hv]
  exact .last h (Nat.lt_trans h (by decide))

-- read in one pass: a function with a local of type i64 besides its parameter, without a body, and its code
theorem passFile_read : GFile .w3c passFile { types := [⟨[.i32], [.i32]⟩], funcs := [⟨0, [.i64], []⟩] } [passOps] :=
  .mk (c0 := []) (c1 := []) (c2 := []) (c3 := []) (c4 := []) (c5 := []) (c6 := []) (c7 := []) (c8 := []) (c9 := []) (c10 := []) (c11 := [])
    (b1 := [0x01, 0x06, 0x01, 0x60, 0x01, 0x7F, 0x01, 0x7F]) (b2 := []) (b3 := [0x03, 0x02, 0x01, 0x00]) (b4 := []) (b5 := []) (b6 := []) (b7 := []) (b8 := []) (b9 := [])
    (b10 := [0x0A, 0x10, 0x01, 0x0E, 0x01, 0x01, 0x7E, 0x20, 0x00, 0x04, 0x7F, 0x41, 0x01, 0x05, 0x41, 0x02, 0x0B, 0x0B]) (b11 := []) (tys := [0])
    .nil (.present (.mk (.mk (n := [0x06]) (len := 6) (smallU32 _ (by decide) _ rfl) rfl
      (.mk (n := [0x01]) (len := 1) (smallU32 _ (by decide) _ rfl) rfl (.cons (b := [0x60, 0x01, 0x7F, 0x01, 0x7F])
        (.mk (b1 := [0x01, 0x7F]) (b2 := [0x01, 0x7F]) (.mk (n := [0x01]) (len := 1) (smallU32 _ (by decide) _ rfl) rfl (.cons (b := [0x7F]) .i32 .nil))
          (.mk (n := [0x01]) (len := 1) (smallU32 _ (by decide) _ rfl) rfl (.cons (b := [0x7F]) .i32 .nil))) .nil)))))
    .nil .absent .nil
    (.present (.mk (.mk (n := [0x02]) (len := 2) (smallU32 _ (by decide) _ rfl) rfl
      (.mk (n := [0x01]) (len := 1) (smallU32 _ (by decide) _ rfl) rfl (.cons (b := [0x00]) (smallU32 _ (by decide) _ rfl) .nil)))))
    .nil .absent .nil .absent .nil .absent .nil .absent .nil .absent .nil .absent .nil
    (.paired (codes := [([.i64], passOps)]) (.present (.mk (.mk (n := [0x10]) (len := 16) (smallU32 _ (by decide) _ rfl) rfl
      (.mk (n := [0x01]) (len := 1) (smallU32 _ (by decide) _ rfl) rfl
        (.cons (b := [0x0E, 0x01, 0x01, 0x7E, 0x20, 0x00, 0x04, 0x7F, 0x41, 0x01, 0x05, 0x41, 0x02, 0x0B, 0x0B])
          (.mk (n := [0x0E]) (len := 14) (smallU32 _ (by decide) _ rfl) rfl
            (.mk (b1 := [0x01, 0x01, 0x7E]) (runs := [(1, .i64)])
              (.mk (n := [0x01]) (len := 1) (smallU32 _ (by decide) _ rfl) rfl (.cons (b := [0x01, 0x7E]) (.mk (b1 := [0x01]) (n := 1) (smallU32 _ (by decide) _ rfl) .i64) .nil))
              (show 1 < 2 ^ 32 by decide) passOps_bytes)) .nil))))) rfl)
    .nil .absent .nil

example : FilePasses .w3c .w3c passFile := ⟨_, _, passFile_read,
  ⟨⟨by simp, by simp, by simp, by simp, by simp, by simp, by simp, by simp, by simp [importedTables], by simp [importedMems], by simp, by decide +kernel, by decide +kernel, by simp⟩, by
    simp only [List.zip_cons_cons, List.zip_nil_right, List.mem_singleton]
    rintro p rfl
    exact ⟨⟨[.i32], [.i32]⟩, rfl, _, rfl, rfl⟩⟩⟩

example : ∃ m, parseModule passFile = (.ok m, []) ∧ validateModule m = .ok ⟨[], []⟩ :=
  C100_file_answer (m := { types := [⟨[.i32], [.i32]⟩], funcs := [⟨0, [.i64], []⟩] }) (codes := [passOps])
    (gfile_mono w3c_le_code passFile_read)
    ⟨⟨by simp, by simp, by simp, by simp, by simp, by simp, by simp, by simp, by simp [importedTables], by simp [importedMems], by simp, by decide +kernel, by decide +kernel, by simp⟩, by
      simp only [List.zip_cons_cons, List.zip_nil_right, List.mem_singleton]
      rintro p rfl
      exact ⟨⟨[.i32], [.i32]⟩, rfl, _, rfl, rfl⟩⟩

-- the second branch pushes an i64 instead (byte 34): no reading of the file passes
example : ¬ FilePasses .code .code (passFile.set 34 0x42) := by
  rw [← C100_file]
  rintro ⟨m, r, h1, h2⟩
  have e : (parseModule (passFile.set 34 0x42)).1.toOption.map (fun m => (validateModule m).toOption.isSome) = some false := by decide +kernel
  rw [h1] at e
  have e : (validateModule m).toOption.isSome = false := Option.some.inj e
  rw [h2] at e
  cases e

end Whasm
