import Verif.Spec.Linker
import Verif.Lemmas.Renumber
import Verif.Lemmas.Extend

/-!
# Validity of modules put together from several modules
-/

namespace Whasm
open Spec

theorem assembled_accepted {ss : List Source} {m' : Module} (h : Assembled ss m') (hn : ∀ s ∈ ss, InitsAgree s.ρ s.m m')
    (hv : ∀ s ∈ ss, DeclsOk .code s.m ∧ ∀ f ∈ s.m.funcs, Accepted s.m f) : DeclsOk .code m' ∧ ∀ f ∈ m'.funcs, Accepted m' f := by
  refine ⟨{
    types := fun t ht => ?_
    tables := fun t ht => ?_
    mems := fun t ht => ?_
    globals := fun g hg => ?_
    elem := fun e he => ?_
    data := fun d hd' => ?_
    start := fun s hs => ?_
    imports := fun i hi => ?_
    importTables := fun t ht => ?_
    importMems := fun t ht => ?_
    exports := fun e he => ?_
    oneTable := ?_
    oneMem := ?_
    names := h.names }, fun f' hf' => ?_⟩
  · obtain ⟨s, hs, _, h1, rfl⟩ := h.types t ht; exact (hv s hs).1.types _ h1
  · obtain ⟨s, hs, _, h1, rfl⟩ := h.tables t ht; exact (hv s hs).1.tables _ h1
  · obtain ⟨s, hs, _, h1, rfl⟩ := h.mems t ht; exact (hv s hs).1.mems _ h1
  · obtain ⟨s, hs, g0, h1, h2⟩ := h.globals g hg; exact (init_from h2 h1 (hn s hs)).mpr ((hv s hs).1.globals g0 h1)
  · obtain ⟨s, hs, e0, h1, h2⟩ := h.elem e he; exact (elem_from h2).mpr ((hv s hs).1.elem e0 h1)
  · obtain ⟨s, hs, d0, h1, h2⟩ := h.data d hd'; exact (data_from h2).mpr ((hv s hs).1.data d0 h1)
  · obtain ⟨s, hs, s0, h1, h2⟩ := h.start s hs; exact (start_from h2).trans ((hv s hs).1.start s0 h1)
  · obtain ⟨s, hs, i0, h1, h2⟩ := h.imports i hi; rw [import_from h2]; exact (hv s hs).1.imports i0 h1
  · obtain ⟨i, hi, hdesc⟩ := imported_table.mp ht
    obtain ⟨s, hs, i0, h1, h2⟩ := h.imports i hi
    exact (hv s hs).1.importTables t (imported_table.mpr ⟨i0, h1, (importFrom_table h2).mp hdesc⟩)
  · obtain ⟨i, hi, hdesc⟩ := imported_mem.mp ht
    obtain ⟨s, hs, i0, h1, h2⟩ := h.imports i hi
    exact (hv s hs).1.importMems t (imported_mem.mpr ⟨i0, h1, (importFrom_mem h2).mp hdesc⟩)
  · obtain ⟨s, hs, e0, h1, h2⟩ := h.exports e he; rw [export_from h2]; exact (hv s hs).1.exports e0 h1
  · have := h.oneTable
    rw [tableSpace, List.length_append, List.length_map] at this
    show m'.tables.length ≤ 1
    omega
  · have := h.oneMem
    rw [memSpace, List.length_append, List.length_map] at this
    show m'.mems.length ≤ 1
    omega
  · obtain ⟨s, hs, f, h1, h2⟩ := h.funcs f' hf'; exact (accepted_from h2).mpr ((hv s hs).2 f h1)

/-! ## The linker -/

mutual

theorem plain_renameI (ρ : Renaming) (loc : Idx → Idx) : ∀ i : Instr, plainI i → plainI (renameI ρ loc i)
  | .block _ b, h => plain_renameL ρ loc b h
  | .loop _ b, h => plain_renameL ρ loc b h
  | .ifElse _ a b, h => ⟨plain_renameL ρ loc a h.1, plain_renameL ρ loc b h.2⟩
  | .call _, h | .callIndirect _ _, h | .localGet _, h | .localSet _, h | .localTee _, h | .globalGet _, h | .globalSet _, h | .memSize _, h
  | .memGrow _, h | .unreachable, h | .nop, h | .br _, h | .brIf _, h | .brTable _ _, h | .ret, h | .drop, h | .select, h | .load _ _ _, h
  | .store _ _ _, h | .constI32 _, h | .constI64 _, h | .constF32 _, h | .constF64 _, h | .num _, h => h
  | .elseMark, h | .endMark, h => h

theorem plain_renameL (ρ : Renaming) (loc : Idx → Idx) : ∀ e : List Instr, plainL e → plainL (renameL ρ loc e)
  | [], h => h
  | i :: is, h => ⟨plain_renameI ρ loc i h.1, plain_renameL ρ loc is h.2⟩

end

theorem shiftBy_same {α : Type} {l l' : List α} (h : l.length + l'.length ≤ 2 ^ 32) {x : Idx} (hx : x.toNat < l'.length) :
    SameAt (shiftBy l.length) l' (l ++ l') x := by
  unfold SameAt shiftBy
  rw [BitVec.toNat_ofNat, Nat.mod_eq_of_lt (by omega), List.getElem?_append_right (by omega), Nat.add_sub_cancel]

theorem mem_of_head {α : Type} {l : List α} {n : Nat} {x : α} (h : l[n]? = some x) : n < l.length := (List.getElem?_eq_some_iff.mp h).1

section
variable {lib m : Module} {targets : List Idx} (hl : Linkable lib m targets) (ha : Valid .code lib) (hm : Valid .code m)
include hl

theorem no_imported : importedTables m = [] ∧ importedMems m = [] ∧ importedGlobals m = [] := by
  refine ⟨?_, ?_, ?_⟩ <;>
  · first | unfold importedTables | unfold importedMems | unfold importedGlobals
    rw [List.filterMap_eq_nil_iff]
    intro i hi
    have := hl.imports i hi
    unfold isFuncImport at this
    cases hd : i.desc <;> rw [hd] at this <;> first | rfl | cases this

theorem targets_length : targets.length = (importedFuncs m).length := by
  have := congrArg List.length hl.targets
  rwa [List.length_map, List.length_map] at this

theorem tableSpace_link : tableSpace (link lib m targets) = tableSpace lib ++ tableSpace m := by
  unfold link
  rw [tableSpace_extend, show tableSpace m = m.tables.map (·.ty) by rw [tableSpace, (no_imported hl).1]; rfl]; rfl

theorem memSpace_link : memSpace (link lib m targets) = memSpace lib ++ memSpace m := by
  unfold link
  rw [memSpace_extend, show memSpace m = m.mems.map (·.ty) by rw [memSpace, (no_imported hl).2.1]; rfl]; rfl

theorem globalSpace_link : globalSpace (link lib m targets) = globalSpace lib ++ globalSpace m := by
  unfold link
  rw [globalSpace_extend, show globalSpace m = m.globals.map (·.ty) by rw [globalSpace, (no_imported hl).2.2]; rfl]
  show _ ++ (m.globals.map _).map _ = _
  rw [List.map_map]; rfl

theorem link_type {x : Idx} (hx : x.toNat < m.types.length) :
    SameAt (linkRenaming lib targets).types m.types (link lib m targets).types x :=
  shiftBy_same hl.types hx

theorem link_table {x : Idx} (hx : x.toNat < (tableSpace m).length) :
    SameAt (linkRenaming lib targets).tables (tableSpace m) (tableSpace (link lib m targets)) x := by
  rw [tableSpace_link hl]
  exact shiftBy_same (Nat.le_trans hl.oneTable (by decide)) hx

theorem link_mem {x : Idx} (hx : x.toNat < (memSpace m).length) :
    SameAt (linkRenaming lib targets).mems (memSpace m) (memSpace (link lib m targets)) x := by
  rw [memSpace_link hl]
  exact shiftBy_same (Nat.le_trans hl.oneMem (by decide)) hx

theorem link_global {x : Idx} (hx : x.toNat < (globalSpace m).length) :
    SameAt (linkRenaming lib targets).globals (globalSpace m) (globalSpace (link lib m targets)) x := by
  rw [globalSpace_link hl]
  exact shiftBy_same hl.globals hx

theorem link_mem0 (hx : 0 < (memSpace m).length) : (memSpace (link lib m targets))[0]? = (memSpace m)[0]? := by
  have : (memSpace lib).length = 0 := by have := hl.oneMem; omega
  rw [memSpace_link hl, List.eq_nil_of_length_eq_zero this, List.nil_append]

theorem const_link {e : Expr} {t : Val} (h : ConstOk (moduleEnv .code m) e t) :
    ConstFrom (linkRenaming lib targets) (globalSpace m) (globalSpace (link lib m targets)) e (renameL (linkRenaming lib targets) id e) := by
  refine ⟨rfl, fun x hx => ?_⟩
  rw [constOk_iff] at h
  cases h with
  | global h =>
    obtain rfl : x = _ := by simpa using hx
    exact link_global hl (mem_of_head h)
  | _ => simp at hx

include ha hm

theorem funcSpace_link : funcSpace (link lib m targets) = funcSpace lib ++ m.funcs.filterMap fun f => m.types[f.ty.toNat]? := by
  have h1 : (lib.funcs.filterMap fun f => (lib.types ++ m.types)[f.ty.toNat]?) = lib.funcs.filterMap fun f => lib.types[f.ty.toNat]? := by
    refine filterMap_same fun f hf => ?_
    obtain ⟨t, ht, _⟩ := ha.funcs f hf
    exact (getElem?_more ht).trans ht.symm
  unfold link
  rw [funcSpace, importedFuncs_extend ha, funcSpace, List.append_assoc]
  show _ ++ (lib.funcs ++ m.funcs.map _).filterMap (fun f : Func => (lib.types ++ m.types)[f.ty.toNat]?) = _
  rw [List.filterMap_append, h1, List.filterMap_map]
  refine congrArg (_ ++ ·) (congrArg (_ ++ ·) (filterMap_same fun f hf => ?_))
  obtain ⟨t, ht, _⟩ := hm.funcs f hf
  exact shiftBy_same hl.types (mem_of_head ht)

theorem link_func {x : Idx} (hx : x.toNat < (funcSpace m).length) :
    SameAt (linkRenaming lib targets).funcs (funcSpace m) (funcSpace (link lib m targets)) x := by
  have hlen := targets_length hl
  rw [funcSpace_link hl ha hm]
  unfold SameAt
  have em : funcSpace m = importedFuncs m ++ m.funcs.filterMap fun f => m.types[f.ty.toNat]? := rfl
  rw [em] at hx ⊢
  by_cases h : x.toNat < targets.length
  · have e : (linkRenaming lib targets).funcs x = targets[x.toNat] := by
      show (match targets[x.toNat]? with | some y => y | none => _) = _
      rw [List.getElem?_eq_getElem h]
    have ht := congrArg (·[x.toNat]?) hl.targets
    simp only [List.getElem?_map, List.getElem?_eq_getElem h, Option.map_some] at ht
    have h' : x.toNat < (importedFuncs m).length := hlen ▸ h
    rw [List.getElem?_eq_getElem (l := importedFuncs m) h', Option.map_some, Option.some.injEq] at ht
    rw [e, getElem?_more ht, List.getElem?_append_left h', List.getElem?_eq_getElem h']
  · have e : (linkRenaming lib targets).funcs x = BitVec.ofNat 32 (x.toNat - targets.length + (funcSpace lib).length) := by
      show (match targets[x.toNat]? with | some y => y | none => _) = _
      rw [List.getElem?_eq_none (by omega)]
    have hf := hl.funcs
    rw [em] at hf
    rw [List.length_append] at hx hf
    rw [e, BitVec.toNat_ofNat, Nat.mod_eq_of_lt (by omega), List.getElem?_append_right (by omega), List.getElem?_append_right (by omega), hlen,
      Nat.add_sub_cancel]

theorem func_link {f : Func} (hf : f ∈ m.funcs) :
    FuncFrom (linkRenaming lib targets) m (link lib m targets) f { f with ty := (linkRenaming lib targets).types f.ty, body := renameL (linkRenaming lib targets) id f.body } := by
  obtain ⟨t, ht, hb⟩ := hm.funcs f hf
  refine ⟨id, rfl, rfl, link_type hl (mem_of_head ht), fun t' ht' j hj => ?_⟩
  obtain rfl : t = t' := Option.some.inj (ht.symm.trans ht')
  obtain ⟨d, hd⟩ := occursAt_iff.mp hj
  obtain ⟨L, p, q, _, h⟩ := occurs_typed hd hb
  cases h with
  | call h => exact link_func hl ha hm (mem_of_head h)
  | callIndirect h1 _ h2 => exact ⟨link_type hl (mem_of_head h2), link_table hl (mem_of_head h1)⟩
  | localGet h => exact rfl
  | localSet h => exact rfl
  | localTee h => exact rfl
  | globalGet h => exact link_global hl (mem_of_head h)
  | globalSet h => exact link_global hl (mem_of_head h)
  | memSize h => exact link_mem hl (mem_of_head h)
  | memGrow h => exact link_mem hl (mem_of_head h)
  | load h => exact link_mem0 hl (mem_of_head h)
  | store h => exact link_mem0 hl (mem_of_head h)
  | _ => trivial

theorem newOk_link : NewOk lib (renameAll (linkRenaming lib targets) { m with imports := [] }) where
  types := hm.types
  funcs f' hf' := by
    obtain ⟨f, hf, rfl⟩ := List.mem_map.mp hf'
    have hp := valid_plain hm f hf
    exact (accepted_iff _ (plain_renameL _ _ _ hp)).mp ((accepted_from (func_link hl ha hm hf)).mpr ((accepted_iff _ hp).mpr (hm.funcs f hf)))
  tables := hm.tables
  mems := hm.mems
  globals g' hg' := by
    obtain ⟨g, hg, rfl⟩ := List.mem_map.mp hg'
    exact (const_from (C := { globals := ownGlobals m, aligned := false }) ⟨rfl, fun x hx => absurd hx (hl.inits g hg x)⟩).mpr (hm.globals g hg)
  elem e' he' := by
    obtain ⟨e, he, rfl⟩ := List.mem_map.mp he'
    have h := hm.elem e he
    obtain ⟨⟨t, ht, _⟩, hc, hi⟩ := h
    exact (elem_from (m := m) (m' := link lib m targets) ⟨rfl, link_table hl (mem_of_head ht), const_link hl hc, rfl,
      fun x hx => link_func hl ha hm (hi x hx)⟩).mpr (hm.elem e he)
  data d' hd' := by
    obtain ⟨d, hd, rfl⟩ := List.mem_map.mp hd'
    obtain ⟨h1, hc⟩ := hm.data d hd
    exact (data_from (m := m) (m' := link lib m targets) ⟨rfl, link_mem hl h1, const_link hl hc⟩).mpr (hm.data d hd)
  start _ s' hs' := by
    obtain ⟨s, hs, rfl⟩ := Option.map_eq_some_iff.mp hs'
    have h := hm.start s hs
    exact (link_func hl ha hm (mem_of_head h)).trans h
  exports e' he' := by
    obtain ⟨e, he, rfl⟩ := List.mem_map.mp he'
    have h := hm.exports e he
    rw [show exportType _ _ = exportType m e from ?_]
    · exact h
    refine export_from (ρ := linkRenaming lib targets) ?_
    unfold exportType at h
    unfold ExportFrom
    cases hd : e.desc <;> rw [hd] at h <;> rw [Option.isSome_map] at h <;> refine ⟨rfl, ?_⟩
    · exact link_func hl ha hm (lt_iff_getElem?.mpr h)
    · exact link_table hl (lt_iff_getElem?.mpr h)
    · exact link_mem hl (lt_iff_getElem?.mpr h)
    · exact link_global hl (lt_iff_getElem?.mpr h)
  oneTable := by
    have := hl.oneTable
    rw [tableSpace, tableSpace, List.length_append, List.length_append, List.length_map, List.length_map] at this
    show (lib.tables ++ m.tables).length ≤ 1
    rw [List.length_append]
    omega
  oneMem := by
    have := hl.oneMem
    rw [memSpace, memSpace, List.length_append, List.length_append, List.length_map, List.length_map] at this
    show (lib.mems ++ m.mems).length ≤ 1
    rw [List.length_append]
    omega
  names := by
    have h := hl.names
    rw [List.map_append] at h ⊢
    show (_ ++ (m.exports.map _).map _).Nodup
    rw [List.map_map]
    exact h

theorem exports_link : (link lib m targets).exports.filterMap (exportType (link lib m targets)) = lib.exports.filterMap (exportType lib) ++ m.exports.filterMap (exportType m) := by
  show (lib.exports ++ m.exports.map _).filterMap _ = _
  rw [List.filterMap_append, List.filterMap_map]
  congr 1
  · refine filterMap_same fun e he => ?_
    obtain ⟨t, ht⟩ := Option.isSome_iff_exists.mp (ha.exports e he)
    exact (exportType_extend ha ht).trans ht.symm
  · refine filterMap_same fun e he => ?_
    have h := hm.exports e he
    refine export_from (ρ := linkRenaming lib targets) ?_
    unfold exportType at h
    unfold ExportFrom
    cases hd : e.desc <;> rw [hd] at h <;> rw [Option.isSome_map] at h <;> refine ⟨by simp [renameExport, hd], ?_⟩
    · exact link_func hl ha hm (lt_iff_getElem?.mpr h)
    · exact link_table hl (lt_iff_getElem?.mpr h)
    · exact link_mem hl (lt_iff_getElem?.mpr h)
    · exact link_global hl (lt_iff_getElem?.mpr h)

end

end Whasm
