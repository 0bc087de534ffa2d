import Verif.Spec.Grammar
import Verif.Lemmas.LebMore

/-!
# Dialects: a more permissive dialect accepts more
-/

namespace Whasm
open Spec

theorem w3c_le_code : DialectLe .w3c .code where
  u32 h := ⟨(UN_group h (by decide)).1, (UN_group h (by decide)).2.1⟩
  s32 h := ⟨(SN_group h (by decide)).1, (SN_group h (by decide)).2.1⟩
  s64 h := ⟨(SN_group h (by decide)).1, (SN_group h (by decide)).2.1⟩
  reserved := by rintro b v ⟨rfl, rfl⟩; exact ⟨by decide, by decide⟩
  locals _ := trivial
  code h := h.elim

section
variable {D D' : Dialect} {α : Type} {G G' : List Byte → α → Prop}

theorem gseq_mono (hG : ∀ b x, G b x → G' b x) {b : List Byte} {xs : List α} (h : GSeq G b xs) : GSeq G' b xs := by
  induction h with
  | nil => exact .nil
  | cons h1 _ ih => exact .cons (hG _ _ h1) ih

theorem gvec_mono (le : DialectLe D D') (hG : ∀ b x, G b x → G' b x) {b : List Byte} {xs : List α} (h : GVec D G b xs) :
    GVec D' G' b xs := by
  cases h with
  | mk h1 h2 h3 => exact .mk (le.u32 h1) h2 (gseq_mono hG h3)

theorem gsized_mono (le : DialectLe D D') (hG : ∀ b x, G b x → G' b x) {b : List Byte} {x : α} (h : GSized D G b x) :
    GSized D' G' b x := by
  cases h with
  | mk h1 h2 h3 => exact .mk (le.u32 h1) h2 (hG _ _ h3)

theorem gsection_mono (le : DialectLe D D') (hG : ∀ b x, G b x → G' b x) {id : Byte} {b : List Byte} {x : α}
    (h : GSection D id G b x) : GSection D' id G' b x := by
  cases h with
  | mk h1 => exact .mk (gsized_mono le hG h1)

theorem gvecSection_mono (le : DialectLe D D') (hG : ∀ b x, G b x → G' b x) {id : Byte} {b : List Byte} {x : List α}
    (h : GVecSection D id G b x) : GVecSection D' id G' b x := by
  cases h with
  | absent => exact .absent
  | present h => exact .present (gsection_mono le (fun _ _ => gvec_mono le hG) h)

variable (le : DialectLe D D')
include le

theorem gname_mono {b : List Byte} {n : Name} (h : GName D b n) : GName D' b n := by
  cases h with
  | mk h1 h2 => exact .mk (gvec_mono le (fun _ _ h => h) h1) h2

theorem gfuncTy_mono {b : List Byte} {x : FuncTy} (h : GFuncTy D b x) : GFuncTy D' b x := by
  cases h with
  | mk h1 h2 => exact .mk (gvec_mono le (fun _ _ h => h) h1) (gvec_mono le (fun _ _ h => h) h2)

theorem glimits_mono {b : List Byte} {x : Limits} (h : GLimits D b x) : GLimits D' b x := by
  cases h with
  | min h1 => exact .min (le.u32 h1)
  | minMax h1 h2 => exact .minMax (le.u32 h1) (le.u32 h2)

theorem gtableTy_mono {b : List Byte} {x : TableTy} (h : GTableTy D b x) : GTableTy D' b x := by
  cases h with
  | mk h1 h2 => exact .mk h1 (glimits_mono le h2)

theorem gmemTy_mono {b : List Byte} {x : MemTy} (h : GMemTy D b x) : GMemTy D' b x := by
  cases h with
  | mk h2 => exact .mk (glimits_mono le h2)

theorem ginstrs_mono {b : List Byte} {x : List Instr} (h : GInstrs D b x) : GInstrs D' b x := by
  refine GInstrs.rec (D := D) (motive_1 := fun b i _ => GInstr D' b i) (motive_2 := fun b is _ => GInstrs D' b is)
    ?_ ?_ ?_ ?_ ?_ ?_ ?_ ?_ ?_ ?_ ?_ ?_ ?_ ?_ ?_ ?_ ?_ ?_ ?_ ?_ ?_ ?_ ?_ ?_ ?_ ?_ ?_ ?_ ?_ ?_ h
  · exact .unreachable
  · exact .nop
  · exact fun h _ ih => .block h ih
  · exact fun h _ ih => .loop h ih
  · exact fun h _ ih => .ifThen h ih
  · exact fun h _ _ ih ih2 => .ifElse h ih ih2
  · exact fun h => .br (le.u32 h)
  · exact fun h => .brIf (le.u32 h)
  · exact fun h h2 => .brTable (gvec_mono le (fun _ _ h => le.u32 h) h) (le.u32 h2)
  · exact .ret
  · exact fun h => .call (le.u32 h)
  · exact fun h h2 => .callIndirect (le.u32 h) (le.reserved h2)
  · exact .drop
  · exact .select
  · exact fun h => .localGet (le.u32 h)
  · exact fun h => .localSet (le.u32 h)
  · exact fun h => .localTee (le.u32 h)
  · exact fun h => .globalGet (le.u32 h)
  · exact fun h => .globalSet (le.u32 h)
  · exact fun op h h2 => .load op (le.u32 h) (le.u32 h2)
  · exact fun op h h2 => .store op (le.u32 h) (le.u32 h2)
  · exact fun h => .memSize (le.reserved h)
  · exact fun h => .memGrow (le.reserved h)
  · exact fun h => .constI32 (le.s32 h)
  · exact fun h => .constI64 (le.s64 h)
  · exact fun h => .constF32 h
  · exact fun h => .constF64 h
  · exact fun op => .num op
  · exact .nil
  · exact fun _ _ ih1 ih2 => .cons ih1 ih2

theorem gexpr_mono {b : List Byte} {x : Expr} (h : GExpr D b x) : GExpr D' b x := by
  cases h with
  | mk h => exact .mk (ginstrs_mono le h)

theorem gcustom_mono {b : List Byte} {x : Unit} (h : GCustom D b x) : GCustom D' b x := by
  cases h with
  | mk rest h => exact .mk rest (gname_mono le h)

theorem gcustoms_mono {b : List Byte} (h : GCustoms D b) : GCustoms D' b := by
  induction h with
  | nil => exact .nil
  | cons h _ ih => exact .cons (gsection_mono le (fun _ _ => gcustom_mono le) h) ih

theorem gimportDesc_mono {b : List Byte} {x : ImportDesc} (h : GImportDesc D b x) : GImportDesc D' b x := by
  cases h with
  | func h => exact .func (le.u32 h)
  | table h => exact .table (gtableTy_mono le h)
  | mem h => exact .mem (gmemTy_mono le h)
  | global h => exact .global h

theorem gimport_mono {b : List Byte} {x : Import} (h : GImport D b x) : GImport D' b x := by
  cases h with
  | mk h1 h2 h3 => exact .mk (gname_mono le h1) (gname_mono le h2) (gimportDesc_mono le h3)

theorem gexportDesc_mono {b : List Byte} {x : ExportDesc} (h : GExportDesc D b x) : GExportDesc D' b x := by
  cases h with
  | func h => exact .func (le.u32 h)
  | table h => exact .table (le.u32 h)
  | mem h => exact .mem (le.u32 h)
  | global h => exact .global (le.u32 h)

theorem gexport_mono {b : List Byte} {x : Export} (h : GExport D b x) : GExport D' b x := by
  cases h with
  | mk h1 h2 => exact .mk (gname_mono le h1) (gexportDesc_mono le h2)

theorem gtable_mono {b : List Byte} {x : Table} (h : GTable D b x) : GTable D' b x := by
  cases h with
  | mk h1 => exact .mk (gtableTy_mono le h1)

theorem gmem_mono {b : List Byte} {x : Mem} (h : GMem D b x) : GMem D' b x := by
  cases h with
  | mk h1 => exact .mk (gmemTy_mono le h1)

theorem gglobal_mono {b : List Byte} {x : Global} (h : GGlobal D b x) : GGlobal D' b x := by
  cases h with
  | mk h1 h2 => exact .mk h1 (gexpr_mono le h2)

theorem gstart_mono {b : List Byte} {x : Start} (h : GStart D b x) : GStart D' b x := by
  cases h with
  | mk h1 => exact .mk (le.u32 h1)

theorem gelem_mono {b : List Byte} {x : Elem} (h : GElem D b x) : GElem D' b x := by
  cases h with
  | mk h1 h2 h3 => exact .mk (le.u32 h1) (gexpr_mono le h2) (gvec_mono le (fun _ _ h => le.u32 h) h3)

theorem gdata_mono {b : List Byte} {x : Data} (h : GData D b x) : GData D' b x := by
  cases h with
  | mk h1 h2 h3 => exact .mk (le.u32 h1) (gexpr_mono le h2) (gvec_mono le (fun _ _ h => h) h3)

theorem glocals_mono {b : List Byte} {x : Nat × Val} (h : GLocals D b x) : GLocals D' b x := by
  cases h with
  | mk h1 h2 => exact .mk (le.u32 h1) h2

theorem gfunc_mono {b : List Byte} {x : List Val × Expr} (h : GFunc D b x) : GFunc D' b x := by
  cases h with
  | mk h1 h2 h3 => exact .mk (gvec_mono le (fun _ _ => glocals_mono le) h1) (le.locals h2) (gexpr_mono le h3)

theorem gfuncs_mono {tys : List Idx} {b : List Byte} {x : List Func} (h : GFuncs D tys b x) : GFuncs D' tys b x := by
  cases h with
  | paired h1 h2 =>
    exact .paired (gvecSection_mono le (fun _ _ => gsized_mono le fun _ _ => gfunc_mono le) h1) h2
  | missing h => exact .missing (le.code h)

theorem gstartSection_mono {b : List Byte} {x : Option Start} (h : GStartSection D b x) : GStartSection D' b x := by
  cases h with
  | absent => exact .absent
  | present h => exact .present (gsection_mono le (fun _ _ => gstart_mono le) h)

theorem gmodule_mono {b : List Byte} {m : Module} (h : GModule D b m) : GModule D' b m := by
  cases h with
  | mk c0 h1 c1 h2 c2 h3 c3 h4 c4 h5 c5 h6 c6 h7 c7 h8 c8 h9 c9 h10 c10 h11 c11 =>
    exact .mk (gcustoms_mono le c0) (gvecSection_mono le (fun _ _ => gfuncTy_mono le) h1)
      (gcustoms_mono le c1) (gvecSection_mono le (fun _ _ => gimport_mono le) h2)
      (gcustoms_mono le c2) (gvecSection_mono le (fun _ _ => le.u32) h3)
      (gcustoms_mono le c3) (gvecSection_mono le (fun _ _ => gtable_mono le) h4)
      (gcustoms_mono le c4) (gvecSection_mono le (fun _ _ => gmem_mono le) h5)
      (gcustoms_mono le c5) (gvecSection_mono le (fun _ _ => gglobal_mono le) h6)
      (gcustoms_mono le c6) (gvecSection_mono le (fun _ _ => gexport_mono le) h7)
      (gcustoms_mono le c7) (gstartSection_mono le h8)
      (gcustoms_mono le c8) (gvecSection_mono le (fun _ _ => gelem_mono le) h9)
      (gcustoms_mono le c9) (gfuncs_mono le h10)
      (gcustoms_mono le c10) (gvecSection_mono le (fun _ _ => gdata_mono le) h11)
      (gcustoms_mono le c11)

end

end Whasm
