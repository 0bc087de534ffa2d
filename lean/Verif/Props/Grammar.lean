import Verif.Lemmas.Occurs
import Verif.Lemmas.Dialect
import Verif.Lemmas.Modules
import Verif.Lemmas.DecEq

/-!
# C16 – C20, C54: instructions, expressions, types
-/

namespace Whasm
open Spec

/-! ## C16 -/

theorem notOpcode_tail {n : Nat} (h1 : ∀ m, 0x28 ≤ m → m ≤ 0xBF → n ≠ m) :
    loadTable.lookup n = none ∧ storeTable.lookup n = none ∧ numTable.lookup n = none := by
  have key : (∀ e ∈ loadTable, 0x28 ≤ e.1 ∧ e.1 ≤ 0xBF) ∧ (∀ e ∈ storeTable, 0x28 ≤ e.1 ∧ e.1 ≤ 0xBF) ∧
      (∀ e ∈ numTable, 0x28 ≤ e.1 ∧ e.1 ≤ 0xBF) := by decide +kernel
  obtain ⟨k1, k2, k3⟩ := key
  refine ⟨?_, ?_, ?_⟩
  · cases h : loadTable.lookup n with
    | none => rfl
    | some op => exact (h1 n (k1 _ (lookup_mem h)).1 (k1 _ (lookup_mem h)).2 rfl).elim
  · cases h : storeTable.lookup n with
    | none => rfl
    | some op => exact (h1 n (k2 _ (lookup_mem h)).1 (k2 _ (lookup_mem h)).2 rfl).elim
  · cases h : numTable.lookup n with
    | none => rfl
    | some op => exact (h1 n (k3 _ (lookup_mem h)).1 (k3 _ (lookup_mem h)).2 rfl).elim

/-- **C16, all other bytes are rejected**, with an error that names them, and only that byte is consumed. -/
theorem C16_rejected {b : Byte} (h : ¬ IsOpcode b) (s : List Byte) :
    parseInstr (b :: s) = (.error (.invalidVariantId b "instr::Instr"), s) := by
  unfold IsOpcode at h
  have hr : ∀ m, 0x28 ≤ m → m ≤ 0xBF → b.toNat ≠ m := by intro m _ _; omega
  show instrAt _ b s = P.fail (.invalidVariantId b "instr::Instr") s
  refine congrFun ?_ s
  unfold instrAt
  split
  case h_27 =>
    obtain ⟨h1, h2, h3⟩ := notOpcode_tail hr
    unfold instrTail
    rw [h1, h2, h3]
  all_goals (exfalso; apply h; omega)

/-- **C16, the first byte selects the instruction.** -/
theorem C16_opcode {b : Byte} {s r : List Byte} {i : Instr} (h : parseInstr (b :: s) = (.ok i, r)) : opcode i = b := by
  obtain ⟨b', hb, hg⟩ := (parses_instr _ _ _).mp h
  rcases hg with hg | ⟨rfl, rfl⟩ | ⟨rfl, rfl⟩
  · cases hg <;> simp only [List.cons_append, List.nil_append, List.cons.injEq] at hb <;> rw [hb.1] <;> rfl
  · cases hb; rfl
  · cases hb; rfl

theorem opcode_isOpcode (i : Instr) : IsOpcode (opcode i) := by
  cases i with
  | load op _ _ => show IsOpcode (loadOpcode op); cases op <;> decide
  | store op _ _ => show IsOpcode (storeOpcode op); cases op <;> decide
  | num op => show IsOpcode (numOpcode op); cases op <;> decide
  | _ => simp only [opcode]; decide

/-- **C16, every opcode is accepted** with some continuation. -/
theorem C16_accepted (b : Byte) : IsOpcode b ↔ ∃ s i, parseInstr (b :: s) = (.ok i, []) := by
  constructor
  · intro h
    have key : ∀ n < 256, IsOpcode (UInt8.ofNat n) →
        ∃ s ∈ [[], [0x40, 0x0B], [0x00], [0x00, 0x00], [0, 0, 0, 0], [0, 0, 0, 0, 0, 0, 0, 0]], (match parseInstr (UInt8.ofNat n :: s) with
          | (.ok _, []) => true
          | _ => false) = true := by
      unfold IsOpcode
      decide +kernel
    obtain ⟨s, _, hs⟩ := key b.toNat (UInt8.toNat_lt b) (by simpa using h)
    rw [UInt8.ofNat_toNat] at hs
    split at hs
    next i heq => exact ⟨s, i, heq⟩
    next => cases hs
  · rintro ⟨s, i, h⟩
    rw [← C16_opcode h]
    exact opcode_isOpcode i

/-- No two instructions without immediates share an opcode. -/
theorem C16_injective : (∀ a b : NumOp, numOpcode a = numOpcode b → a = b) ∧ (∀ a b : LoadOp, loadOpcode a = loadOpcode b → a = b) ∧
    (∀ a b : StoreOp, storeOpcode a = storeOpcode b → a = b) := by
  have hn : ∀ a : NumOp, numTable.lookup (numOpcode a).toNat = some a := by intro a; cases a <;> rfl
  have hl : ∀ a : LoadOp, loadTable.lookup (loadOpcode a).toNat = some a := by intro a; cases a <;> rfl
  have hs : ∀ a : StoreOp, storeTable.lookup (storeOpcode a).toNat = some a := by intro a; cases a <;> rfl
  refine ⟨fun a b h => ?_, fun a b h => ?_, fun a b h => ?_⟩
  · have := hn a; rw [h, hn b] at this; exact (Option.some.inj this).symm
  · have := hl a; rw [h, hl b] at this; exact (Option.some.inj this).symm
  · have := hs a; rw [h, hs b] at this; exact (Option.some.inj this).symm

example : ¬ IsOpcode 0xC0 ∧ ¬ IsOpcode 0x06 ∧ parseInstr [0xC0, 1] = (.error (.invalidVariantId 0xC0 "instr::Instr"), [1]) ∧
    parseInstr [0x6A] = (.ok (.num .i32Add), []) ∧ parseInstr [0x2D, 0x00, 0x08] = (.ok (.load .i32Load8U 0 8), []) := by
  decide +kernel

/-! ## C17 -/

/-- **C17.** `Dialect.code`: the grammar of the W3C document with integers of any LEB-128 length (C05) and any `u32` in the
place of a reserved zero byte (C54). -/
theorem C17_expr (s : List Byte) (e : Expr) (r : List Byte) :
    parseExpr s = (.ok e, r) ↔ ∃ b, s = b ++ r ∧ GExpr .code b e := parses_expr s e r

/-- **C17, the document.** Every expression of the W3C grammar is accepted with the value it denotes. -/
theorem C17_w3c {b : List Byte} {e : Expr} (h : GExpr .w3c b e) (r : List Byte) : parseExpr (b ++ r) = (.ok e, r) :=
  (C17_expr _ _ _).mpr ⟨b, rfl, gexpr_mono w3c_le_code h⟩

/-- **C17, single instructions.** -/
theorem C17_instr (s : List Byte) (i : Instr) (r : List Byte) : parseInstr s = (.ok i, r) ↔
    ∃ b, s = b ++ r ∧ (GInstr .code b i ∨ (b = [0x0B] ∧ i = .endMark) ∨ (b = [0x05] ∧ i = .elseMark)) := parses_instr s i r

/-- The value denoted by an expression is unique, as is the encoding's length. -/
theorem C17_unambiguous {D : Dialect} (hD : DialectLe D .code) {b r b' r' : List Byte} {e e' : Expr}
    (h : GExpr D b e) (h' : GExpr D b' e') (hb : b ++ r = b' ++ r') : b = b' ∧ e = e' := by
  have h1 := (C17_expr (b ++ r) e r).mpr ⟨b, rfl, gexpr_mono hD h⟩
  have h2 := (C17_expr (b' ++ r') e' r').mpr ⟨b', rfl, gexpr_mono hD h'⟩
  rw [hb, h2] at h1
  cases h1
  exact ⟨List.append_cancel_right hb, rfl⟩

-- if-else inside a block, both in the grammar and parsed
example : GExpr .w3c [0x02, 0x7F, 0x41, 0x01, 0x04, 0x7F, 0x41, 0x02, 0x05, 0x41, 0x03, 0x0B, 0x0B, 0x0B]
    [.block [.i32] [.constI32 1, .ifElse [.i32] [.constI32 2] [.constI32 3]]] := by
  have c (n : Nat) (h : n < 64) : GInstr .w3c [0x41, UInt8.ofNat n] (.constI32 (BitVec.ofNat 32 n)) := by
    have hn : (UInt8.ofNat n).toNat = n := by rw [UInt8.toNat_ofNat']; omega
    refine .constI32 (b := [UInt8.ofNat n]) ?_
    have h1 : (BitVec.ofNat 32 n).toInt = ((UInt8.ofNat n).toNat : Int) := by
      rw [hn, BitVec.toInt_eq_toNat_of_lt (by rw [BitVec.toNat_ofNat]; omega), BitVec.toNat_ofNat]; omega
    show SN 32 _ _
    rw [h1]
    exact .pos (by omega) (by rw [hn]; omega)
  have one (n : Nat) (h : n < 64) : GInstrs .w3c [0x41, UInt8.ofNat n] [.constI32 (BitVec.ofNat 32 n)] :=
    .cons (bs := []) (c n h) .nil
  exact .mk (.cons (bs := []) (.block (.val .i32) (.cons (c 1 (by decide))
    (.cons (bs := []) (.ifElse (.val .i32) (one 2 (by decide)) (one 3 (by decide))) .nil))) .nil)
example : parseExpr [0x02, 0x7F, 0x41, 0x01, 0x04, 0x7F, 0x41, 0x02, 0x05, 0x41, 0x03, 0x0B, 0x0B, 0x0B, 0xAA] =
    (.ok [.block [.i32] [.constI32 1, .ifElse [.i32] [.constI32 2] [.constI32 3]]], [0xAA]) := by decide +kernel

/-! ## C18 -/

/-- **C18, expressions.** -/
theorem C18_expr {s r : List Byte} {e : Expr} (h : parseExpr s = (.ok e, r)) (j : Instr) (hj : Occurs j e) :
    j ≠ .endMark ∧ j ≠ .elseMark ∧ ∀ t ∈ blockTypes j, t.length ≤ 1 := by
  obtain ⟨b, _, ⟨hg⟩⟩ := (parses_expr _ _ _).mp h
  obtain ⟨b', hi⟩ := ginstrs_occurs hj hg
  exact ⟨(ginstr_not_mark hi).1, (ginstr_not_mark hi).2, ginstr_blockTypes hi⟩

theorem gseq_mem {α : Type} {G : List Byte → α → Prop} {b : List Byte} {xs : List α} (h : GSeq G b xs) {x : α} (hx : x ∈ xs) :
    ∃ b', G b' x := by
  induction h with
  | nil => cases hx
  | cons h1 _ ih =>
    rcases List.mem_cons.mp hx with rfl | hx
    · exact ⟨_, h1⟩
    · exact ih hx

theorem gvecSection_mem {D : Dialect} {α : Type} {G : List Byte → α → Prop} {id : Byte} {b : List Byte} {xs : List α}
    (h : GVecSection D id G b xs) {x : α} (hx : x ∈ xs) : ∃ b', G b' x := by
  cases h with
  | absent => cases hx
  | present h =>
    obtain ⟨h⟩ := h
    obtain ⟨_, _, h⟩ := h
    obtain ⟨_, _, h⟩ := h
    exact gseq_mem h hx

theorem pairFuncs_mem {tys : List Idx} {codes : List (List Val × Expr)} {f : Func} (h : f ∈ pairFuncs tys codes) :
    (f.locals, f.body) ∈ codes ∧ f.ty ∈ tys := by
  induction tys generalizing codes with
  | nil => simp [pairFuncs] at h
  | cons t tys ih =>
    cases codes with
    | nil => simp [pairFuncs] at h
    | cons c codes =>
      have h' : f = ⟨t, c.1, c.2⟩ ∨ f ∈ pairFuncs tys codes := by simpa [pairFuncs] using h
      rcases h' with rfl | h'
      · simp
      · exact ⟨List.mem_cons_of_mem _ (ih h').1, List.mem_cons_of_mem _ (ih h').2⟩

/-- Every expression of a module of the grammar is an expression of the grammar. -/
theorem gmodule_exprs {D : Dialect} {b : List Byte} {m : Module} (h : GModule D b m) {e : Expr} (he : e ∈ exprsOf m) :
    ∃ b', GExpr D b' e := by
  cases h with
  | mk _ _ _ _ _ _ _ _ _ _ _ h6 _ _ _ _ _ h9 _ h10 _ h11 _ =>
    simp only [exprsOf, List.mem_append, List.mem_map] at he
    rcases he with ((⟨f, hf, rfl⟩ | ⟨g, hg, rfl⟩) | ⟨x, hx, rfl⟩) | ⟨x, hx, rfl⟩
    · generalize hm : m.funcs = fs at h10 hf
      cases h10 with
      | missing _ => cases hf
      | paired h _ =>
        obtain ⟨_, ⟨_, _, h⟩⟩ := gvecSection_mem h (pairFuncs_mem hf).1
        generalize hc : (f.locals, f.body) = c at h
        cases h with
        | mk _ _ h => rw [(Prod.mk.inj hc).2]; exact ⟨_, h⟩
    · obtain ⟨_, ⟨_, h⟩⟩ := gvecSection_mem h6 hg; exact ⟨_, h⟩
    · obtain ⟨_, ⟨_, h, _⟩⟩ := gvecSection_mem h9 hx; exact ⟨_, h⟩
    · obtain ⟨_, ⟨_, h, _⟩⟩ := gvecSection_mem h11 hx; exact ⟨_, h⟩

/-- **C18, modules.** -/
theorem C18_module {s r : List Byte} {m : Module} (h : parseModule s = (.ok m, r)) (e : Expr) (he : e ∈ exprsOf m)
    (j : Instr) (hj : Occurs j e) : j ≠ .endMark ∧ j ≠ .elseMark ∧ ∀ t ∈ blockTypes j, t.length ≤ 1 := by
  obtain ⟨b, hb⟩ := gmodule_exprs ((parseModule_iff _ _ _).mp h).2 he
  exact C18_expr ((C17_expr b e []).mpr ⟨b, by simp, hb⟩) j hj

example : Occurs (.num .i32Add) [.nop, .block [] [.loop [] [.num .i32Add]]] :=
  .block (t := []) (body := [.loop [] [.num .i32Add]]) (by simp) (.loop (t := []) (body := [.num .i32Add]) (by simp) (.here (by simp)))

/-! ## C19 -/

/-- **C19.** Whatever well-formed instructions come before the misplaced `else` and at whatever depth it is, and
whatever follows. -/
theorem C19_misplaced_else {b : List Byte} {n : String} (h : BadExpr .code b n) (r : List Byte) :
    parseExpr (b ++ r) = (.error (.unexpectedOpcode n), r) := badExpr h r

/-- The same for an instruction parsed on its own; a lone `else` is returned as the marker. -/
theorem C19_misplaced_else_instr {b : List Byte} {n : String} (h : BadInstr .code b n) (r : List Byte) :
    parseInstr (b ++ r) = (.error (.unexpectedOpcode n), r) := badInstr h _ (by simp; omega) r

example : BadExpr .code [0x01, 0x02, 0x40, 0x00, 0x05] "Else" ∧ BadExpr .code [0x03, 0x40, 0x04, 0x40, 0x05, 0x05] "Unknown" ∧
    parseExpr [0x01, 0x02, 0x40, 0x00, 0x05, 0xFF] = (.error (.unexpectedOpcode "Else"), [0xFF]) ∧
    parseExpr [0x03, 0x40, 0x04, 0x40, 0x05, 0x05] = (.error (.unexpectedOpcode "Unknown"), []) :=
  ⟨.inside (b1 := [0x01]) (.cons (bs := []) .nop .nil) (.block (b1 := [0x40]) (b2 := [0x00]) .empty (.cons (bs := []) .unreachable .nil)),
    .inside (b1 := []) .nil (.inLoop (b1 := [0x40]) (b2 := []) .empty .nil (.second (b1 := [0x40]) (b2 := []) (b3 := []) .empty .nil .nil)),
    by decide +kernel, by decide +kernel⟩

/-! ## C20 -/

/-- **C20.** All type parsers accept exactly their grammar. -/
theorem C20_types (s r : List Byte) :
    (∀ x, parseVal s = (.ok x, r) ↔ ∃ b, s = b ++ r ∧ GVal b x) ∧
    (∀ x, parseElemTy s = (.ok x, r) ↔ ∃ b, s = b ++ r ∧ GElemTy b x) ∧
    (∀ x, parseRetVal s = (.ok x, r) ↔ ∃ b, s = b ++ r ∧ GRetVal b x) ∧
    (∀ x, parseMut s = (.ok x, r) ↔ ∃ b, s = b ++ r ∧ GMut b x) ∧
    (∀ x, parseGlobalTy s = (.ok x, r) ↔ ∃ b, s = b ++ r ∧ GGlobalTy b x) ∧
    (∀ x, parseLimits s = (.ok x, r) ↔ ∃ b, s = b ++ r ∧ GLimits .code b x) ∧
    (∀ x, parseFuncTy s = (.ok x, r) ↔ ∃ b, s = b ++ r ∧ GFuncTy .code b x) ∧
    (∀ x, parseTableTy s = (.ok x, r) ↔ ∃ b, s = b ++ r ∧ GTableTy .code b x) ∧
    (∀ x, parseMemTy s = (.ok x, r) ↔ ∃ b, s = b ++ r ∧ GMemTy .code b x) :=
  ⟨fun x => parses_val s x r, fun x => parses_elemTy s x r, fun x => parses_retVal s x r, fun x => parses_mut s x r,
    fun x => parses_globalTy s x r, fun x => parses_limits s x r, fun x => parses_funcTy s x r,
    fun x => parses_tableTy s x r, fun x => parses_memTy s x r⟩

/-- **C20, the document.** The encodings of the W3C grammar are accepted. -/
theorem C20_w3c (b r : List Byte) :
    (∀ x, GLimits .w3c b x → parseLimits (b ++ r) = (.ok x, r)) ∧ (∀ x, GFuncTy .w3c b x → parseFuncTy (b ++ r) = (.ok x, r)) ∧
    (∀ x, GTableTy .w3c b x → parseTableTy (b ++ r) = (.ok x, r)) ∧ (∀ x, GMemTy .w3c b x → parseMemTy (b ++ r) = (.ok x, r)) :=
  ⟨fun _ h => parses_limits.complete (glimits_mono w3c_le_code h) r, fun _ h => parses_funcTy.complete (gfuncTy_mono w3c_le_code h) r,
    fun _ h => parses_tableTy.complete (gtableTy_mono w3c_le_code h) r, fun _ h => parses_memTy.complete (gmemTy_mono w3c_le_code h) r⟩

/-- **C20, wrong tags.** The error carries the byte and the type; only the byte is consumed. -/
theorem C20_tags (b : Byte) (s : List Byte) :
    (b ∉ [0x7F, 0x7E, 0x7D, 0x7C] → parseVal (b :: s) = (.error (.invalidVariantId b "ty::Val"), s) ∧
      parseGlobalTy (b :: s) = (.error (.invalidVariantId b "ty::Val"), s)) ∧
    (b ≠ 0x70 → parseElemTy (b :: s) = (.error (.invalidVariantId b "ty::Elem"), s) ∧
      parseTableTy (b :: s) = (.error (.invalidVariantId b "ty::Elem"), s)) ∧
    (b ∉ [0x40, 0x7F, 0x7E, 0x7D, 0x7C] → parseRetVal (b :: s) = (.error (.invalidVariantId b "ty::Val"), s)) ∧
    (b ∉ [0x00, 0x01] → parseLimits (b :: s) = (.error (.invalidVariantId b "ty::Limits"), s) ∧
      parseMemTy (b :: s) = (.error (.invalidVariantId b "ty::Limits"), s) ∧
      parseMut (b :: s) = (.error (.invalidVariantId b "ty::Mut"), s)) ∧
    (b ≠ 0x60 → parseFuncTy (b :: s) = (.error (.invalidVariantId b "ty::Func"), s)) := by
  have hval (h : b ∉ [0x7F, 0x7E, 0x7D, 0x7C]) (s : List Byte) : parseVal (b :: s) = (.error (.invalidVariantId b "ty::Val"), s) := by
    show (parseByte >>= _) (b :: s) = P.fail (.invalidVariantId b "ty::Val") s
    rw [bind_of_ok (rfl : parseByte (b :: s) = (.ok b, s))]
    refine congrFun ?_ s
    split
    case h_5 => rfl
    all_goals (rename_i hb; exfalso; apply h; rw [byte_of_toNat hb]; decide)
  have helem (h : b ≠ 0x70) (s : List Byte) : parseElemTy (b :: s) = (.error (.invalidVariantId b "ty::Elem"), s) := by
    show (parseByte >>= _) (b :: s) = P.fail (.invalidVariantId b "ty::Elem") s
    rw [bind_of_ok (rfl : parseByte (b :: s) = (.ok b, s))]
    refine congrFun ?_ s
    split
    · rename_i hb; exact (h (byte_of_toNat hb)).elim
    · rfl
  have hlim (h : b ∉ [0x00, 0x01]) : parseLimits (b :: s) = (.error (.invalidVariantId b "ty::Limits"), s) := by
    show (parseByte >>= _) (b :: s) = P.fail (.invalidVariantId b "ty::Limits") s
    rw [bind_of_ok (rfl : parseByte (b :: s) = (.ok b, s))]
    refine congrFun ?_ s
    split
    case h_3 => rfl
    all_goals (rename_i hb; exfalso; apply h; rw [byte_of_toNat hb]; decide)
  refine ⟨fun h => ⟨hval h s, ?_⟩, fun h => ⟨helem h s, ?_⟩, fun h => ?_, fun h => ⟨hlim h, ?_, ?_⟩, fun h => ?_⟩
  · exact bind_of_error (hval h s)
  · exact bind_of_error (helem h s)
  · simp only [List.mem_cons, not_or] at h
    have h2 := hval (by simp only [List.mem_cons, not_or]; exact h.2) []
    show (parseByte >>= _) (b :: s) = P.fail (.invalidVariantId b "ty::Val") s
    rw [bind_of_ok (rfl : parseByte (b :: s) = (.ok b, s))]
    refine congrFun ?_ s
    split
    · rename_i hb; exact (h.1 (byte_of_toNat hb)).elim
    · rw [h2]
  · exact bind_of_error (hlim h)
  · show (parseByte >>= _) (b :: s) = P.fail (.invalidVariantId b "ty::Mut") s
    rw [bind_of_ok (rfl : parseByte (b :: s) = (.ok b, s))]
    refine congrFun ?_ s
    split
    case h_3 => rfl
    all_goals (rename_i hb; exfalso; apply h; rw [byte_of_toNat hb]; decide)
  · show (parseByte >>= _) (b :: s) = P.fail (.invalidVariantId b "ty::Func") s
    rw [bind_of_ok (rfl : parseByte (b :: s) = (.ok b, s))]
    refine congrFun ?_ s
    split
    · rename_i hb; exact (h (byte_of_toNat hb)).elim
    · rfl

example : parseTableTy [0x70, 0x01, 0x02, 0x80, 0x01, 0x00] = (.ok ⟨⟨2, some 128⟩, .funcRef⟩, [0x00]) ∧
    parseFuncTy [0x60, 0x02, 0x7F, 0x7C, 0x01, 0x7E] = (.ok ⟨[.i32, .f64], [.i64]⟩, []) ∧
    parseGlobalTy [0x7D, 0x02, 0x09] = (.error (.invalidVariantId 0x02 "ty::Mut"), [0x09]) := by decide +kernel

/-! ## C54 -/

/-- **C54 is false of the code**: `memory.size` with reserved byte 1, and one taking two bytes. -/
theorem C54_negation : (∃ s i, parseInstr s = (.ok i, []) ∧ s = [0x3F, 0x01]) ∧
    (∃ s i, parseInstr s = (.ok i, []) ∧ s = [0x11, 0x00, 0x80, 0x00]) :=
  ⟨⟨_, .memSize 1, by decide +kernel, rfl⟩, ⟨_, .callIndirect 0 0, by decide +kernel, rfl⟩⟩

/-- **C54, partial.** The reserved place is read as a `u32` and kept in the syntax tree, so nothing is lost: the instruction has
table or memory index 0 exactly if the encoded number is 0. Missing: other numbers are accepted too (`C54_negation`). -/
theorem C54_reserved_partial (s r : List Byte) :
    (∀ m, parseInstr (0x3F :: s) = (.ok (.memSize m), r) ↔ ∃ g, s = g ++ r ∧ Group g ∧ uval g = m.toNat) ∧
    (∀ m, parseInstr (0x40 :: s) = (.ok (.memGrow m), r) ↔ ∃ g, s = g ++ r ∧ Group g ∧ uval g = m.toNat) ∧
    (∀ x t, parseInstr (0x11 :: s) = (.ok (.callIndirect x t), r) ↔
      ∃ g1 g2, s = g1 ++ g2 ++ r ∧ Group g1 ∧ uval g1 = x.toNat ∧ Group g2 ∧ uval g2 = t.toNat) := by
  refine ⟨fun m => ?_, fun m => ?_, fun x t => ?_⟩
  · rw [parses_instr]
    constructor
    · rintro ⟨b, hb, h | ⟨_, h⟩ | ⟨_, h⟩⟩
      · cases h with
        | memSize h => exact ⟨_, (List.cons.inj hb).2, h.1, h.2⟩
      · cases h
      · cases h
    · rintro ⟨g, rfl, h⟩
      exact ⟨0x3F :: g, rfl, .inl (.memSize h)⟩
  · rw [parses_instr]
    constructor
    · rintro ⟨b, hb, h | ⟨_, h⟩ | ⟨_, h⟩⟩
      · cases h with
        | memGrow h => exact ⟨_, (List.cons.inj hb).2, h.1, h.2⟩
      · cases h
      · cases h
    · rintro ⟨g, rfl, h⟩
      exact ⟨0x40 :: g, rfl, .inl (.memGrow h)⟩
  · rw [parses_instr]
    constructor
    · rintro ⟨b, hb, h | ⟨_, h⟩ | ⟨_, h⟩⟩
      · cases h with
        | callIndirect h1 h2 => exact ⟨_, _, (List.cons.inj hb).2, h1.1, h1.2, h2.1, h2.2⟩
      · cases h
      · cases h
    · rintro ⟨g1, g2, rfl, h1, h2, h3, h4⟩
      exact ⟨0x11 :: g1 ++ g2, rfl, .inl (.callIndirect ⟨h1, h2⟩ ⟨h3, h4⟩)⟩

/-- With the reserved byte zero these instructions are accepted, as the document says. -/
theorem C54_zero_partial (r : List Byte) : parseInstr (0x3F :: 0x00 :: r) = (.ok (.memSize 0), r) ∧
    parseInstr (0x40 :: 0x00 :: r) = (.ok (.memGrow 0), r) :=
  ⟨((C54_reserved_partial _ r).1 0).mpr ⟨[0x00], rfl, by decide, rfl⟩, ((C54_reserved_partial _ r).2.1 0).mpr ⟨[0x00], rfl, by decide, rfl⟩⟩

end Whasm
