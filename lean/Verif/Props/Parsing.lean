import Verif.Spec.Chain
import Verif.Lemmas.Modules
import Verif.Lemmas.DecEq

/-!
# C13 – C15, C28: all parsers

What holds of every parser of the crate: they only move forward, do not look ahead, terminate and do not panic.
-/

namespace Whasm
open Spec

/-- The element types of the crate that a stream can contain: all implementations of `WasmBinaryParse` except
`Consume`, what contains it, and `Module`. -/
inductive Element : {α : Type} → P α → Prop
  | byte : Element parseByte
  | unsigned (N : Nat) : Element (parseUnsigned N)
  | signed (N : Nat) : Element (parseSigned N)
  | f32 : Element parseF32
  | f64 : Element parseF64
  | string : Element parseString
  | array {α : Type} {p : P α} (n : Nat) : Element p → Element (parseN n p)
  | vec {α : Type} {p : P α} : Element p → Element (parseVec p)
  | unwrappingVec {α β : Type} {p : P α} (f : α → β) : Element p → Element (parseUnwrappingVec f p)
  | compactVec {α : Type} {p : P α} : Element p → Element (parseCompactVec p)
  | sized {α : Type} {p : P α} : Element p → Element (parseSized p)
  | limits : Element parseLimits
  | val : Element parseVal
  | elemTy : Element parseElemTy
  | retVal : Element parseRetVal
  | funcTy : Element parseFuncTy
  | tableTy : Element parseTableTy
  | memTy : Element parseMemTy
  | mut : Element parseMut
  | globalTy : Element parseGlobalTy
  | idx : Element parseIdx
  | instr : Element parseInstr
  | expr : Element parseExpr
  | constExpr : Element parseConstExpr
  | func : Element parseFunc
  | table : Element parseTable
  | mem : Element parseMem
  | global : Element parseGlobal
  | elem : Element parseElem
  | data : Element parseData
  | start : Element parseStart
  | importDesc : Element parseImportDesc
  | exportDesc : Element parseExportDesc
  | import : Element parseImport
  | export : Element parseExport

theorem Element.good {α : Type} {p : P α} (h : Element p) : Good p ∧ NoFuel p := by
  induction h with
  | byte => exact ⟨good_byte, noFuel_byte⟩
  | unsigned N => exact ⟨good_unsigned N, noFuel_unsigned N⟩
  | signed N => exact ⟨good_signed N, noFuel_signed N⟩
  | f32 => exact ⟨good_float 4, noFuel_float 4⟩
  | f64 => exact ⟨good_float 8, noFuel_float 8⟩
  | string => exact ⟨good_string, noFuel_string⟩
  | array n _ ih => exact ⟨good_parseN ih.1 n, noFuel_parseN ih.2 n⟩
  | vec _ ih => exact ⟨good_vec ih.1, noFuel_vec ih.2⟩
  | unwrappingVec f _ ih =>
    exact ⟨good_vec (ih.1.bind fun _ => good_pure _), noFuel_vec (ih.2.bind fun _ => noFuel_pure _)⟩
  | compactVec _ ih => exact ⟨good_compactVec ih.1, noFuel_compactVec ih.2⟩
  | sized _ ih => exact ⟨good_sized ih.1, noFuel_sized ih.2⟩
  | limits => exact ⟨good_limits, noFuel_limits⟩
  | val => exact ⟨good_val, noFuel_val⟩
  | elemTy => exact ⟨good_elemTy, noFuel_elemTy⟩
  | retVal => exact ⟨good_retVal, noFuel_retVal⟩
  | funcTy => exact ⟨good_funcTy, noFuel_funcTy⟩
  | tableTy => exact ⟨good_tableTy, noFuel_tableTy⟩
  | memTy => exact ⟨good_memTy, noFuel_memTy⟩
  | «mut» => exact ⟨good_mut, noFuel_mut⟩
  | globalTy => exact ⟨good_globalTy, noFuel_globalTy⟩
  | idx => exact ⟨good_u32, noFuel_u32⟩
  | instr => exact ⟨good_instr, noFuel_instr⟩
  | expr => exact ⟨good_expr, noFuel_expr⟩
  | constExpr => exact ⟨good_constExpr, noFuel_constExpr⟩
  | func => exact ⟨good_func, noFuel_func⟩
  | table => exact ⟨good_table, noFuel_table⟩
  | mem => exact ⟨good_mem, noFuel_mem⟩
  | global => exact ⟨good_global, noFuel_global⟩
  | elem => exact ⟨good_elem, noFuel_elem⟩
  | data => exact ⟨good_data, noFuel_data⟩
  | start => exact ⟨good_start, noFuel_start⟩
  | importDesc => exact ⟨good_importDesc, noFuel_importDesc⟩
  | exportDesc => exact ⟨good_exportDesc, noFuel_exportDesc⟩
  | «import» => exact ⟨good_import, noFuel_import⟩
  | «export» => exact ⟨good_export, noFuel_export⟩

/-! ## C13 -/

/-- **C13, elements.** -/
theorem C13_forward {α : Type} {p : P α} (h : Element p) : Forward p := h.good.1.forward

/-- **C13, `Consume`, custom sections and modules.** -/
theorem C13_forward_rest : Forward parseConsume ∧ Forward parseCustom ∧ Forward (parseSized parseCustom) ∧ Forward parseModule :=
  ⟨safe_consume.forward, safe_custom.forward, (safe_sized safe_custom).forward, safe_module.forward⟩

theorem forward_parseN {α : Type} {p : P α} (hp : Forward p) (n : Nat) : Forward (parseN n p) := by
  induction n with
  | zero => exact fun s => List.suffix_refl s
  | succ n ih => exact forward_bind hp fun x => forward_bind ih fun xs => (good_pure _).forward

theorem forward_runs {α : Type} {p : P α} (hp : Forward p) (k : Nat) : Forward (parseRuns k p) := by
  induction k with
  | zero => exact fun s => List.suffix_refl s
  | succ k ih => exact forward_bind good_u32.forward fun _ => forward_bind hp fun _ => forward_bind ih fun _ => (good_pure _).forward

/-- **C13, combinators.** They keep this property, whatever the content. -/
theorem C13_forward_combinators {α β : Type} {p : P α} (hp : Forward p) (n : Nat) (f : α → β) :
    Forward (parseN n p) ∧ Forward (parseVec p) ∧ Forward (parseUnwrappingVec f p) ∧ Forward (parseCompactVec p) ∧ Forward (parseSized p) :=
  ⟨forward_parseN hp n, forward_bind good_u32.forward fun _ => forward_parseN hp _,
    forward_bind good_u32.forward fun _ => forward_parseN (forward_bind hp fun _ => (good_pure _).forward) _,
    forward_bind good_u32.forward fun _ => forward_runs hp _,
    forward_bind good_u32.forward fun n => sizedBody_forward hp n.toNat⟩

-- an error in the middle: the type byte 0x00 of a global is not a value type, the rest is left in place
example : parseVec parseGlobal [0x01, 0x00, 0x41, 0x0B] = (.error (.invalidVariantId 0x00 "ty::Val"), [0x41, 0x0B]) := by
  decide +kernel

/-! ## C14 -/

/-- **C14.** -/
theorem C14_local {α : Type} {p : P α} (h : Element p) : Local p := fun _ _ _ hs => h.good.1.local_ok hs

/-- **C14, no encoding is a proper prefix of another.** -/
theorem C14_prefix_free {α : Type} {p : P α} (h : Element p) {b t : List Byte} {x y : α}
    (h1 : p b = (.ok x, [])) (h2 : p (b ++ t) = (.ok y, [])) : t = [] ∧ x = y := by
  have h3 := h.good.1.append_ok h1 t
  rw [h2] at h3
  cases h3
  exact ⟨rfl, rfl⟩

-- the exceptions are real: `Consume` and modules look at the end of the stream
example : ¬ Local parseConsume := by
  intro h
  obtain ⟨c, hc, h'⟩ := h [1] 1 [] (by decide)
  have := h' [2]
  have hc' : c = [1] := by simpa using hc.symm
  subst hc'
  revert this
  decide
example : ¬ Local parseModule := by
  intro h
  obtain ⟨c, hc, h'⟩ := h [0x00, 0x61, 0x73, 0x6D, 0x01, 0x00, 0x00, 0x00] {} [] (by decide +kernel)
  have h2 := h' [0xFF]
  have hc' : c = [0x00, 0x61, 0x73, 0x6D, 0x01, 0x00, 0x00, 0x00] := by simpa using hc.symm
  subst hc'
  revert h2
  decide +kernel
example : Element (parseVec (parseSized parseFunc)) ∧
    parseVec (parseSized parseFunc) [0x01, 0x02, 0x00, 0x0B] = (.ok [⟨0, [], []⟩], []) ∧
    parseVec (parseSized parseFunc) [0x01, 0x02, 0x00, 0x0B, 0xFF] = (.ok [⟨0, [], []⟩], [0xFF]) :=
  ⟨.vec (.sized .func), by decide +kernel⟩

/-! ## C15 -/

/-- **C15, modules.** The fuel of the model (the length of the input plus one) is never exhausted: the loops of the
code terminate. -/
theorem C15_module : NeverPanics parseModule := fun s => ⟨safe_module.noPanic s, safe_module.noFuel s⟩

/-- **C15, all other elements.** -/
theorem C15_elements {α : Type} {p : P α} (h : Element p) : NeverPanics p := fun s => ⟨h.good.1.noPanic s, h.good.2 s⟩

/-- Expressions and instructions are elements. -/
theorem C15_expr_instr : NeverPanics parseExpr ∧ NeverPanics parseInstr :=
  ⟨C15_elements .expr, C15_elements .instr⟩

-- the panic of `assignTys` is real: reachable when the lengths differ, which is checked before
example : assignTys [0] 2 [⟨0, [], []⟩, ⟨0, [], []⟩] = none := by decide +kernel

/-! ## C28 -/

/-- **C28.** A proper prefix `b` of an accepted encoding `b ++ t` of an expression or instruction. -/
theorem C28_truncated_expr {b t : List Byte} {e : Expr} (ht : t ≠ []) (h : parseExpr (b ++ t) = (.ok e, [])) :
    parseExpr b = (.error .unexpectedEndOfFile, []) := good_expr.truncated ht h

theorem C28_truncated_instr {b t : List Byte} {i : Instr} (ht : t ≠ []) (h : parseInstr (b ++ t) = (.ok i, [])) :
    parseInstr b = (.error .unexpectedEndOfFile, []) := good_instr.truncated ht h

example : parseExpr [0x02, 0x40, 0x41, 0x80, 0x01, 0x1A, 0x0B, 0x0B] = (.ok [.block [] [.constI32 128, .drop]], []) ∧
    parseExpr [0x02, 0x40, 0x41, 0x80] = (.error .unexpectedEndOfFile, []) := by decide +kernel

end Whasm
