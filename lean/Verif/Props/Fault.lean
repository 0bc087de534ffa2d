import Verif.Lemmas.Fault
import Verif.Lemmas.DecEq
import Verif.Props.Parsing

/-!
# C80: Every input that is not a module has exactly one fault by the grammar, and it is the one reported
-/

namespace Whasm
open Spec

/-- The parser reports the error `e` after the bytes `read` exactly if someone who reads a module by the grammar is stopped there by the fault called `e`:
the faults are defined by the grammar alone. -/
theorem C80_exact (read rest : List Byte) (e : Error) : parseModule (read ++ rest) = (.error e, rest) ↔ ModuleFault read rest e := by
  refine ⟨fun h => ?_, module_fault⟩
  obtain ⟨read', h1, h2⟩ := parseModule_fault h fun he => (C15_module _).2 (by rw [h, he])
  rw [List.append_cancel_right h1]
  exact h2

/-- An input is a module, or it has a fault, and not both. -/
theorem C80_fault (s : List Byte) : (¬ ∃ m, GModule .code s m) ↔ ∃ read rest e, s = read ++ rest ∧ ModuleFault read rest e := by
  constructor
  · intro h
    rcases hp : parseModule s with ⟨e | m, r⟩
    · obtain ⟨read, rfl, hf⟩ := parseModule_fault hp fun he => (C15_module _).2 (by rw [hp, he])
      exact ⟨read, r, e, rfl, hf⟩
    · exact (h ⟨m, ((parseModule_iff _ _ _).mp hp).2⟩).elim
  · rintro ⟨read, rest, e, rfl, h⟩ ⟨m, hm⟩
    have h1 := module_fault h
    rw [(parseModule_iff _ _ _).mpr ⟨rfl, hm⟩] at h1
    cases h1

/-- There is one fault at most: the place of the fault and its name are determined by the grammar. -/
theorem C80_unique {read rest read' rest' : List Byte} {e e' : Error} (h : ModuleFault read rest e) (h' : ModuleFault read' rest' e')
    (hs : read ++ rest = read' ++ rest') : read = read' ∧ rest = rest' ∧ e = e' := by
  have h1 := module_fault h
  rw [hs, module_fault h'] at h1
  cases h1
  exact ⟨List.append_cancel_right hs, rfl, rfl⟩

/-- The same for expressions: `end` and `else` are found where they belong. -/
theorem C80_expr (read rest : List Byte) (e : Error) : parseExpr (read ++ rest) = (.error e, rest) ↔ ExprFault read rest e := by
  rw [faults_expr]
  exact ⟨fun ⟨b, h1, h2⟩ => by rw [List.append_cancel_right h1]; exact h2, fun h => ⟨read, rfl, h⟩⟩

/-- Where a function type, an import, an export, a global variable, an element segment, a data segment or a body is expected: the same. -/
theorem C80_parts (read rest : List Byte) (e : Error) :
    (parseFuncTy (read ++ rest) = (.error e, rest) ↔ FuncTyFault read rest e) ∧
    (parseImport (read ++ rest) = (.error e, rest) ↔ ImportFault read rest e) ∧
    (parseExport (read ++ rest) = (.error e, rest) ↔ ExportFault read rest e) ∧
    (parseGlobal (read ++ rest) = (.error e, rest) ↔ GlobalFault read rest e) ∧
    (parseElem (read ++ rest) = (.error e, rest) ↔ ElemFault read rest e) ∧
    (parseData (read ++ rest) = (.error e, rest) ↔ DataFault read rest e) ∧
    (parseFunc (read ++ rest) = (.error e, rest) ↔ FuncFault read rest e) := by
  have key : ∀ {α : Type} {p : P α} {F : Fault}, Faults p F → (p (read ++ rest) = (.error e, rest) ↔ F read rest e) := fun hp => by
    rw [hp]
    exact ⟨fun ⟨b, h1, h2⟩ => by rw [List.append_cancel_right h1]; exact h2, fun h => ⟨read, rfl, h⟩⟩
  exact ⟨key faults_funcTy, key faults_import, key faults_export, key faults_global, key faults_elem, key faults_data, key faults_func⟩

/-! ### Examples -/

/-- The empty list of sections. -/
theorem complete_nil : Complete [] [] := ⟨.nil, {}, ((parseModule_iff preamble {} []).mp (by decide +kernel)).2⟩

-- a global variable with the initial value `i32.const 0; else`, read off the grammar, whatever follows in the section and after it
example (r after : List Byte) (h : r.length = 5) : parseModule (preamble ++ [] ++ 0x06 :: ([0x0B] ++ ([0x01] ++ [] ++ ([0x7F, 0x00] ++ ([0x41, 0x00] ++ [0x05]))))
    ++ (r ++ after)) = (.error (.unexpectedOpcode "Else"), r ++ after) := by
  refine (C80_exact _ _ _).mpr (.section complete_nil (by decide) (fun _ => by simp [secIds]) (.content (len := 11) ⟨by decide, by decide⟩ (.inl (by simp [h])) ?_))
  have hi : GInstrs .code [0x41, 0x00] [.constI32 0] :=
    .cons (b := [0x41, 0x00]) (.constI32 (b := [0x00]) (v := 0) ⟨by decide, by decide⟩) .nil
  exact .element (len := 1) (xs := []) ⟨by decide, by decide⟩ .nil (by decide) (.second (.mk (b1 := [0x7F]) .i32 .const) (.strayElse hi))

-- the fault in the first block is reported, not the one after it, and not the size that is too small for both
example : ModuleFault (preamble ++ [0x03, 0x02, 0x01, 0x00, 0x0A, 0x0A, 0x01, 0x08, 0x00, 0x02, 0x40, 0x06]) [0x0B, 0x03, 0x05, 0x0B]
    (.invalidVariantId 0x06 "instr::Instr") := (C80_exact _ _ _).mp (by decide +kernel)

-- an import with a name that is not UTF-8 and a kind that does not exist: the name comes first
example : ModuleFault (preamble ++ [0x02, 0x05, 0x01, 0x01, 0xFF]) [0x00, 0x04] .invalidUtf8Encoding ∧
    ¬ ∃ ty, ModuleFault (preamble ++ [0x02, 0x05, 0x01, 0x01, 0xFF, 0x00, 0x04]) [] (.invalidVariantId 0x04 ty) := by
  have h : ModuleFault (preamble ++ [0x02, 0x05, 0x01, 0x01, 0xFF]) [0x00, 0x04] .invalidUtf8Encoding := (C80_exact _ _ _).mp (by decide +kernel)
  refine ⟨h, fun ⟨ty, h'⟩ => ?_⟩
  obtain ⟨_, h1, _⟩ := C80_unique h h' (by simp)
  cases h1

-- the end of the file: within the version, within the size of a section, within an operand
example : ModuleFault [0x00, 0x61, 0x73, 0x6D, 0x01] [] .unexpectedEndOfFile ∧ ModuleFault (preamble ++ [0x01, 0x80]) [] .unexpectedEndOfFile ∧
    ModuleFault (preamble ++ [0x06, 0x0B, 0x01, 0x7F, 0x00, 0x41, 0xFF]) [] .unexpectedEndOfFile :=
  ⟨.shortVersion (v := [0x01]) (by decide), (C80_exact _ _ _).mp (by decide +kernel), (C80_exact _ _ _).mp (by decide +kernel)⟩

-- a section twice; a section of the number 12
example : ModuleFault (preamble ++ [0x05, 0x03, 0x01, 0x00, 0x01] ++ [0x05]) [0x03] (.unexpectedSectionId 0x05) ∧
    ModuleFault (preamble ++ [] ++ [0x0C]) [] (.invalidSectionId 0x0C) := ⟨(C80_exact _ _ _).mp (by decide +kernel), .sectionId complete_nil (by decide)⟩

-- a module has no fault
example : ¬ ∃ read rest e, preamble ++ [0x05, 0x03, 0x01, 0x00, 0x01] = read ++ rest ∧ ModuleFault read rest e := by
  rw [← C80_fault]
  exact fun h => h ⟨_, ((parseModule_iff _ { mems := [⟨⟨⟨1, none⟩⟩⟩] } []).mp (by decide +kernel)).2⟩

end Whasm
