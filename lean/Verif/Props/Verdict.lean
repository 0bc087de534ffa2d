import Verif.Spec.Verdict
import Verif.Props.Exact
import Verif.Props.Shortest
import Verif.Props.Message

/-!
# Property C91: the exit code says whether the file is a WebAssembly module

The property is: if the tool is called with the name of a file that can be read, the exit code is 0 exactly if the file holds a valid module of WebAssembly 1.0.
-/

namespace Whasm
open Spec

/-- The full statement. -/
def C91 : Prop := ∀ (a n : String) (args : List String) (fs : String → FileResult) (s : List Byte), (names args).getLast? = some n → n ≠ "" → fs n = .contents s →
  ((mainRun (a :: args) fs).exit = 0 ↔ IsWasm s)

variable {a n : String} {args : List String} {fs : String → FileResult} {s : List Byte} {m : Module}

theorem exit_iff (hn : (names args).getLast? = some n) (hne : n ≠ "") (hs : fs n = .contents s) :
    (mainRun (a :: args) fs).exit = 0 ↔ ∃ m rest r, parseModule s = (.ok m, rest) ∧ validateModule m = .ok r := by
  rw [(C56_outcome _ _).1, C52_success]
  constructor
  · rintro ⟨n', b, m, r, rest, h1, _, h3, h4, h5⟩
    rw [hn] at h1; cases h1
    simp only [hs, FileResult.toOption] at h3; cases h3
    exact ⟨m, rest, r, h4, h5⟩
  · rintro ⟨m, rest, r, h4, h5⟩
    exact ⟨n, s, m, r, rest, hn, hne, by simp only [hs, FileResult.toOption], h4, h5⟩

/-- **C91, exactly, partial.** Exit code 0 says that the file is a module by the grammar and the rules of the crate. Missing for C91: those of the document, see
`C91_negation`. -/
theorem C91_exact_partial (hn : (names args).getLast? = some n) (hne : n ≠ "") (hs : fs n = .contents s) :
    (mainRun (a :: args) fs).exit = 0 ↔ ∃ m, GModule .code s m ∧ Valid .code m := by
  rw [exit_iff hn hne hs]
  constructor
  · rintro ⟨m, rest, r, hp, hv⟩
    exact ⟨m, ((C23_module _ _ _).mp hp).2, valid_of_ok hv (parsed_noElse hp)⟩
  · rintro ⟨m, hp, hv⟩
    exact ⟨m, [], _, (C23_module _ _ _).mpr ⟨rfl, hp⟩, ok_of_valid hv⟩

theorem exit_of (hn : (names args).getLast? = some n) (hne : n ≠ "") (hs : fs n = .contents s) {rest : List Byte} (hp : parseModule s = (.ok m, rest)) :
    (mainRun (a :: args) fs).exit = 0 ↔ ∃ r, validateModule m = .ok r := by
  rw [exit_iff hn hne hs]
  refine ⟨fun ⟨m', rest', r, hp', hv⟩ => ?_, fun ⟨r, hv⟩ => ⟨m, rest, r, hp, hv⟩⟩
  rw [hp] at hp'; cases hp'
  exact ⟨r, hv⟩

/-- **C91, completeness, partial.** On a file with a valid module, the exit code is 0 exactly under three conditions: no branch to the body of the function as a whole, no
limit of exactly 2^16 pages, globals are initialised only with what the crate finds at the index. -/
theorem C91_complete_partial (hn : (names args).getLast? = some n) (hne : n ≠ "") (hs : fs n = .contents s) (hg : GModule .w3c s m) (hv : Valid .w3c m) :
    (mainRun (a :: args) fs).exit = 0 ↔ (∀ f ∈ m.funcs, ∀ j d, OccursAt j d f.body → ∀ l ∈ branchTargets j, l.toNat < d) ∧
      (∀ t ∈ memSpace m, t.lim.min ≠ 65536 ∧ t.lim.max ≠ some 65536) ∧
      (∀ g ∈ m.globals, ∀ x, .globalGet x ∈ g.init → (ownGlobals m)[x.toNat]? = some ⟨.const, g.ty.val⟩) := by
  rw [exit_of hn hne hs (C23_w3c hg), ← C49_exact hv]
  refine ⟨fun ⟨r, h⟩ => ?_, fun h => ⟨_, h⟩⟩
  rw [h, (validate_ok_iff (valid_plain hv) |>.mp h).2]

/-- Constant expressions can be written down. -/
theorem writable_const {gs : List GlobalTy} {e : Expr} {t : Val} (h : SingleConst gs e t) {i : Instr} (hi : Occurs i e) : Writable .w3c i := by
  cases h <;> cases hi with
  | here h => rw [List.mem_singleton] at h; subst h; trivial
  | block h => simp at h
  | loop h => simp at h
  | thn h => simp at h
  | els h => simp at h

/-- With at most one table and memory, the reserved bytes of accepted modules can only be zero. -/
theorem encodable_w3c (h : Encodable .code m) {r : ModuleResult} (hv : validateModule m = .ok r) (he : NoElse m) (ht : (tableSpace m).length ≤ 1)
    (hm : (memSpace m).length ≤ 1) (hl : ∀ f ∈ m.funcs, f.locals.length < 2 ^ 32) : Encodable .w3c m where
  imports := h.imports
  exports := h.exports
  exprs e hx i hi := by
    have hw := h.exprs e hx i hi
    simp only [exprsOf, List.mem_append, List.mem_map] at hx
    have hc := C40_module hv
    rcases hx with ((⟨f, hf, rfl⟩ | ⟨g, hg, rfl⟩) | ⟨g, hg, rfl⟩) | ⟨g, hg, rfl⟩
    · obtain ⟨t, _, hb⟩ := C34_bodies hv hf
      obtain ⟨d, hd⟩ := occursAt_iff.mp hi
      have hb := hb i d hd
      have zero : ∀ x : Idx, x.toNat < 1 → x = 0 := fun x hx => BitVec.eq_of_toNat_eq (by simp; omega)
      cases i with
      | callIndirect x y => exact ⟨[0x00], rfl, zero _ (Nat.lt_of_lt_of_le hb.2 ht)⟩
      | memSize x => exact ⟨[0x00], rfl, zero _ (Nat.lt_of_lt_of_le hb hm)⟩
      | memGrow x => exact ⟨[0x00], rfl, zero _ (Nat.lt_of_lt_of_le hb hm)⟩
      | _ => exact hw
    · exact writable_const (hc.1 g hg) hi
    · exact writable_const (hc.2.1 g hg) hi
    · exact writable_const (hc.2.2 g hg) hi
  locals := hl
  types_size := h.types_size
  imports_size := h.imports_size
  tys_size := h.tys_size
  tables_size := h.tables_size
  mems_size := h.mems_size
  globals_size := h.globals_size
  exports_size := h.exports_size
  elem_size := h.elem_size
  code_size := h.code_size
  data_size := h.data_size

/-- **C91, soundness, partial.** If the exit code is 0, there is a file with the same module by the document, which is valid and not longer, exactly under five conditions. -/
theorem C91_sound_partial (hn : (names args).getLast? = some n) (hne : n ≠ "") (hs : fs n = .contents s) (hx : (mainRun (a :: args) fs).exit = 0) :
    ∃ m, GModule .code s m ∧ ((∃ s', GModule .w3c s' m ∧ Valid .w3c m ∧ s'.length ≤ s.length) ↔
      (∀ f ∈ m.funcs, ∀ j, Occurs j f.body → AlignOk j) ∧
      (∀ g ∈ m.globals, ∀ x, .globalGet x ∈ g.init → (importedGlobals m)[x.toNat]? = some ⟨.const, g.ty.val⟩) ∧
      (tableSpace m).length ≤ 1 ∧ (memSpace m).length ≤ 1 ∧ ∀ f ∈ m.funcs, f.locals.length < 2 ^ 32) := by
  obtain ⟨m, rest, r, hp, hv⟩ := (exit_iff hn hne hs).mp hx
  have hno := parsed_noElse hp
  refine ⟨m, ((C23_module _ _ _).mp hp).2, ?_, ?_⟩
  · rintro ⟨s', hg, hw, _⟩
    obtain ⟨h1, h2, h3, h4⟩ := (C48_exact hv hno).mp hw
    exact ⟨h1, h2, h3, h4, ((C27_w3c m).1.mp ⟨_, hg⟩).locals⟩
  · rintro ⟨h1, h2, h3, h4, h5⟩
    exact ⟨_, (C27_w3c m).2 (encodable_w3c ((C27_exact m).mp ⟨_, _, hp⟩) hv hno h3 h4 h5), (C48_exact hv hno).mpr ⟨h1, h2, h3, h4⟩, C27_shortest hp⟩

/-- **C91, common ground, partial.** It holds for files by the grammar of the document, with modules that avoid what the crate and the document disagree about. -/
theorem C91_common_partial (hn : (names args).getLast? = some n) (hne : n ≠ "") (hs : fs n = .contents s) (hg : GModule .w3c s m) (hm : Common m) :
    (mainRun (a :: args) fs).exit = 0 ↔ IsWasm s := by
  rw [exit_of hn hne hs (C23_w3c hg), C49_agree (parsed_noElse (C23_w3c hg)) hm.aligned hm.inits hm.tables hm.mems hm.branches hm.limits]
  refine ⟨fun h => ⟨m, hg, h⟩, fun ⟨m', hg', h⟩ => ?_⟩
  rw [C23_unambiguous hg hg']; exact h

/-- **C91, shortest files, partial.** The same without the grammar of the document, for files of minimal length, whether accepted or not. -/
theorem C91_shortest_partial (hn : (names args).getLast? = some n) (hne : n ≠ "") (hs : fs n = .contents s) {rest : List Byte} (hp : parseModule s = (.ok m, rest))
    (hshort : ∀ s' rest', parseModule s' = (.ok m, rest') → s.length ≤ s'.length) (hm : Common m) : (mainRun (a :: args) fs).exit = 0 ↔ IsWasm s := by
  have he : s = encModule m := Classical.byContradiction fun h => absurd (hshort _ _ (C27_again hp)) (Nat.not_le.mpr (C66_longer hp hm.locals h))
  constructor
  · intro hx
    obtain ⟨r, hv⟩ := (exit_of hn hne hs hp).mp hx
    have hg := (C27_w3c m).2 (encodable_w3c ((C27_exact m).mp ⟨_, _, hp⟩) hv (parsed_noElse hp) hm.tables hm.mems hm.locals)
    rw [← he] at hg
    exact (C91_common_partial hn hne hs hg hm).mp hx
  · rintro ⟨m', hg, hw⟩
    have h1 := C23_w3c hg
    rw [hp] at h1; cases h1
    exact (C91_common_partial hn hne hs hg hm).mpr ⟨_, hg, hw⟩

/-- `(module (func br 0))` -/
def brFile : List Byte := [0x00, 0x61, 0x73, 0x6D, 1, 0, 0, 0, 0x01, 0x04, 0x01, 0x60, 0x00, 0x00, 0x03, 0x02, 0x01, 0x00, 0x0A, 0x06, 0x01, 0x04, 0x00, 0x0C, 0x00, 0x0B]

/-- `(module (memory 1) (func (result i32) i32.const 0 i32.load8_u align=2^31))` -/
def misalignedFile : List Byte := [0x00, 0x61, 0x73, 0x6D, 1, 0, 0, 0, 0x01, 0x05, 0x01, 0x60, 0x00, 0x01, 0x7F, 0x03, 0x02, 0x01, 0x00, 0x05, 0x03, 0x01, 0x00, 0x01,
  0x0A, 0x09, 0x01, 0x07, 0x00, 0x41, 0x00, 0x2D, 0x1F, 0x00, 0x0B]

theorem isWasm_br : IsWasm brFile := by
  refine ⟨brModule, ?_, C49_negation.1.1⟩
  have : Encodable .w3c brModule := by
    constructor
    · simp [brModule]
    · simp [brModule]
    · intro e he i hi
      have he : e = [.br 0] := by simpa [exprsOf, brModule] using he
      subst he
      cases hi with
      | here h => rw [List.mem_singleton] at h; subst h; trivial
      | block h => simp at h
      | loop h => simp at h
      | thn h => simp at h
      | els h => simp at h
    · simp [brModule, Dialect.w3c]
    all_goals decide +kernel
  have h := (C27_w3c _).2 this
  rwa [show encModule brModule = brFile by decide +kernel] at h

/-- **C91 does not hold**, in both directions: the first file is a valid module and the exit code is 1, the second is not and the exit code is 0. -/
theorem C91_negation : (IsWasm brFile ∧ (mainRun ["whasm", "a.wasm"] fun _ => .contents brFile).exit = 1) ∧
    (¬ IsWasm misalignedFile ∧ (mainRun ["whasm", "a.wasm"] fun _ => .contents misalignedFile).exit = 0) ∧ ¬ C91 := by
  have h1 : (mainRun ["whasm", "a.wasm"] fun _ => .contents brFile).exit = 1 := by decide +kernel
  refine ⟨⟨isWasm_br, h1⟩, ⟨?_, by decide +kernel⟩, fun h => ?_⟩
  · rintro ⟨m, hg, hv⟩
    have hp := C23_w3c hg
    rw [show parseModule misalignedFile = (.ok misaligned, []) by decide +kernel] at hp
    cases hp
    exact C43_negation.2.2.2 _ (List.mem_singleton.mpr rfl) (hv.funcs _ (List.mem_singleton.mpr rfl))
  · have := (h "whasm" "a.wasm" ["a.wasm"] (fun _ => .contents brFile) brFile (by decide +kernel) (by decide) rfl).mpr isWasm_br
    rw [h1] at this; cases this

/-- The hypotheses of the theorems above: a module with one function and a memory is common ground, its file the shortest, and the exit code is 0. -/
def commonModule : Module :=
  { types := [⟨[], [.i32]⟩], funcs := [⟨0, [.i32], [.block [.i32] [.constI32 4, .load .i32Load 2 0, .br 0]]⟩], mems := [⟨⟨⟨1, none⟩⟩⟩] }

/-- It is common ground. -/
theorem common_module : Common commonModule where
  aligned f hf i hi := by
    obtain rfl := List.mem_singleton.mp hf
    cases hi with
    | here h => rw [List.mem_singleton] at h; subst h; trivial
    | block h hi =>
      obtain ⟨rfl, rfl⟩ := Instr.block.inj (List.mem_singleton.mp h)
      cases hi with
      | here h =>
        simp only [List.mem_cons, List.not_mem_nil, or_false] at h
        rcases h with rfl | rfl | rfl
        · trivial
        · simp [AlignOk]
        · trivial
      | block h => simp at h
      | loop h => simp at h
      | thn h => simp at h
      | els h => simp at h
    | loop h => simp at h
    | thn h => simp at h
    | els h => simp at h
  branches f hf i d hi l hl := by
    obtain rfl := List.mem_singleton.mp hf
    cases hi with
    | here h => rw [List.mem_singleton] at h; subst h; cases hl
    | block h hi =>
      obtain ⟨rfl, rfl⟩ := Instr.block.inj (List.mem_singleton.mp h)
      cases hi with
      | here h =>
        simp only [List.mem_cons, List.not_mem_nil, or_false] at h
        rcases h with rfl | rfl | rfl
        · cases hl
        · cases hl
        · obtain rfl := List.mem_singleton.mp hl; decide
      | block h => simp at h
      | loop h => simp at h
      | thn h => simp at h
      | els h => simp at h
    | loop h => simp at h
    | thn h => simp at h
    | els h => simp at h
  inits g hg := by cases hg
  tables := by decide
  mems := by decide
  limits t ht := by
    obtain rfl := List.mem_singleton.mp ht
    decide
  locals f hf := by
    obtain rfl := List.mem_singleton.mp hf
    decide

/-- The file of this module is the shortest, is a valid module, and has exit code 0. -/
example : (∀ s' rest', parseModule s' = (.ok commonModule, rest') → (encModule commonModule).length ≤ s'.length) ∧
    (mainRun ["whasm", "a.wasm"] fun _ => .contents (encModule commonModule)).exit = 0 ∧ IsWasm (encModule commonModule) := by
  have h0 : (mainRun ["whasm", "a.wasm"] fun _ => .contents (encModule commonModule)).exit = 0 := by decide +kernel
  exact ⟨fun _ _ h => C27_shortest h, h0, (C91_shortest_partial (n := "a.wasm") (by decide +kernel) (by decide) rfl
    (show parseModule (encModule commonModule) = (.ok commonModule, []) by decide +kernel) (fun _ _ h => C27_shortest h) common_module).mp h0⟩

end Whasm
