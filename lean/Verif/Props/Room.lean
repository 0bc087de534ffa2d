import Verif.Lemmas.RoomLower
import Verif.Props.Metered
import Verif.Props.Width

/-!
# C96: the memory of validation

`Room.validateModule C` is `Module::validate` on a computer `C` whose vectors have at most `C.entries k` entries (`Model/Room.lean`). C96 says that validation of what was read from `s` never lacks memory when there
is room for a constant number of entries for each byte:
`∃ a, ∀ C s m r, 32 < C.bits → parseModule s = (.ok m, r) → (∀ k, a * s.length ≤ C.entries k) → Room.validateModule C m = validateModule m`.
The code does not have this property (`C96_negation`) because of local variables, and only because of them (`C96_bytes_partial`).
-/

namespace Whasm
open Spec Run

/-- 64 bits and the same number of entries and elements for each vector. -/
def with64 (n : Nat) : Room.Computer := ⟨64, .release, fun _ => n, fun _ => n⟩

/-- **C96, nothing but panics, partial.** Whatever the memory is, validation of any module panics or tells what it tells with unlimited memory. -/
theorem C96_same_partial (C : Room.Computer) (m : Module) : Room.validateModule C m = .error .panic ∨ Room.validateModule C m = Width.validateModule C.bits C.build m :=
  Room.orPanic_module C m

example : Room.validateModule (with64 4) costly = .ok ⟨[], [.func ⟨[.i32, .i64], [.i32]⟩]⟩ ∧ Room.validateModule (with64 3) costly = .error .panic ∧ Width.validateModule 64 .release costly = validateModule costly := by
  decide +kernel

/-- **C96, enough, partial.** Any module, valid or not, whose block types have at most one result: one entry for each definition, operands for each part of an expression, frames for its blocks and one more, and the
parameters and local variables of each function. -/
theorem C96_enough_partial {C : Room.Computer} {m : Module} (h : HasEntries C.entries m) (hb : BlockResults 1 m) (hl : ∀ f ∈ m.funcs, slots m.types f ≤ C.entries .locals) :
    Room.validateModule C m = Width.validateModule C.bits C.build m := Room.module_fits h hb hl

/-- **C96, from below, partial.** Of an accepted module there was room for all types, all definitions and imports of the four index spaces, the parameters and local variables of each function, a frame for
each of the blocks that are inside of each other and one more, the results and the names of exports. -/
theorem C96_lower_partial {C : Room.Computer} {m : Module} {r : ModuleResult} (hm : NoMarks m) (h : Room.validateModule C m = .ok r) :
    (m.types.length ≤ C.entries .types ∧ (funcSpace m).length ≤ C.entries .funcs ∧ (tableSpace m).length ≤ C.entries .tables ∧ (memSpace m).length ≤ C.entries .mems ∧
      (globalSpace m).length ≤ C.entries .globals) ∧
    (∀ f ∈ m.funcs, slots m.types f ≤ C.entries .locals ∧ depthL f.body < C.entries .frames) ∧
    m.imports.length ≤ C.entries .externals ∧ m.exports.length ≤ C.entries .externals ∧ m.exports.length ≤ C.entries .names := by
  obtain ⟨⟨h1, h2, h3, h4, h5⟩, h6⟩ := Room.module_needs (plain_of_noMarks hm) h
  exact ⟨⟨h1, h2, h3, h4, h5⟩, h6⟩

/-- The numbers of entries that `costly` needs: with one less of any it panics. -/
def costlyEntries : Entry → Nat
  | .types => 2 | .funcs => 2 | .tables => 1 | .mems => 1 | .globals => 1 | .locals => 4 | .operands => 2 | .frames => 2 | .externals => 1 | .names => 1

example : Room.validateModule ⟨64, .release, fun _ => 0, costlyEntries⟩ costly = .ok ⟨[], [.func ⟨[.i32, .i64], [.i32]⟩]⟩ ∧
    ∀ k ∈ [Entry.types, .funcs, .tables, .mems, .globals, .locals, .operands, .frames, .externals, .names],
      Room.validateModule ⟨64, .release, fun _ => 0, fun j => if j = k then costlyEntries j - 1 else costlyEntries j⟩ costly = .error .panic := by decide +kernel

/-- **C96, local variables, partial.** With room for everything else, validation panics iff it gets to a function with more parameters and local variables than there is room for, or with 32 bits to a branch to the label
0xFFFFFFFF (see C57). Otherwise it tells what it tells with unlimited memory. -/
theorem C96_exact_partial {C : Room.Computer} {m : Module} (h : HasEntries C.entries m) (hb : BlockResults 1 m) (hw : 32 ≤ C.bits) (hm : NoMarks m) (hd : ∀ f ∈ m.funcs, depthL f.body + 1 < 2 ^ 32) :
    (Room.validateModule C m = .error .panic ↔ TooManyLocals (C.entries .locals) m ∨ C.bits = 32 ∧ BranchesToLast m) ∧
    (¬ (TooManyLocals (C.entries .locals) m ∨ C.bits = 32 ∧ BranchesToLast m) → Room.validateModule C m = validateModule m) := by
  rcases Room.module_either h hb hw (plain_of_noMarks hm) hd with ⟨h1, h2⟩ | ⟨h1, h2⟩
  · exact ⟨⟨fun _ => h1, fun _ => h2⟩, fun h => absurd h1 h⟩
  · exact ⟨⟨fun h => absurd (h2.symm.trans h) (validate_no_panic m), fun h => absurd h h1⟩, fun _ => h2⟩

/-- A second function with 9 local variables; the first is valid or has too many operands in the end. -/
def secondLarge (first : List Instr) : Module where
  types := [⟨[], []⟩, ⟨[.i32, .i64], []⟩]
  funcs := [⟨0, [], first⟩, ⟨1, List.replicate 9 .f32, []⟩]

/-- Eleven entries are needed, and only if the function is reached. -/
example : Room.validateModule (with64 10) (secondLarge []) = .error .panic ∧ Room.validateModule (with64 11) (secondLarge []) = .ok ⟨[], []⟩ ∧
    Room.validateModule (with64 10) (secondLarge [.constI32 0]) = .error .invalid ∧ Room.validateModule ⟨32, .release, fun _ => 10, fun _ => 10⟩ lastLabel = .error .panic := by decide +kernel

theorem total_plus {α : Type} (f g : α → Nat) : ∀ xs : List α, total (fun x => f x + g x) xs = total f xs + total g xs
  | [] => rfl
  | x :: xs => by simp only [total, total_plus f g xs]; omega

mutual

theorem depth_le_bulkI : ∀ i : Instr, depthI i ≤ bulkI i
  | .block _ b | .loop _ b => by have := depth_le_bulkL b; simp only [depthI, bulkI]; omega
  | .ifElse _ a b => by have := depth_le_bulkL a; have := depth_le_bulkL b; simp only [depthI, bulkI]; omega
  | .brTable _ _ | .elseMark | .endMark | .unreachable | .nop | .br _ | .brIf _ | .ret | .call _ | .callIndirect _ _ | .drop | .select | .localGet _ | .localSet _ | .localTee _ | .globalGet _
  | .globalSet _ | .load _ _ _ | .store _ _ _ | .memSize _ | .memGrow _ | .constI32 _ | .constI64 _ | .constF32 _ | .constF64 _ | .num _ => by simp only [depthI]; omega

theorem depth_le_bulkL : ∀ e : List Instr, depthL e ≤ bulkL e
  | [] => Nat.le_refl _
  | i :: is => by have := depth_le_bulkI i; have := depth_le_bulkL is; simp only [depthL, bulkL]; omega

end

/-- A byte for each part of a module except the local variables. -/
theorem entries_of_length {m : Module} (hb : BlockResults 1 m) {entries : Entry → Nat} (h : ∀ k, k ≠ .locals → (encModule m).length ≤ entries k) : HasEntries entries m := by
  have hl := bulk_le_length hb
  have hf : total (fun f : Func => 1 + f.locals.length + bulkL f.body) m.funcs = total (fun f => 1 + bulkL f.body) m.funcs + localsOf m := by
    rw [localsOf, ← total_plus]
    congr 1
    funext f
    omega
  have ones : ∀ {α : Type} {f : α → Nat} (xs : List α), (∀ x, 1 ≤ f x) → xs.length ≤ total f xs := fun {α f} xs hx => by
    have := Meter.total_le (f := fun _ => 1) (g := f) xs fun x _ => hx x
    rw [Meter.total_const (fun _ => rfl)] at this
    omega
  have t1 := ones (f := fun t : FuncTy => 1 + t.params.length + t.results.length) m.types fun _ => by omega
  have t2 := ones (f := fun f : Func => 1 + bulkL f.body) m.funcs fun _ => by omega
  have t3 := ones (f := fun g : Global => 1 + bulkL g.init) m.globals fun _ => by omega
  have i1 : (importedFuncs m).length ≤ m.imports.length := List.length_filterMap_le _ _
  have i2 : (importedTables m).length ≤ m.imports.length := List.length_filterMap_le _ _
  have i3 : (importedMems m).length ≤ m.imports.length := List.length_filterMap_le _ _
  have i4 : (importedGlobals m).length ≤ m.imports.length := List.length_filterMap_le _ _
  have i5 : (m.funcs.filterMap fun f => m.types[f.ty.toNat]?).length ≤ m.funcs.length := List.length_filterMap_le _ _
  obtain ⟨l1, l2, l3, l4⟩ := Room.space_lengths m
  have he : ∀ e ∈ exprsOf m, bulkL e < (encModule m).length := by
    intro e he
    have key : ∀ {α : Type} {f : α → Nat} {xs : List α} {x : α}, x ∈ xs → f x ≤ total f xs := fun hx => Meter.total_mem hx
    simp only [exprsOf, List.mem_append, List.mem_map] at he
    unfold bulk at hl
    rcases he with ((⟨x, hx, rfl⟩ | ⟨x, hx, rfl⟩) | ⟨x, hx, rfl⟩) | ⟨x, hx, rfl⟩
    · have := key (f := fun f : Func => 1 + bulkL f.body) hx; omega
    · have := key (f := fun g : Global => 1 + bulkL g.init) hx; omega
    · have := key (f := fun e : Elem => 1 + bulkL e.offset + e.init.length) hx; omega
    · have := key (f := fun d : Data => 1 + bulkL d.offset) hx; omega
  unfold bulk at hl
  constructor
  · have := h .types (by decide); omega
  · have := h .funcs (by decide); omega
  · have := h .tables (by decide); omega
  · have := h .mems (by decide); omega
  · have := h .globals (by decide); omega
  · intro e hx; have := he e hx; have := h .operands (by decide); omega
  · intro e hx; have := he e hx; have := depth_le_bulkL e; have := h .frames (by decide); omega
  · have := h .externals (by decide); omega
  · have := h .externals (by decide); omega
  · have := h .names (by decide); omega

/-- **C96, what is read, partial.** With an entry for each byte of the input: validation panics iff it gets to a function with too many parameters and local variables, or with 32 bits to a branch to the label
0xFFFFFFFF. Missing for C96: these functions, see `C96_negation`. -/
theorem C96_bytes_partial {s r : List Byte} {m : Module} (h : parseModule s = (.ok m, r)) {C : Room.Computer} (hw : 32 ≤ C.bits) (hr : ∀ k, k ≠ .locals → s.length ≤ C.entries k) :
    (Room.validateModule C m = .error .panic ↔ TooManyLocals (C.entries .locals) m ∨ C.bits = 32 ∧ BranchesToLast m) ∧
    (¬ (TooManyLocals (C.entries .locals) m ∨ C.bits = 32 ∧ BranchesToLast m) → Room.validateModule C m = validateModule m) := by
  have hb := flats_of_encodable ((C27_exact m).mp ⟨s, r, h⟩)
  exact C96_exact_partial (entries_of_length hb fun k hk => Nat.le_trans (C27_shortest h) (hr k hk)) hb hw (parsed_noMarks h) (parsed_shallow h)

/-- One function with 5 and 4 local variables, in 30 bytes. -/
def nineLocals : List Byte := preamble ++ [0x01, 0x04, 0x01, 0x60, 0x00, 0x00] ++ [0x03, 0x02, 0x01, 0x00] ++ [0x0A, 0x0A, 0x01, 0x08, 0x02, 0x05, 0x7F, 0x04, 0x7E, 0x01, 0x01, 0x0B]

example : (parseModule nineLocals).1.toOption.map (fun m => ([8, 9].map fun n => Room.validateModule ⟨64, .release, fun _ => 30, fun k => if k = .locals then n else 30⟩ m)) =
    some [.error .panic, .ok ⟨[], []⟩] := by decide +kernel

theorem slots_le {s r : List Byte} {m : Module} (h : parseModule s = (.ok m, r)) {f : Func} (hf : f ∈ m.funcs) : slots m.types f ≤ 2 ^ 32 * (s.length + 2) + s.length := by
  have h1 : f.locals.length ≤ 2 ^ 32 * (s.length + 2) := by
    have ho := C82_enough_partial (room := fun _ => 2 ^ 32 * (s.length + 2)) (s := s) fun _ => Nat.le_refl _
    rw [h] at ho
    have hm := (Memory.makes_module _ s m r ho).1 (fun u hu => by cases hu) _ (Memory.locals_mem hf)
    exact hm
  have h2 := C27_shortest h
  unfold slots
  split
  · rename_i t ht
    have := params_length (m := m) (List.mem_of_getElem? ht)
    omega
  · omega

/-- **C96, always enough, partial.** About `2^32` entries for each byte are always enough. -/
theorem C96_worst_partial {s r : List Byte} {m : Module} (h : parseModule s = (.ok m, r)) {C : Room.Computer} (hw : 32 < C.bits) (hr : ∀ k, 2 ^ 32 * (s.length + 2) + s.length ≤ C.entries k) :
    Room.validateModule C m = validateModule m := by
  refine (C96_bytes_partial h (by omega) fun k _ => Nat.le_trans (by omega) (hr k)).2 ?_
  rintro (⟨_, _, _, before, f, after, hf, _, hs⟩ | ⟨h32, _⟩)
  · have := slots_le h (f := f) (by rw [hf]; simp)
    have := hr .locals
    omega
  · omega

theorem le_targetEntries {size : Entry → Nat} (hs : ∀ k, 0 < size k ∧ size k ≤ 128) {bits n : Nat} (h : 2 ^ (n + 8) ≤ 2 ^ (bits - 1)) (hn : 3 ≤ n) (k : Entry) : 2 ^ n ≤ targetEntries bits size k := by
  have hk : ∀ k, 2 ^ n ≤ (2 ^ (bits - 1) - 1) / size k := fun k => by
    refine Nat.le_trans ?_ (Nat.div_le_div_left (hs k).2 (hs k).1)
    rw [Nat.le_div_iff_mul_le (by omega)]
    have : 2 ^ (n + 8) = 2 ^ n * 256 := by rw [Nat.pow_add]
    have := Nat.two_pow_pos n
    omega
  have h4 : 2 ^ n = 4 * 2 ^ (n - 2) := by rw [show n = 2 + (n - 2) from by omega, Nat.pow_add]; simp
  have h8 : 2 ^ n = 8 * 2 ^ (n - 3) := by rw [show n = 3 + (n - 3) from by omega, Nat.pow_add]; simp
  cases k
  case operands => have h := hk .operands; rw [h8] at h ⊢; exact le_pushRoom (by omega) h
  case locals => exact hk _
  case externals => exact hk _
  case names => exact hk _
  case types => have h := hk .types; rw [h4] at h ⊢; exact le_pushRoom (by omega) h
  case funcs => have h := hk .funcs; rw [h4] at h ⊢; exact le_pushRoom (by omega) h
  case tables => have h := hk .tables; rw [h4] at h ⊢; exact le_pushRoom (by omega) h
  case mems => have h := hk .mems; rw [h4] at h ⊢; exact le_pushRoom (by omega) h
  case globals => have h := hk .globals; rw [h4] at h ⊢; exact le_pushRoom (by omega) h
  case frames => have h := hk .frames; rw [h4] at h ⊢; exact le_pushRoom (by omega) h

/-- **C96, 64-bit targets, partial.** With 64 bits, entries of at most 128 bytes and unlimited memory, validation of what was read from at most 4 MB never panics. -/
theorem C96_target_partial {size : Entry → Nat} (hs : ∀ k, 0 < size k ∧ size k ≤ 128) {build : Build} {parts : Kind → Nat} {s r : List Byte} {m : Module} (hl : s.length ≤ 2 ^ 22)
    (h : parseModule s = (.ok m, r)) : Room.validateModule ⟨64, build, parts, targetEntries 64 size⟩ m = validateModule m := by
  refine C96_worst_partial h (by show 32 < 64; omega) fun k => ?_
  refine Nat.le_trans ?_ (le_targetEntries hs (n := 55) (Nat.le_refl _) (by omega) k)
  omega

/-- **C96, 32-bit targets, partial.** With 32 bits and references of 4 bytes, validation of what was read from at most 8 MB panics iff it gets to a function with at least `2^29` parameters and local variables, or to a
branch to the label 0xFFFFFFFF. The parser reads up to `2^30` local variables (C82). -/
theorem C96_target32_partial {size : Entry → Nat} (hs : ∀ k, 0 < size k ∧ size k ≤ 128) (hv : size .locals = 4) {build : Build} {parts : Kind → Nat} {s r : List Byte} {m : Module}
    (hl : s.length ≤ 2 ^ 23) (h : parseModule s = (.ok m, r)) :
    Room.validateModule ⟨32, build, parts, targetEntries 32 size⟩ m = .error .panic ↔ TooManyLocals (2 ^ 29 - 1) m ∨ BranchesToLast m := by
  rw [(C96_bytes_partial h (C := ⟨32, build, parts, targetEntries 32 size⟩) (Nat.le_refl _) fun k _ => Nat.le_trans hl (le_targetEntries hs (n := 23) (Nat.le_refl _) (by omega) k)).1]
  have : targetEntries 32 size .locals = 2 ^ 29 - 1 := by
    show (2 ^ 31 - 1) / size .locals = _
    rw [hv]
  show TooManyLocals (targetEntries 32 size .locals) m ∨ _ ↔ _
  rw [this]
  simp

/-- The types of the entries on a 32-bit target, at most: references, and pairs of a reference and a length. -/
def entrySizes32 : Entry → Nat
  | .types => 4 | .funcs => 4 | .tables => 4 | .mems => 4 | .globals => 4 | .locals => 4 | .operands => 1 | .frames => 32 | .externals => 16 | .names => 8

example : (∀ k ∈ [Entry.types, .funcs, .tables, .mems, .globals, .locals, .operands, .frames, .externals, .names], 0 < entrySizes32 k ∧ entrySizes32 k ≤ 128) ∧
    targetEntries 32 entrySizes32 .locals = 2 ^ 29 - 1 ∧ targetEntries 32 entrySizes32 .operands = 2 ^ 30 ∧ targetEntries 32 entrySizes32 .types = 2 ^ 28 ∧
    Room.validateModule ⟨32, .release, fun _ => 0, targetEntries 32 entrySizes32⟩ costly = validateModule costly := by decide +kernel

/-! ## The tool -/

/-- **C96, the tool, partial.** With more than 32 bits and any memory, the tool is aborted, or prints and returns what it does with unlimited memory. -/
theorem C96_tool_partial {C : Room.Computer} (hw : 32 < C.bits) (args : List String) (fs : String → FileResult) : Room.mainRun C args fs = none ∨ Room.mainRun C args fs = some (mainRun args fs) := by
  unfold Room.mainRun mainRun
  cases configNew args with
  | none => exact .inr rfl
  | some config =>
    dsimp only
    cases fs config.filename with
    | cannotOpen e => exact .inr rfl
    | cannotRead e => exact .inr rfl
    | contents s =>
      dsimp only
      rcases C82_same_partial C.parts s with h | h
      · rw [h]; exact .inl rfl
      · rw [h]
        cases hp : (parseModule s).1 with
        | error e =>
          cases e with
          | panic => exact .inl rfl
          | _ => exact .inr rfl
        | ok m =>
          dsimp only
          rcases C96_same_partial C m with h | h
          · rw [h]; exact .inl rfl
          · rw [h, C57_module_partial hw]
            cases hv : validateModule m with
            | error e =>
              cases e with
              | panic => exact absurd hv (validate_no_panic m)
              | _ => exact .inr rfl
            | ok r => exact .inr rfl

/-- **C96, the tool on 64-bit targets, partial.** With 64 bits and types of at most 128 bytes, and unlimited memory, the tool prints and returns what it does with unlimited lengths, on all files of at most 4 MB. -/
theorem C96_tool64_partial {size : Kind → Nat} {size' : Entry → Nat} (hs : ∀ k, 0 < size k ∧ size k ≤ 128) (hs' : ∀ k, 0 < size' k ∧ size' k ≤ 128) (build : Build) (args : List String)
    {fs : String → FileResult} (hl : ∀ n s, fs n = .contents s → s.length ≤ 2 ^ 22) : Room.mainRun ⟨64, build, targetRoom 64 size, targetEntries 64 size'⟩ args fs = some (mainRun args fs) := by
  unfold Room.mainRun mainRun
  cases configNew args with
  | none => rfl
  | some config =>
    dsimp only
    cases hf : fs config.filename with
    | cannotOpen e => rfl
    | cannotRead e => rfl
    | contents s =>
      dsimp only
      have hl := hl _ _ hf
      rw [C82_target_partial hs (by omega)]
      rcases hp : parseModule s with ⟨e | m, r⟩
      · have hn : e ≠ .panic := fun he => safe_module.noPanic s (by rw [hp, he])
        cases e with
        | panic => exact absurd rfl hn
        | _ => rfl
      · dsimp only
        rw [C96_target_partial hs' hl hp]
        cases hv : validateModule m with
        | error e =>
          cases e with
          | panic => exact absurd hv (validate_no_panic m)
          | _ => rfl
        | ok r => rfl

/-- **C96, the tool on readable modules, partial.** The tool reads a file of which it can make a module, with room for an element and an entry for each byte: it is aborted iff some function has more local variables than the
vectors of the parser can have, or validation gets to a function with more parameters and local variables than its own vector can have, or with 32 bits to a branch to the label 0xFFFFFFFF. -/
theorem C96_file_partial {C : Room.Computer} (hw : 32 ≤ C.bits) {args : List String} {fs : String → FileResult} {config : Config} {s r : List Byte} {m : Module}
    (hc : configNew args = some config) (hs : fs config.filename = .contents s) (h : parseModule s = (.ok m, r)) (hp : ∀ k, s.length ≤ C.parts k) (hr : ∀ k, k ≠ .locals → s.length ≤ C.entries k) :
    (Room.mainRun C args fs = none ↔ (∃ f ∈ m.funcs, C.parts .local < f.locals.length) ∨ TooManyLocals (C.entries .locals) m ∨ C.bits = 32 ∧ BranchesToLast m) ∧
    (Room.mainRun C args fs ≠ none → Room.mainRun C args fs = some (mainRun args fs)) := by
  have hl := C82_locals_partial h hp
  obtain ⟨v1, v2⟩ := C96_bytes_partial h hw hr
  unfold Room.mainRun mainRun
  rw [hc]
  dsimp only
  rw [hs]
  dsimp only
  rw [h]
  by_cases hx : ∀ f ∈ m.funcs, f.locals.length ≤ C.parts .local
  · have hx' : ¬ ∃ f ∈ m.funcs, C.parts .local < f.locals.length := fun ⟨f, hf, hn⟩ => Nat.not_lt.mpr (hx f hf) hn
    rw [hl.mpr hx]
    dsimp only
    by_cases ht : TooManyLocals (C.entries .locals) m ∨ C.bits = 32 ∧ BranchesToLast m
    · rw [v1.mpr ht]
      exact ⟨⟨fun _ => .inr ht, fun _ => rfl⟩, fun h => absurd rfl h⟩
    · rw [v2 ht]
      cases hv : validateModule m with
      | error e =>
        cases e with
        | panic => exact absurd hv (validate_no_panic m)
        | _ => exact ⟨⟨fun h => (by cases h), fun h => (h.elim hx' ht).elim⟩, fun _ => rfl⟩
      | ok r => exact ⟨⟨fun h => (by cases h), fun h => (h.elim hx' ht).elim⟩, fun _ => rfl⟩
  · have hp : (Memory.parseModule C.parts s).out.1 = .error .panic := by
      rcases C82_same_partial C.parts s with k | k
      · exact k
      · exact absurd (hl.mp (k.trans h)) hx
    rw [hp]
    refine ⟨⟨fun _ => .inl ?_, fun _ => rfl⟩, fun h => absurd rfl h⟩
    exact Classical.byContradiction fun hn => hx fun f hf => Nat.not_lt.mp fun hlt => hn ⟨f, hf, hlt⟩

/-- The parser has room for 9 local variables, the validator for 8; and the parser for 8. -/
example : ([(9, 9), (9, 8), (8, 9)].map fun (a, b) =>
    (Room.mainRun ⟨64, .release, fun k => if k = .local then a else 30, fun k => if k = .locals then b else 30⟩ ["whasm", "a.wasm"] fun _ => .contents nineLocals).map (·.exit)) = [some 0, none, none] := by
  decide +kernel

theorem slots_alone (l : List Val) : slots [⟨[], []⟩] ⟨0, l, []⟩ = l.length := Nat.zero_add _

/-- **C96, negation.** The code does not have the property: `hugeFrame` has 30 bytes, is valid, and needs `2^32 - 1` entries for local variables. -/
theorem C96_negation : ¬ ∃ a, a < 2 ^ 27 ∧ ∀ (C : Room.Computer) (s r : List Byte) (m : Module), 32 < C.bits → parseModule s = (.ok m, r) → (∀ k, a * s.length ≤ C.entries k) →
    Room.validateModule C m = validateModule m := by
  rintro ⟨a, ha, h⟩
  have hl : hugeFrame.length = 30 := rfl
  have hp := hugeFrame_parses
  generalize hm : ({ types := [⟨[], []⟩], funcs := [⟨0, List.replicate 0xFFFFFFFF .i32 ++ [], []⟩] } : Module) = m at hp
  have h1 := h (with64 ((a + 1) * 30)) hugeFrame [] m (by show 32 < 64; omega) hp fun _ => by show _ ≤ (a + 1) * 30; rw [hl]; omega
  have h2 : Room.validateModule (with64 ((a + 1) * 30)) m = .error .panic := by
    refine (C96_bytes_partial hp (C := with64 ((a + 1) * 30)) (by show 32 ≤ 64; omega) fun k _ => ?_).1.mpr (.inl ?_)
    · show _ ≤ (a + 1) * 30
      rw [hl]
      omega
    · subst hm
      refine ⟨fun i hi => (by cases hi), fun f hf => ?_, fun t ht => ?_, [], _, [], rfl, fun g hg => (by cases hg), ?_⟩
      · have hf := List.mem_singleton.mp hf
        have : f.ty = 0 := by rw [hf]
        show f.ty.toNat < 1
        rw [this]
        decide
      · cases List.mem_singleton.mp ht
        decide
      · rw [slots_alone, List.append_nil, List.length_replicate]
        show (a + 1) * 30 < _
        omega
  exact validate_no_panic m (h1.symm.trans h2)

end Whasm
