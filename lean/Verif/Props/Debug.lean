import Verif.Lemmas.DebugModule
import Verif.Props.Message
import Verif.Props.Encode

/-!
# Property C64: the printed text determines the module
-/

namespace Whasm
open Spec

/-! ## Expressions without NaN -/

mutual

theorem blind_id : ∀ (i : Instr), (∀ j, Occurs j [i] → ¬ NaNConst j) → blind i = i
  | .constF32 v, h => by
      rw [blind, if_neg fun hv => h _ (.here (by simp)) (.inl ⟨v, rfl, hv⟩)]
  | .constF64 v, h => by
      rw [blind, if_neg fun hv => h _ (.here (by simp)) (.inr ⟨v, rfl, hv⟩)]
  | .block t b, h => by
      rw [blind, blindL_id b fun j hj => h j (.block (.head _) hj)]
  | .loop t b, h => by
      rw [blind, blindL_id b fun j hj => h j (.loop (.head _) hj)]
  | .ifElse t a b, h => by
      rw [blind, blindL_id a fun j hj => h j (.thn (.head _) hj), blindL_id b fun j hj => h j (.els (.head _) hj)]
  | .constI32 _, _ => rfl
  | .constI64 _, _ => rfl
  | .load _ _ _, _ => rfl
  | .store _ _ _, _ => rfl
  | .unreachable, _ => rfl
  | .nop, _ => rfl
  | .br _, _ => rfl
  | .brIf _, _ => rfl
  | .brTable _ _, _ => rfl
  | .ret, _ => rfl
  | .call _, _ => rfl
  | .callIndirect _ _, _ => rfl
  | .drop, _ => rfl
  | .select, _ => rfl
  | .localGet _, _ => rfl
  | .localSet _, _ => rfl
  | .localTee _, _ => rfl
  | .globalGet _, _ => rfl
  | .globalSet _, _ => rfl
  | .memSize _, _ => rfl
  | .memGrow _, _ => rfl
  | .num _, _ => rfl
  | .elseMark, _ => rfl
  | .endMark, _ => rfl

theorem blindL_id : ∀ (is : List Instr), (∀ j, Occurs j is → ¬ NaNConst j) → blindL is = is
  | [], _ => rfl
  | i :: is, h => by
      rw [blindL, blind_id i fun j hj => h j (occurs_mono (by simp) hj), blindL_id is fun j hj => h j (occurs_mono (by simp +contextual) hj)]
where
  occurs_mono {j : Instr} {a b : List Instr} (hab : ∀ x ∈ a, x ∈ b) : Occurs j a → Occurs j b
    | .here h => .here (hab _ h)
    | .block h h' => .block (hab _ h) h'
    | .loop h h' => .loop (hab _ h) h'
    | .thn h h' => .thn (hab _ h) h'
    | .els h h' => .els (hab _ h) h'

end

theorem blindModule_id {m : Module} (h : NaNFree m) : blindModule m = m := by
  have h1 : m.funcs.map (fun f => { f with body := blindL f.body }) = m.funcs.map id :=
    List.map_congr_left fun f hf => by
      rw [blindL_id f.body fun j hj => h _ (by simp [exprsOf]; exact .inl ⟨f, hf, rfl⟩) j hj]; rfl
  have h2 : m.globals.map (fun f => { f with init := blindL f.init }) = m.globals.map id :=
    List.map_congr_left fun f hf => by
      rw [blindL_id f.init fun j hj => h _ (by simp [exprsOf]; exact .inr (.inl ⟨f, hf, rfl⟩)) j hj]; rfl
  have h3 : m.elem.map (fun f => { f with offset := blindL f.offset }) = m.elem.map id :=
    List.map_congr_left fun f hf => by
      rw [blindL_id f.offset fun j hj => h _ (by simp [exprsOf]; exact .inr (.inr (.inl ⟨f, hf, rfl⟩))) j hj]; rfl
  have h4 : m.data.map (fun f => { f with offset := blindL f.offset }) = m.data.map id :=
    List.map_congr_left fun f hf => by
      rw [blindL_id f.offset fun j hj => h _ (by simp [exprsOf]; exact .inr (.inr (.inr ⟨f, hf, rfl⟩))) j hj]; rfl
  rw [List.map_id] at h1 h2 h3 h4
  unfold blindModule
  rw [h1, h2, h3, h4]

/-! ## C64 -/

variable {std : StdText}

/-- **C64, exactly.** Two modules are printed alike exactly if they differ at most in the bits of NaN constants. -/
theorem C64_exact (hs : StdOk std) {m m' : Module} (hm : NamesUtf8 m) (hm' : NamesUtf8 m') :
    dbgModule std m = dbgModule std m' ↔ blindModule m = blindModule m' :=
  ⟨module_inj hs hm hm', fun h => by rw [← module_blind hs m, h, module_blind hs m']⟩

/-- The names of parsed modules are UTF-8. -/
theorem names_parsed {s r : List Byte} {m : Module} (h : parseModule s = (.ok m, r)) : NamesUtf8 m :=
  have := (C27_exact m).mp ⟨s, r, h⟩
  ⟨this.imports, this.exports⟩

/-- **C64, for parsed modules without NaN constants** the text determines the module. -/
theorem C64_text (hs : StdOk std) {s s' r r' : List Byte} {m m' : Module} (h : parseModule s = (.ok m, r)) (h' : parseModule s' = (.ok m', r'))
    (hn : NaNFree m) (hn' : NaNFree m') (ht : dbgModule std m = dbgModule std m') : m = m' := by
  have := (C64_exact hs (names_parsed h) (names_parsed h')).mp ht
  rwa [blindModule_id hn, blindModule_id hn'] at this

theorem starts (s : String) (c : Char) (h : (text s).head? = some c) (r : List Char) : ∃ t, text s ++ r = c :: t := by
  cases ht : text s with
  | nil => rw [ht] at h; cases h
  | cons x t => rw [ht] at h; cases h; exact ⟨t ++ r, rfl⟩

/-- What a run writes: either nothing but possibly a parsed module, or a text that begins with one of three letters. -/
theorem run_shape (args : List String) (fs : String → FileResult) :
    ((mainRun args fs).lines = [] ∧ ∀ m, (mainRun args fs).module = some m → ∃ b r, parseModule b = (.ok m, r)) ∨
    ((mainRun args fs).module = none ∧ ∃ c t, (mainRun args fs).stdout std = c :: t ∧ (c = 'P' ∨ c = 'C' ∨ c = 'E')) := by
  unfold mainRun
  split
  · refine .inr ?_
    obtain ⟨t, ht⟩ := starts "Problem pargin input arguments: " 'P' (by decide +kernel) (text "Not enough arguments.")
    split
    · exact ⟨rfl, 'P', _, by simp only [Run.stdout, ht, List.flatMap_cons, List.cons_append]; rfl, .inl rfl⟩
    · exact ⟨rfl, 'P', _, by simp only [Run.stdout, ht, List.flatMap_cons, List.cons_append]; rfl, .inl rfl⟩
  · next config _ =>
    split
    · obtain ⟨t, ht⟩ := starts "Could not open file \"" 'C' (by decide +kernel) (config.filename.toList ++ text "\"")
      rw [← List.append_assoc] at ht
      exact .inr ⟨rfl, 'C', _, by simp only [Run.stdout, ht, List.flatMap_cons, List.cons_append]; rfl, .inr (.inl rfl)⟩
    · obtain ⟨t, ht⟩ := starts "Could not read file \"" 'C' (by decide +kernel) (config.filename.toList ++ text "\"")
      rw [← List.append_assoc] at ht
      exact .inr ⟨rfl, 'C', _, by simp only [Run.stdout, ht, List.flatMap_cons, List.cons_append]; rfl, .inr (.inl rfl)⟩
    · next buffer _ =>
      split
      · obtain ⟨t, ht⟩ := starts "Error parsing file \"" 'E' (by decide +kernel) (config.filename.toList ++ text "\".")
        rw [← List.append_assoc] at ht
        exact .inr ⟨rfl, 'E', _, by simp only [Run.stdout, ht, List.flatMap_cons, List.cons_append]; rfl, .inr (.inr rfl)⟩
      · next module hp =>
        split
        · obtain ⟨t, ht⟩ := starts "Error validating file \"" 'E' (by decide +kernel) (config.filename.toList ++ text "\".")
          rw [← List.append_assoc] at ht
          exact .inr ⟨rfl, 'E', _, by simp only [Run.stdout, ht, List.flatMap_cons, List.cons_append]; rfl, .inr (.inr rfl)⟩
        · refine .inl ⟨rfl, fun m hm => ?_⟩
          simp only at hm
          split at hm
          · cases hm
            exact ⟨buffer, (parseModule buffer).2, Prod.ext hp rfl⟩
          · cases hm

/-- **C64, the tool.** If a run printed a module, the runs with the same output are those that printed this module, up to the bits of NaN
constants: no message about an error, and no other module, looks like it. -/
theorem C64_tool (hs : StdOk std) {args args' : List String} {fs fs' : String → FileResult} {m : Module}
    (hm : (mainRun args fs).module = some m) :
    (mainRun args' fs').stdout std = (mainRun args fs).stdout std ↔
      ∃ m', (mainRun args' fs').module = some m' ∧ blindModule m' = blindModule m := by
  rcases run_shape (std := std) args fs with ⟨hl, hp⟩ | ⟨hn, _⟩
  · obtain ⟨b, r, hb⟩ := hp m hm
    have hout : (mainRun args fs).stdout std = dbgModule std m ++ ['\n'] := by
      rw [Run.stdout, hl, hm]; rfl
    have hfirst : ∃ t, dbgModule std m ++ ['\n'] = 'M' :: t := by
      rw [dbgModule, struct_raw, List.append_assoc]
      exact starts "Module" 'M' (by decide +kernel) _
    obtain ⟨t, ht⟩ := hfirst
    rcases run_shape (std := std) args' fs' with ⟨hl', hp'⟩ | ⟨hn', c, t', hc, hcc⟩
    · cases hm' : (mainRun args' fs').module with
      | none =>
        have : (mainRun args' fs').stdout std = [] := by rw [Run.stdout, hl', hm']; rfl
        rw [this, hout, ht]
        exact ⟨fun h => (by cases h), fun ⟨_, h, _⟩ => (by cases h)⟩
      | some m' =>
        obtain ⟨b', r', hb'⟩ := hp' m' hm'
        have hout' : (mainRun args' fs').stdout std = dbgModule std m' ++ ['\n'] := by rw [Run.stdout, hl', hm']; rfl
        rw [hout, hout', List.append_cancel_right_eq, C64_exact hs (names_parsed hb') (names_parsed hb)]
        exact ⟨fun h => ⟨m', rfl, h⟩, fun ⟨_, h, h'⟩ => by cases h; exact h'⟩
    · rw [hc, hout, ht, hn']
      refine ⟨fun h => ?_, fun ⟨_, h, _⟩ => by cases h⟩
      rw [(List.cons.inj h).1] at hcc
      exact absurd hcc (by decide)
  · rw [hn] at hm; cases hm

/-- A module with one global, initialised with a constant. -/
def nanGlobal (v : F32) : Module := { globals := [⟨⟨.const, .f32⟩, [.constF32 v]⟩] }

theorem nanGlobal_encodable {v : F32} (h : (contents (nanGlobal v)).globals.length < 2 ^ 32) : Encodable .code (nanGlobal v) where
  imports := by simp [nanGlobal]
  exports := by simp [nanGlobal]
  exprs e he i hi := by
    have he : e = [.constF32 v] := by simpa [exprsOf, nanGlobal] using he
    subst he
    cases hi with
    | here h => rw [List.mem_singleton] at h; subst h; trivial
    | block h => simp at h
    | loop h => simp at h
    | thn h => simp at h
    | els h => simp at h
  locals := by simp [nanGlobal]
  types_size := (by decide +kernel : (contents (nanGlobal 0)).types.length < 2 ^ 32)
  imports_size := (by decide +kernel : (contents (nanGlobal 0)).imports.length < 2 ^ 32)
  tys_size := (by decide +kernel : (contents (nanGlobal 0)).tys.length < 2 ^ 32)
  tables_size := (by decide +kernel : (contents (nanGlobal 0)).tables.length < 2 ^ 32)
  mems_size := (by decide +kernel : (contents (nanGlobal 0)).mems.length < 2 ^ 32)
  globals_size := h
  exports_size := (by decide +kernel : (contents (nanGlobal 0)).exports.length < 2 ^ 32)
  elem_size := (by decide +kernel : (contents (nanGlobal 0)).elem.length < 2 ^ 32)
  code_size := (by decide +kernel : (contents (nanGlobal 0)).code.length < 2 ^ 32)
  data_size := (by decide +kernel : (contents (nanGlobal 0)).data.length < 2 ^ 32)

/-- **C64, the exception is real.** Two different modules, both parsed and valid, are printed alike. -/
theorem C64_nan (hs : StdOk std) : ∃ b b' m m', parseModule b = (.ok m, []) ∧ parseModule b' = (.ok m', []) ∧
    Except.isOk (validateModule m) = true ∧ Except.isOk (validateModule m') = true ∧ m ≠ m' ∧ dbgModule std m = dbgModule std m' := by
  refine ⟨_, _, nanGlobal 0x7FC00000, nanGlobal 0xFFC00001, C27_roundtrip ?_, C27_roundtrip ?_, by decide +kernel, by decide +kernel, ?_, ?_⟩
  · exact nanGlobal_encodable (by decide +kernel)
  · exact nanGlobal_encodable (by decide +kernel)
  · intro h
    simp [nanGlobal] at h
  · refine (C64_exact hs ⟨by simp [nanGlobal], by simp [nanGlobal]⟩ ⟨by simp [nanGlobal], by simp [nanGlobal]⟩).mpr ?_
    have e : ∀ v, datum32 v = .nan → blindModule (nanGlobal v) = nanGlobal 0x7FC00000 := by
      intro v h
      simp only [blindModule, nanGlobal, List.map_cons, List.map_nil, blindL, blind, if_pos h]
    rw [e _ (by decide +kernel), e _ (by decide +kernel)]

/-- A standard library that fulfils the requirements. -/
def plainStd : StdText where
  f32 v := if datum32 v = .nan then ['N', 'a', 'N'] else dbgNat v.toNat
  f64 v := if datum64 v = .nan then ['N', 'a', 'N'] else dbgNat v.toNat
  special c := c.toNat < 32

theorem dbgNat_ne (n : Nat) (t : List Char) : dbgNat n ≠ 'N' :: t := by
  have : ∀ fuel n, (digitsOf 10 fuel n).all (fun c => c != 'N') = true := by
    intro fuel
    induction fuel with
    | zero => intro n; rfl
    | succ fuel ih =>
      have key : ∀ k : Fin 10, (lowDigit k != 'N') = true := by decide
      intro n
      rw [digitsOf]
      split
      · next h => simpa using key ⟨n, h⟩
      · rw [List.all_append, ih, List.all_cons, List.all_nil, key ⟨n % 10, by omega⟩]; rfl
  intro h
  have h2 := this (n + 1) n
  have h : digitsOf 10 (n + 1) n = 'N' :: t := h
  rw [h] at h2
  simp at h2

/-- The requirements can be met. -/
theorem plainStd_ok : StdOk plainStd where
  comma32 v h := by
    simp only [plainStd] at h
    split at h
    · exact absurd h (by decide)
    · exact absurd (List.all_eq_true.mp (all_imp ident_notComma (dbgNat_ident _)) _ h) (by decide)
  comma64 v h := by
    simp only [plainStd] at h
    split at h
    · exact absurd h (by decide)
    · exact absurd (List.all_eq_true.mp (all_imp ident_notComma (dbgNat_ident _)) _ h) (by decide)
  same32 v w := by
    simp only [plainStd]
    split <;> split
    · simp [*]
    · next h1 h2 =>
      refine ⟨fun h => absurd h.symm (dbgNat_ne _ _), fun h => ?_⟩
      rcases h with h | h
      · rw [h] at h1; exact absurd h1 h2
      · exact absurd h.2 h2
    · next h1 h2 =>
      refine ⟨fun h => absurd h (dbgNat_ne _ _), fun h => ?_⟩
      rcases h with h | h
      · rw [h] at h1; exact absurd h2 h1
      · exact absurd h.1 h1
    · next h1 h2 => exact ⟨fun h => .inl (BitVec.eq_of_toNat_eq (dbgNat_inj h)), fun h => by
        rcases h with h | h
        · rw [h]
        · exact absurd h.1 h1⟩
  same64 v w := by
    simp only [plainStd]
    split <;> split
    · simp [*]
    · next h1 h2 =>
      refine ⟨fun h => absurd h.symm (dbgNat_ne _ _), fun h => ?_⟩
      rcases h with h | h
      · rw [h] at h1; exact absurd h1 h2
      · exact absurd h.2 h2
    · next h1 h2 =>
      refine ⟨fun h => absurd h (dbgNat_ne _ _), fun h => ?_⟩
      rcases h with h | h
      · rw [h] at h1; exact absurd h2 h1
      · exact absurd h.1 h1
    · next h1 h2 => exact ⟨fun h => .inl (BitVec.eq_of_toNat_eq (dbgNat_inj h)), fun h => by
        rcases h with h | h
        · rw [h]
        · exact absurd h.1 h1⟩

/-- The text of a function is not that of its neighbour: a name with a line break and a quote, a negative constant. -/
example : dbgExport plainStd ⟨[0x0A, 0x22, 0x01], .mem 3⟩ ++ ['\n'] =
    ["Export {", "    name: \"\\n\\\"\\u{1}\",", "    desc: Mem(", "        Mem(", "            3,", "        ),", "    ),", "}"].flatMap
      (fun l => text l ++ ['\n']) := by decide +kernel

example : dbgInstr plainStd (.ifElse [.i32] [.constI32 (-7)] []) ++ ['\n'] =
    ["If(", "    RetVal(", "        [", "            I32,", "        ],", "    ),", "    Expr(", "        [", "            ConstI32(",
      "                -7,", "            ),", "        ],", "    ),", "    Expr(", "        [],", "    ),", ")"].flatMap
      (fun l => text l ++ ['\n']) := by decide +kernel

-- zero, and the ends of the ranges
example : [(0 : Int), 1, -1, 2147483647, -2147483648, -9223372036854775808].map dbgInt =
    ["0", "1", "-1", "2147483647", "-2147483648", "-9223372036854775808"].map text := by decide +kernel

/-- The output of the tool for a file with the empty module. -/
example : (mainRun ["whasm", "-p", "a.wasm"] fun _ => .contents [0x00, 0x61, 0x73, 0x6D, 1, 0, 0, 0]).stdout plainStd =
    ["Module {", "    types: [],", "    funcs: [],", "    tables: [],", "    mems: [],", "    globals: [],", "    elem: [],", "    data: [],",
      "    start: None,", "    imports: [],", "    exports: [],", "}"].flatMap (fun l => text l ++ ['\n']) := by decide +kernel

end Whasm
