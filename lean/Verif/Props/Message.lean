import Verif.Model.Message
import Verif.Props.Cli
import Verif.Props.Parsing

/-!
# Properties C55, C56: messages
-/

namespace Whasm
open Spec

/-! ## C55 -/

theorem displayU8_value (b : Byte) : (displayU8 b).foldl (fun n c => 10 * n + (c.toNat - 48)) 0 = b.toNat := by
  have h : ∀ n : Fin 256, (displayU8 (UInt8.ofNat n)).foldl (fun n c => 10 * n + (c.toNat - 48)) 0 = n.val := by decide +kernel
  have := h ⟨b.toNat, b.toNat_lt⟩
  simpa using this

theorem displayU8_plain (b : Byte) : '`' ∉ displayU8 b := by
  have h : ∀ n : Fin 256, '`' ∉ displayU8 (UInt8.ofNat n) := by decide +kernel
  have := h ⟨b.toNat, b.toNat_lt⟩
  simpa using this

theorem displayU8_inj {a b : Byte} (h : displayU8 a = displayU8 b) : a = b := by
  have h1 := displayU8_value a
  rw [h, displayU8_value b] at h1
  exact UInt8.toNat_inj.mp h1.symm

theorem hexDigit_inj {a b : Nat} (ha : a < 16) (hb : b < 16) (h : hexDigit a = hexDigit b) : a = b := by
  have key : ∀ a b : Fin 16, hexDigit a = hexDigit b → a = b := by decide +kernel
  exact congrArg Fin.val (key ⟨a, ha⟩ ⟨b, hb⟩ h)

theorem displayByte_inj {a b : Byte} (h : displayByte a = displayByte b) : a = b := by
  simp only [displayByte, List.cons.injEq, true_and, and_true] at h
  have ha := a.toNat_lt
  have hb := b.toNat_lt
  have h1 := hexDigit_inj (by omega) (by omega) h.1
  have h2 := hexDigit_inj (by omega) (by omega) h.2
  exact UInt8.toNat_inj.mp (by omega)

/-- Text up to the first occurrence of a character. -/
theorem split_at {c : Char} : ∀ {xs ys a b : List Char}, c ∉ xs → c ∉ ys → xs ++ c :: a = ys ++ c :: b → xs = ys ∧ a = b
  | [], [], _, _, _, _, h => ⟨rfl, (List.cons.inj h).2⟩
  | [], y :: _, _, _, _, hy, h => (hy (by have := (List.cons.inj h).1; simp [this])).elim
  | x :: _, [], _, _, hx, _, h => (hx (by have := (List.cons.inj h).1; simp [this])).elim
  | x :: xs, y :: ys, a, b, hx, hy, h => by
    obtain ⟨e, h⟩ := List.cons.inj h
    obtain ⟨e1, e2⟩ := split_at (fun h => hx (List.mem_cons_of_mem _ h)) (fun h => hy (List.mem_cons_of_mem _ h)) h
    exact ⟨by rw [e, e1], e2⟩

/-- The first twelve characters of the messages. -/
def start : Nat → List Char
  | 0 => text "Unexpected e"
  | 1 => text "Unexpected v"
  | 2 => text "Unexpected `"
  | 3 => text "Unexpected s"
  | 4 => text "Reading out "
  | 5 => text "Byte sequenc"
  | 6 => text "Invalid magi"
  | 7 => text "Invalid vers"
  | 8 => text "Invalid sect"
  | 9 => text "The size of "
  | _ => []

/-- Which of them. -/
def group : Error → Nat
  | .unexpectedEndOfFile => 0
  | .invalidVariantId _ _ => 1
  | .unexpectedOpcode _ => 2
  | .unexpectedSectionId _ => 3
  | .outOfRangeSignedInteger | .outOfRangeUnsignedInteger => 4
  | .invalidUtf8Encoding => 5
  | .invalidPreambleMagic => 6
  | .invalidPreambleVersion => 7
  | .invalidSectionId _ => 8
  | .sectionSizeMissmatch _ | .functionSizeMissmatch | .sizeMissmatch => 9
  | .panic | .fuel => 10

theorem display_start (e : Error) : e.display.take 12 = start (group e) := by
  cases e <;> simp [Error.display, group, start, text]

theorem start_inj : ∀ a b : Fin 11, start a = start b → a = b := by decide +kernel

theorem group_lt (e : Error) : group e < 11 := by cases e <;> simp [group]

theorem group_inj {e e' : Error} (h : e.display = e'.display) : group e = group e' := by
  refine congrArg Fin.val (start_inj ⟨_, group_lt e⟩ ⟨_, group_lt e'⟩ ?_)
  show start (group e) = start (group e')
  rw [← display_start, ← display_start, h]

theorem variant_inj {a b : Byte} {ty ty' : String} (h : (Error.invalidVariantId a ty).display = (Error.invalidVariantId b ty').display) :
    a = b ∧ ty = ty' := by
  simp only [Error.display] at h
  have hs : text "` for type `" = '`' :: text " for type `" := by simp [text]
  rw [hs, List.append_assoc, List.append_assoc, List.append_assoc, List.append_assoc, List.append_assoc, List.append_assoc,
    List.append_cancel_left_eq, List.cons_append, List.cons_append] at h
  obtain ⟨e1, e2⟩ := split_at (displayU8_plain a) (displayU8_plain b) h
  rw [List.append_cancel_left_eq, List.append_cancel_right_eq] at e2
  exact ⟨displayU8_inj e1, String.toList_inj.mp e2⟩

theorem opcode_inj {a b : String} (h : (Error.unexpectedOpcode a).display = (Error.unexpectedOpcode b).display) : a = b := by
  simp only [Error.display] at h
  rw [List.append_cancel_right_eq, List.append_cancel_left_eq] at h
  exact String.toList_inj.mp h

theorem section_inj {a b : Byte} :
    ((Error.unexpectedSectionId a).display = (Error.unexpectedSectionId b).display → a = b) ∧
    ((Error.invalidSectionId a).display = (Error.invalidSectionId b).display → a = b) ∧
    ((Error.sectionSizeMissmatch a).display = (Error.sectionSizeMissmatch b).display → a = b) := by
  simp only [Error.display]
  refine ⟨fun h => ?_, fun h => ?_, fun h => ?_⟩
  all_goals
    rw [List.append_cancel_right_eq, List.append_cancel_left_eq] at h
    exact displayByte_inj h

/-- The seventeenth character tells the messages about sizes apart. -/
theorem size_char (b : Byte) : (Error.sectionSizeMissmatch b).display[16]? = some 'i' ∧ Error.functionSizeMissmatch.display[16]? = some 'f' ∧
    Error.sizeMissmatch.display[16]? = some 'e' := by
  simp [Error.display, text]

/-- Errors of the crate. -/
def Real (e : Error) : Prop := e ≠ .panic ∧ e ≠ .fuel

/-- **C55 is false of the code.** The two errors for integers that are out of range have the same message, which is wrong for the second. -/
theorem C55_negation : ∃ e e', Real e ∧ Real e' ∧ e.display = e'.display ∧ e ≠ e' :=
  ⟨.outOfRangeSignedInteger, .outOfRangeUnsignedInteger, by simp [Real], by simp [Real], rfl, by simp⟩

/-- **C55, partial.** All other errors can be told apart by their messages, with their parameters. Missing for C55: the two errors of
`C55_negation`. -/
theorem C55_messages_partial {e e' : Error} (h : Real e) (h' : Real e') (hd : e.display = e'.display) : e = e' ∨
    ∀ x, x = e ∨ x = e' → x = .outOfRangeSignedInteger ∨ x = .outOfRangeUnsignedInteger := by
  have hg := group_inj hd
  have h16 := congrArg (fun l : List Char => l[16]?) hd
  cases e <;> cases e' <;> first
    | exact .inl rfl
    | (dsimp only [group] at hg; omega)
    | skip
  case invalidVariantId.invalidVariantId => obtain ⟨rfl, rfl⟩ := variant_inj hd; exact .inl rfl
  case unexpectedOpcode.unexpectedOpcode => rw [opcode_inj hd]; exact .inl rfl
  case unexpectedSectionId.unexpectedSectionId => rw [section_inj.1 hd]; exact .inl rfl
  case invalidSectionId.invalidSectionId => rw [section_inj.2.1 hd]; exact .inl rfl
  case sectionSizeMissmatch.sectionSizeMissmatch => rw [section_inj.2.2 hd]; exact .inl rfl
  case outOfRangeSignedInteger.outOfRangeUnsignedInteger => exact .inr fun x hx => hx
  case outOfRangeUnsignedInteger.outOfRangeSignedInteger => exact .inr fun x hx => hx.symm
  case panic.fuel => exact (h.1 rfl).elim
  case fuel.panic => exact (h'.1 rfl).elim
  all_goals
    simp only [(size_char 0).2.1, (size_char 0).2.2, (size_char _).1] at h16
    exact absurd h16 (by decide)

/-- **C55, numbers, partial.** The number of a variant is written in decimal as everywhere, the number of a section with two hexadecimal digits. -/
theorem C55_numbers_partial (b : Byte) : displayU8 b = Nat.toDigits 10 b.toNat ∧
    displayByte b = ['0', 'x'] ++ (List.replicate (2 - (Nat.toDigits 16 b.toNat).length) '0' ++ (Nat.toDigits 16 b.toNat).map Char.toUpper) := by
  have h : ∀ n : Fin 256, displayU8 (UInt8.ofNat n) = Nat.toDigits 10 n ∧ displayByte (UInt8.ofNat n) =
      ['0', 'x'] ++ (List.replicate (2 - (Nat.toDigits 16 n).length) '0' ++ (Nat.toDigits 16 n).map Char.toUpper) := by decide +kernel
  have := h ⟨b.toNat, b.toNat_lt⟩
  simpa using this

-- numbers of variants are decimal, those of sections hexadecimal
example : (Error.invalidVariantId 0x7B "ty::Val").display = "Unexpected variant id `123` for type `ty::Val`.".toList ∧
    (Error.unexpectedSectionId 0x0A).display = "Unexpected section id `0x0A`.".toList ∧
    (Error.unexpectedOpcode "else").display = "Unexpected `else` opcode.".toList ∧
    (Error.invalidSectionId 0xFF).display = "Invalid section id `0xFF`.".toList ∧
    (Error.sectionSizeMissmatch 0x01).display = "The size of section with id `0x01` does not match its content.".toList := by
  decide +kernel

/-! ## C56 -/

/-- The bytes of a file, if it can be read. -/
def FileResult.toOption : FileResult → Option (List Byte)
  | .contents b => some b
  | _ => none

/-- The run with messages agrees with the outcome of C52. -/
theorem C56_outcome (args : List String) (fs : String → FileResult) :
    (mainRun args fs).exit = (mainOutcome args fun n => (fs n).toOption).exitCode ∧
    (mainRun args fs).module = (mainOutcome args fun n => (fs n).toOption).printed := by
  unfold mainRun mainOutcome
  cases hc : configNew args with
  | none => cases args <;> exact ⟨rfl, rfl⟩
  | some config =>
    simp only
    cases hf : fs config.filename with
    | cannotOpen m => exact ⟨rfl, rfl⟩
    | cannotRead m => exact ⟨rfl, rfl⟩
    | contents b =>
      simp only [FileResult.toOption]
      cases (parseModule b).1 with
      | error e => exact ⟨rfl, rfl⟩
      | ok m =>
        simp only
        cases validateModule m with
        | error e => exact ⟨rfl, rfl⟩
        | ok r => exact ⟨rfl, rfl⟩

/-- **C56, what is reported.** -/
theorem C56_report {a n : String} {args : List String} {fs : String → FileResult} :
    ((names args).getLast?.getD "" = "" → (mainRun (a :: args) fs).lines =
      ["Problem pargin input arguments: Not enough arguments.".toList, "Usage: ".toList ++ a.toList ++ " [-p|--print] file.wasm".toList]) ∧
    ((names args).getLast? = some n → n ≠ "" →
      (∀ e, fs n = .cannotOpen e → (mainRun (a :: args) fs).lines = ["Could not open file \"".toList ++ n.toList ++ "\"".toList, e]) ∧
      (∀ e, fs n = .cannotRead e → (mainRun (a :: args) fs).lines = ["Could not read file \"".toList ++ n.toList ++ "\"".toList, e]) ∧
      (∀ b, fs n = .contents b →
        (∀ e r, parseModule b = (.error e, r) →
          (mainRun (a :: args) fs).lines = ["Error parsing file \"".toList ++ n.toList ++ "\".".toList, e.display]) ∧
        ∀ m r, parseModule b = (.ok m, r) →
          (validateModule m = .error .invalid →
            (mainRun (a :: args) fs).lines = ["Error validating file \"".toList ++ n.toList ++ "\".".toList, "Unexpected end of file.".toList]) ∧
          ∀ x, validateModule m = .ok x → (mainRun (a :: args) fs).lines = [])) := by
  constructor
  · intro h
    unfold mainRun
    rw [configNew_eq]
    simp only [h, if_true, text]
    rw [show "Problem pargin input arguments: ".toList ++ "Not enough arguments.".toList = "Problem pargin input arguments: Not enough arguments.".toList by decide +kernel]
  · intro h hne
    unfold mainRun
    rw [configNew_eq]
    simp only [h, Option.getD_some, if_neg hne]
    refine ⟨fun e he => by simp only [he, text], fun e he => by simp only [he, text], fun b hb => ⟨fun e r hp => ?_, fun m r hp => ⟨fun hv => ?_, fun x hv => ?_⟩⟩⟩
    · simp only [hb, hp, text]
    · simp only [hb, hp, hv, text, VErr.display]
    · simp only [hb, hp, hv]

/-- **C56, silence.** Nothing is written (but the module) exactly if the tool succeeds; otherwise two lines are. -/
theorem C56_silent (a : String) (args : List String) (fs : String → FileResult) :
    ((mainRun (a :: args) fs).exit = 0 ↔ (mainRun (a :: args) fs).lines = []) ∧
    ((mainRun (a :: args) fs).exit = 1 ↔ (mainRun (a :: args) fs).lines.length = 2) ∧
    ((mainRun (a :: args) fs).exit = 1 → (mainRun (a :: args) fs).module = none) := by
  unfold mainRun
  repeat' split
  all_goals simp_all

/-- The phases of a run. -/
def Outcome.phase : Outcome → Nat
  | .panic => 0
  | .badArguments => 1
  | .unreadable => 2
  | .parseError _ => 3
  | .validationError _ => 4
  | .done _ => 5

/-- The phase as it can be read off the lines. -/
def linesPhase : List (List Char) → Nat
  | [] => 5
  | l :: _ =>
    let k := l.take 7
    if k = ['P', 'r', 'o', 'b', 'l', 'e', 'm'] then 1
    else if k = ['C', 'o', 'u', 'l', 'd', ' ', 'n'] then 2
    else if k = ['E', 'r', 'r', 'o', 'r', ' ', 'p'] then 3
    else 4

theorem linesPhase_run (a : String) (args : List String) (fs : String → FileResult) :
    linesPhase (mainRun (a :: args) fs).lines = (mainOutcome (a :: args) fun n => (fs n).toOption).phase := by
  unfold mainRun mainOutcome
  cases hc : configNew (a :: args) with
  | none => simp [linesPhase, text, Outcome.phase]
  | some config =>
    simp only
    cases hf : fs config.filename with
    | cannotOpen m => simp [linesPhase, text, Outcome.phase, FileResult.toOption]
    | cannotRead m => simp [linesPhase, text, Outcome.phase, FileResult.toOption]
    | contents b =>
      simp only [FileResult.toOption]
      cases (parseModule b).1 with
      | error e => simp [linesPhase, text, Outcome.phase]
      | ok m =>
        simp only
        cases validateModule m with
        | error e => simp [linesPhase, text, Outcome.phase]
        | ok r => rfl

/-- **C56, the phase.** The lines tell in which phase a run ended, whatever the names and the texts of the operating system are. -/
theorem C56_phase {a a' : String} {args args' : List String} {fs fs' : String → FileResult}
    (h : (mainRun (a :: args) fs).lines = (mainRun (a' :: args') fs').lines) :
    (mainOutcome (a :: args) fun n => (fs n).toOption).phase = (mainOutcome (a' :: args') fun n => (fs' n).toOption).phase := by
  rw [← linesPhase_run, ← linesPhase_run, h]

/-- **C56, the error.** The lines for a parse error tell the file and, up to the exception of C55, the error. -/
theorem C56_error {a a' n n' : String} {args args' : List String} {fs fs' : String → FileResult} (hn : (names args).getLast? = some n)
    (hne : n ≠ "") (hn' : (names args').getLast? = some n') (hne' : n' ≠ "") {b b' : List Byte} (hb : fs n = .contents b)
    (hb' : fs' n' = .contents b') {e e' : Error} {r r' : List Byte} (he : parseModule b = (.error e, r)) (he' : parseModule b' = (.error e', r'))
    (h : (mainRun (a :: args) fs).lines = (mainRun (a' :: args') fs').lines) : n = n' ∧ (e = e' ∨
      ∀ x, x = e ∨ x = e' → x = .outOfRangeSignedInteger ∨ x = .outOfRangeUnsignedInteger) := by
  rw [((C56_report.2 hn hne).2.2 b hb).1 e r he, ((C56_report.2 hn' hne').2.2 b' hb').1 e' r' he'] at h
  simp only [List.cons.injEq, and_true, List.append_cancel_right_eq, List.append_cancel_left_eq] at h
  refine ⟨String.toList_inj.mp h.1, C55_messages_partial ?_ ?_ h.2⟩
  · exact ⟨fun h => (C15_module b).1 (by rw [he, h]), fun h => (C15_module b).2 (by rw [he, h])⟩
  · exact ⟨fun h => (C15_module b').1 (by rw [he', h]), fun h => (C15_module b').2 (by rw [he', h])⟩

/-- A file system with a good file, one with a magic number only, one without, and one that cannot be read. -/
def messageFiles (n : String) : FileResult :=
  if n = "a.wasm" then .contents smallBytes else if n = "b.wasm" then .contents [0x00, 0x61, 0x73, 0x6D]
  else if n = "c.wasm" then .contents [1, 2, 3, 4] else if n = "d" then .cannotRead "Is a directory".toList
  else .cannotOpen "No such file or directory (os error 2)".toList

example : (mainRun ["tool", "a.wasm"] messageFiles).lines = [] ∧
    (mainRun ["tool", "b.wasm"] messageFiles).lines = ["Error parsing file \"b.wasm\".".toList, "Unexpected end of file.".toList] ∧
    (mainRun ["tool", "-p", "c.wasm"] messageFiles).lines =
      ["Error parsing file \"c.wasm\".".toList, "Invalid magic number in preamble.".toList] ∧
    (mainRun ["tool", "d"] messageFiles).lines = ["Could not read file \"d\"".toList, "Is a directory".toList] ∧
    (mainRun ["tool", "-p"] messageFiles).lines =
      ["Problem pargin input arguments: Not enough arguments.".toList, "Usage: tool [-p|--print] file.wasm".toList] ∧
    (mainRun [] messageFiles).exit = 101 := by decide +kernel

end Whasm
