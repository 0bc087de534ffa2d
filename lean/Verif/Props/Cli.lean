import Verif.Model.Cli
import Verif.Lemmas.DecEq
import Verif.Spec.Cli
import Verif.Props.Validity

/-!
# Property C52: the command line tool
-/

namespace Whasm
open Spec

theorem configLoop_eq : ∀ (args : List String) (c : Config),
    configLoop args c = { filename := (names args).getLast?.getD c.filename, print := c.print || decide (wantsPrint args) }
  | [], c => by simp [configLoop, names, wantsPrint]
  | a :: as, c => by
    unfold configLoop
    split
    · next h =>
      have hn : names (a :: as) = names as := by unfold names; rw [List.filter_cons_of_neg (by simp only [h, not_true, decide_false]; decide)]
      have hw : wantsPrint (a :: as) := by
        rcases h with rfl | rfl
        · exact .inl List.mem_cons_self
        · exact .inr List.mem_cons_self
      rw [configLoop_eq as, hn]
      simp [hw]
    · next h =>
      have hn : names (a :: as) = a :: names as := by unfold names; rw [List.filter_cons_of_pos (by simpa using h)]
      have hw : wantsPrint (a :: as) ↔ wantsPrint as := by
        simp only [not_or] at h
        unfold wantsPrint
        simp [Ne.symm h.1, Ne.symm h.2]
      rw [configLoop_eq as, hn]
      simp only [hw, List.getLast?_cons, Option.getD_some]

/-- The file that is read: the last argument that is not a flag. -/
theorem configNew_eq (a : String) (args : List String) : configNew (a :: args) =
    (let n := (names args).getLast?.getD ""; if n = "" then none else some ⟨n, decide (wantsPrint args)⟩) := by
  unfold configNew
  simp only [configLoop_eq, Bool.false_or]

/-- **C52, arguments.** Without a non-empty name the tool fails before reading anything. -/
theorem C52_arguments (a : String) (args : List String) (read : String → Option (List Byte)) :
    (names args).getLast?.getD "" = "" ↔ mainOutcome (a :: args) read = .badArguments := by
  unfold mainOutcome
  rw [configNew_eq]
  by_cases h : (names args).getLast?.getD "" = ""
  · simp [h]
  · refine ⟨fun h' => (h h').elim, fun h' => ?_⟩
    simp only [h, if_false] at h'
    repeat' split at h'
    all_goals cases h'

/-- **C52, the file read.** Only the contents of the last name matter. -/
theorem C52_reads {a n : String} {args : List String} (hn : (names args).getLast? = some n) (hne : n ≠ "")
    {read read' : String → Option (List Byte)} (h : read n = read' n) : mainOutcome (a :: args) read = mainOutcome (a :: args) read' := by
  unfold mainOutcome
  rw [configNew_eq]
  simp only [hn, Option.getD_some, if_neg hne, h]

/-- **C52, success.** Exit code 0 exactly if there is a name, the file can be read, and both phases succeed. -/
theorem C52_success {a : String} {args : List String} {read : String → Option (List Byte)} :
    (mainOutcome (a :: args) read).exitCode = 0 ↔ ∃ n b m r rest, (names args).getLast? = some n ∧ n ≠ "" ∧ read n = some b ∧
      parseModule b = (.ok m, rest) ∧ validateModule m = .ok r := by
  unfold mainOutcome
  rw [configNew_eq]
  cases hl : (names args).getLast? with
  | none => simp [Outcome.exitCode]
  | some n =>
    simp only [Option.getD_some]
    by_cases hne : n = ""
    · simp [hne, Outcome.exitCode]
    · simp only [if_neg hne]
      cases hr : read n with
      | none => simp [Outcome.exitCode, hr]
      | some b =>
        simp only
        generalize hp : parseModule b = res
        obtain ⟨e, rest⟩ := res
        cases e with
        | error e => simp [Outcome.exitCode, hr, hp]
        | ok m =>
          simp only
          cases hv : validateModule m with
          | error e => simp [Outcome.exitCode, hr, hp, hv]
          | ok r => simp [Outcome.exitCode, hr, hp, hv, hne]

/-- **C52, failure.** All other exit codes are 1. -/
theorem C52_failure {a : String} {args : List String} {read : String → Option (List Byte)} :
    (mainOutcome (a :: args) read).exitCode = 0 ∨ (mainOutcome (a :: args) read).exitCode = 1 := by
  unfold mainOutcome
  simp only [reduceCtorEq, if_false]
  repeat' split
  all_goals simp [Outcome.exitCode]

/-- **C52, printing.** A module is printed exactly if a flag is given anywhere, both phases succeed, and it is the module parsed. -/
theorem C52_prints {a : String} {args : List String} {read : String → Option (List Byte)} {m : Module} :
    (mainOutcome (a :: args) read).printed = some m ↔ wantsPrint args ∧ ∃ n b r rest, (names args).getLast? = some n ∧ n ≠ "" ∧
      read n = some b ∧ parseModule b = (.ok m, rest) ∧ validateModule m = .ok r := by
  unfold mainOutcome
  rw [configNew_eq]
  cases hl : (names args).getLast? with
  | none => simp [Outcome.printed]
  | some n =>
    simp only [Option.getD_some]
    by_cases hne : n = ""
    · simp [hne, Outcome.printed]
    · simp only [if_neg hne]
      cases hr : read n with
      | none => simp [Outcome.printed, hr]
      | some b =>
        simp only
        generalize hp : parseModule b = res
        obtain ⟨e, rest⟩ := res
        cases e with
        | error e => simp [Outcome.printed, hr, hp]
        | ok m' =>
          simp only
          cases hv : validateModule m' with
          | error e =>
            simp only [Outcome.printed, reduceCtorEq, false_iff]
            rintro ⟨_, n', b', r, rest', h1, h2, h3, h4, h5⟩
            cases h1
            rw [hr] at h3; cases h3
            rw [hp] at h4; cases h4
            rw [hv] at h5; cases h5
          | ok r =>
            by_cases hw : wantsPrint args
            · simp only [hw, decide_true, if_true, Outcome.printed, Option.some.injEq, true_and]
              constructor
              · rintro rfl; exact ⟨n, b, r, rest, rfl, hne, hr, hp, hv⟩
              · rintro ⟨n', b', r', rest', h1, h2, h3, h4, h5⟩
                cases h1
                rw [hr] at h3; cases h3
                rw [hp] at h4; cases h4
                rfl
            · simp [hw, Outcome.printed]

/-- **C52, no arguments at all**: not even the program name. The message for the failure panics, the exit code is 101 instead of 1. -/
theorem C52_empty (read : String → Option (List Byte)) : mainOutcome [] read = .panic ∧ (mainOutcome [] read).exitCode = 101 :=
  ⟨rfl, rfl⟩

/-- A file system with one good and one bad file. -/
def someFiles (n : String) : Option (List Byte) := if n = "a.wasm" then some smallBytes else if n = "b.wasm" then some [0, 1] else none

example : (mainOutcome ["tool", "-p", "b.wasm", "a.wasm", "--print"] someFiles).printed = some smallModule ∧
    (mainOutcome ["tool", "a.wasm"] someFiles).printed = none ∧ (mainOutcome ["tool", "a.wasm"] someFiles).exitCode = 0 ∧
    (mainOutcome ["tool", "-p", "a.wasm", "b.wasm"] someFiles).exitCode = 1 ∧ (mainOutcome ["tool", "-p"] someFiles).exitCode = 1 ∧
    (mainOutcome ["tool", "-p", "a.wasm", ""] someFiles).exitCode = 1 ∧ (mainOutcome ["tool", "c.wasm"] someFiles).exitCode = 1 := by
  decide +kernel

end Whasm
