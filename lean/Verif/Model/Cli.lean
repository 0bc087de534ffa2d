import Verif.Model.BinaryModule
import Verif.Model.ValidModule

/-!
# Command line tool: `/repo/parser/src/main.rs`
-/

namespace Whasm

/-- `struct Config`, `parser/src/main.rs:51-54`. -/
structure Config where
  filename : String
  print : Bool
  deriving DecidableEq, Repr

/-- The loop of `Config::new` over the arguments after the program name, `parser/src/main.rs:63-72`. -/
def configLoop : List String → Config → Config
  | [], c => c
  | arg :: args, c =>
    if arg = "-p" ∨ arg = "--print" then configLoop args { c with print := true }
    else configLoop args { c with filename := arg }

/-- `Config::new`, `parser/src/main.rs:57-79`; `none` is `Err("Not enough arguments.")`. -/
def configNew : List String → Option Config
  | [] => none
  | _binname :: args =>
    let c := configLoop args { filename := "", print := false }
    if c.filename = "" then none else some c

/-- What `main` does, `parser/src/main.rs:6-49`: exit code 1 with a message of the given kind, or exit code 0,
printing the module or nothing. `panic` is a Rust panic: the message for bad arguments uses `args[0]` (line 11), which
does not exist if the process is started with an empty argument vector. -/
inductive Outcome where
  | panic
  | badArguments
  | unreadable
  | parseError (e : Error)
  | validationError (e : VErr)
  | done (printed : Option Module)

/-- The module that is printed on standard output, if any. -/
def Outcome.printed : Outcome → Option Module
  | .done p => p
  | _ => none

/-- `main`, `parser/src/main.rs:6-49`; `read` gives the contents of a file, or `none` if it cannot be opened
or read. Messages are not modelled. -/
def mainOutcome (args : List String) (read : String → Option (List Byte)) : Outcome :=
  match configNew args with
  | none => if args = [] then .panic else .badArguments
  | some config =>
    match read config.filename with
    | none => .unreadable
    | some buffer =>
      match (parseModule buffer).1 with
      | .error e => .parseError e
      | .ok module =>
        match validateModule module with
        | .error e => .validationError e
        | .ok _ => .done (if config.print then some module else none)

/-- Process exit code of each outcome; 101 is that of a panic. -/
def Outcome.exitCode : Outcome → Nat
  | .done _ => 0
  | .panic => 101
  | _ => 1

end Whasm
