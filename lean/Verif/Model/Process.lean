import Verif.Model.Debug
import Verif.Model.ProcessTypes

/-!
# The process that runs the tool: `/repo/parser/src/main.rs` and what the operating system may do to it

`Model/Message.lean` and `Model/Debug.lean` take the arguments as text, the file as a whole and standard output as something that takes everything. Here arguments are bytes, a file comes in
pieces, perhaps without end, and standard output may refuse to take more, which is a panic of `println!`.

Simplifications: `println!` is taken by its documentation. Standard output is line buffered and every text ends with a line break, so that it has been handed over to the operating system when `println!` returns;
if it cannot be, what the operating system took is a beginning of it. Failures to write are not recovered from, also not when the process ends. Messages of panics on standard error are left out, as are the limits of memory and
of the native stack.
-/

namespace Whasm.Process

/-- The state of the process that the outside can see: what standard output has taken, and the calls so far. -/
structure Console where
  out : List Byte := []
  calls : List Call := []
  deriving DecidableEq, Repr

/-- Why there is nothing more to do: the process has ended with an exit code, or it is still reading. -/
inductive Stop where
  | exit (code : Nat)
  | reading
  deriving DecidableEq, Repr

/-- Code with effects. -/
def Exec (α : Type) : Type := Console → Except Stop α × Console

namespace Exec

def pure {α : Type} (x : α) : Exec α := fun c => (.ok x, c)

def bind {α β : Type} (p : Exec α) (f : α → Exec β) : Exec β := fun c =>
  match p c with
  | (.ok x, c) => f x c
  | (.error e, c) => (.error e, c)

instance : Monad Exec where
  pure := Exec.pure
  bind := Exec.bind

end Exec

/-- `std::process::exit`. -/
def exit {α : Type} (code : Nat) : Exec α := fun c => (.error (.exit code), c)

/-- A panic, which ends the process as there is only one thread. -/
def panic {α : Type} : Exec α := exit 101

/-- `println!`. -/
def println (sys : System) (t : List Char) : Exec Unit := fun c =>
  let b := utf8 (t ++ ['\n'])
  let taken := b.take (sys.room - c.out.length)
  (if b.length ≤ sys.room - c.out.length then .ok () else .error (.exit 101), ⟨c.out ++ taken, c.calls ++ [.write taken]⟩)

/-- `std::env::args().collect()`, `parser/src/main.rs:7`: panics at an argument that is not Unicode. -/
def collectArgs : List (List Byte) → Exec (List String)
  | [] => pure []
  | b :: bs => do
    if validUtf8 b then
      let rest ← collectArgs bs
      pure (String.ofList (nameChars b) :: rest)
    else panic

/-- `File::open`, `parser/src/main.rs:15`. -/
def openFile (sys : System) (name : String) : Exec (Except (List Char) (Nat → ReadEvent)) := fun c =>
  let path := utf8 name.toList
  (.ok (sys.file path), ⟨c.out, c.calls ++ [.openFile path]⟩)

/-- `read_to_end`, `parser/src/main.rs:23`, from the `i`-th call of `read` on: interrupted calls are repeated. The first argument bounds the number of calls. -/
def readToEnd (file : Nat → ReadEvent) : Nat → Nat → List Byte → Exec (Except (List Char) (List Byte))
  | 0, _, _ => fun c => (.error .reading, c)
  | fuel + 1, i, buffer => fun c =>
    let c : Console := ⟨c.out, c.calls ++ [.read]⟩
    match file i with
    | .bytes [] => (.ok (.ok buffer), c)
    | .bytes b => readToEnd file fuel (i + 1) (buffer ++ b) c
    | .interrupted => readToEnd file fuel (i + 1) buffer c
    | .failed message => (.ok (.error message), c)

/-- The closures of `unwrap_or_else`, `parser/src/main.rs:16-20, 24-28, 33-37, 40-44`. -/
def report {α : Type} (sys : System) (line err : List Char) : Exec α := do
  println sys line
  println sys err
  exit 1

/-- `main`, `parser/src/main.rs:6-49`. -/
def main (std : StdText) (sys : System) (fuel : Nat) (argv : List (List Byte)) : Exec Unit := do
  let args ← collectArgs argv
  match configNew args with
  | none =>
    println sys (text "Problem pargin input arguments: " ++ text "Not enough arguments.")
    match args with
    | [] => panic
    | bin :: _ =>
      println sys (text "Usage: " ++ bin.toList ++ text " [-p|--print] file.wasm")
      exit 1
  | some config =>
    let opened ← openFile sys config.filename
    match opened with
    | .error err => report sys (text "Could not open file \"" ++ config.filename.toList ++ text "\"") err
    | .ok file =>
      let contents ← readToEnd file fuel 0 []
      match contents with
      | .error err => report sys (text "Could not read file \"" ++ config.filename.toList ++ text "\"") err
      | .ok buffer =>
        match (parseModule buffer).1 with
        | .error err => report sys (text "Error parsing file \"" ++ config.filename.toList ++ text "\".") err.display
        | .ok module =>
          match validateModule module with
          | .error err => report sys (text "Error validating file \"" ++ config.filename.toList ++ text "\".") err.display
          | .ok _ => if config.print then println sys (dbgModule std module) else pure ()

/-- The process: why it stopped, and what can be seen of it. The end of `main` is exit code 0. -/
def process (std : StdText) (sys : System) (fuel : Nat) (argv : List (List Byte)) : Stop × Console :=
  match main std sys fuel argv {} with
  | (.ok (), c) => (.exit 0, c)
  | (.error e, c) => (e, c)

end Whasm.Process
