import Verif.Model.Native
import Verif.Model.Message

/-!
# The native stack that destructors, printing and validation need

`Model/Native.lean` counts nested blocks. Here the native stack has a number of bytes, and each recursive function of the crate takes a fixed number of bytes for each
level of blocks. Besides `parse` and `validate` the functions generated by the compiler are recursive: the drop glue of `Instr`, which runs at the end of every scope
that owns instructions, also when the scope is left early by `?` or `return Err(..)` while the stack is already in use; and `derive(Debug)`.

An abort of the process is `Error.panic`, `VErr.panic`, or the run `none`.

Simplifications: everything that is not recursive is taken to fit, with the room of the level it is in; of the scopes only those are modelled that may own instructions. Running out of
stack while printing loses the whole text (in fact a part of it may have been written).
-/

namespace Whasm.Scope

/-- Bytes of native stack for one level of blocks.
* `parse`: `Instr::parse`, `Expr::parse` or `IfInstr::parse`, `SubExpr::parse`;
* `validate`: `Instr::validate`, `Expr::validate`;
* `drop`: the drop glue of `Instr`, `Expr`, `Vec<Instr>`, `[Instr]`;
* `print`: `fmt` of `Instr`, `Expr`, `Vec<Instr>` with their builders, and `write_str` of the three `PadAdapter`s between the text and the output.

A call takes at least the bytes of a return address. -/
structure Frames where
  parse : Nat
  validate : Nat
  drop : Nat
  print : Nat
  parse_pos : 0 < parse
  validate_pos : 0 < validate

/-- The call of a recursive function that takes `cost` bytes, if there is room for it. -/
def enter (cost room : Nat) (inner : Nat → Bool) : Bool := decide (cost ≤ room) && inner (room - cost)

mutual

/-- Whether a function that calls itself for the blocks in an instruction, for all parts one after the other, has room enough: drop glue and `derive(Debug)` of `Instr`,
`structure/instr.rs:9-203`. -/
def walkInstr (cost : Nat) : Instr → Nat → Bool
  | .block _ body, room => enter cost room (walkInstrs cost body)
  | .loop _ body, room => enter cost room (walkInstrs cost body)
  | .ifElse _ thn els, room => enter cost room (walkInstrs cost thn) && enter cost room (walkInstrs cost els)
  | _, _ => true

/-- The same for `Vec<Instr>`, `Expr` and `ConstExpr`, `structure/instr.rs:3-7`. -/
def walkInstrs (cost : Nat) : List Instr → Nat → Bool
  | [], _ => true
  | i :: is, room => walkInstr cost i room && walkInstrs cost is room

end

/-- The same for `Module`, `structure/module.rs:4-16`: only these four fields have instructions. -/
def walkModule (cost : Nat) (m : Module) (room : Nat) : Bool :=
  m.funcs.all (fun f => walkInstrs cost f.body room) && m.globals.all (fun g => walkInstrs cost g.init room) &&
    m.elem.all (fun e => walkInstrs cost e.offset room) && m.data.all fun d => walkInstrs cost d.offset room

/-- A scope that may be left by an error of `p`; what it owns is dropped then. The flag says whether there is room for that. -/
def scope {α : Type} (fits : Bool) (p : P α) : P α := fun s =>
  match p s with
  | (.error e, r) => (.error (if fits then e else .panic), r)
  | (.ok x, r) => (.ok x, r)

/-- `Expr::parse`, `binary/instr.rs:6-14`: in the last two arms the `SubExpr` is dropped. -/
def exprOf (F : Frames) (room : Nat) (sub : P SubExpr) : P Expr := do
  let se ← sub
  match se.next with
  | .endMark => pure se.body
  | .elseMark => scope (walkInstrs F.drop se.body room) (P.fail (.unexpectedOpcode "Else"))
  | _ => scope (walkInstrs F.drop se.body room) (P.fail (.unexpectedOpcode "Unknown"))

/-- `IfInstr::parse`, `binary/instr.rs:243-270`: `branch_1` is alive while the second branch is parsed, and both at the end. -/
def ifOf (F : Frames) (room : Nat) (sub : P SubExpr) : P Instr := do
  let ret ← parseRetVal
  let s1 ← sub
  let bn ← scope (walkInstrs F.drop s1.body room) (elsePart sub s1)
  if bn.2.isEnd then pure (.ifElse ret s1.body bn.1)
  else scope (walkInstrs F.drop bn.1 room && walkInstrs F.drop s1.body room) (P.fail (.unexpectedOpcode "Unknown"))

/-- `Instr::parse`, `binary/instr.rs:23-223`, `room` being that of the level inside. -/
def instrOf (F : Frames) (room : Nat) (sub : P SubExpr) : P Instr := do
  let byte ← parseByte
  match byte.toNat with
  | 0x02 => do
    let ret ← parseRetVal
    let body ← exprOf F room sub
    pure (.block ret body)
  | 0x03 => do
    let ret ← parseRetVal
    let body ← exprOf F room sub
    pure (.loop ret body)
  | 0x04 => ifOf F room sub
  | _ => instrAt sub byte

/-- The call of `SubExpr::parse` from within `Instr::parse`, if there is room for it. -/
def nested {α : Type} (cost room : Nat) (inner : Nat → P α) : P α :=
  if cost ≤ room then inner (room - cost) else P.fail .panic

/-- `SubExpr::parse`, `binary/instr.rs:227-241`: `expr` is alive while the next instruction is parsed. -/
def parseSubExpr (F : Frames) : Nat → Nat → List Instr → P SubExpr
  | 0, room, expr => scope (walkInstrs F.drop expr room) (P.fail .fuel)
  | fuel + 1, room, expr => do
    let next ← scope (walkInstrs F.drop expr room) (instrOf F (room - F.parse) (nested F.parse room fun room => parseSubExpr F fuel room []))
    match next with
    | .endMark => pure { body := expr, next := .endMark }
    | .elseMark => pure { body := expr, next := .elseMark }
    | next => parseSubExpr F fuel room (expr ++ [next])

/-- `Expr::parse`, `binary/instr.rs:6-14`. -/
def parseExpr (F : Frames) (room : Nat) : P Expr := fun s => exprOf F room (parseSubExpr F (s.length + 1) room []) s

/-- `ConstExpr::parse`, `binary/instr.rs:16-21`. -/
def parseConstExpr (F : Frames) (room : Nat) : P ConstExpr := do
  let e ← parseExpr F room
  pure e

/-- `module::Func::parse`, `binary/module.rs:74-85`. -/
def parseFunc (F : Frames) (room : Nat) : P Func := do
  let locals ← parseCompactVec parseVal
  let body ← parseExpr F room
  pure { ty := 0, locals := locals, body := body }

/-- `module::Global::parse`, `binary/module.rs:103-110`. -/
def parseGlobal (F : Frames) (room : Nat) : P Global := do
  let ty ← parseGlobalTy
  let init ← parseConstExpr F room
  pure { ty := ty, init := init }

/-- `module::Elem::parse`, `binary/module.rs:112-120`: the value of `offset` is alive while `init` is parsed. -/
def parseElem (F : Frames) (room : Nat) : P Elem := do
  let table ← parseIdx
  let offset ← parseConstExpr F room
  let init ← scope (walkInstrs F.drop offset room) (parseVec parseIdx)
  pure { table := table, offset := offset, init := init }

/-- `module::Data::parse`, `binary/module.rs:122-130`: the value of `offset` is alive while `init` is parsed. -/
def parseData (F : Frames) (room : Nat) : P Data := do
  let mem ← parseIdx
  let offset ← parseConstExpr F room
  let init ← scope (walkInstrs F.drop offset room) (parseUnwrappingVec (fun b : Byte => b) parseByte)
  pure { mem := mem, offset := offset, init := init }

/-- The loop of `Vec<T>::parse` and `UnwrappingVec<T>::parse`, `binary/core/vec.rs:55-64, 86-96`: `result` is alive while the next element is parsed. -/
def parseN {α : Type} (fits : List α → Bool) : Nat → P α → List α → P (List α)
  | 0, _, result => pure result
  | n + 1, p, result => do
    let x ← scope (fits result) p
    parseN fits n p (result ++ [x])

/-- `Vec<T>::parse`, `binary/core/vec.rs:55-64`; the same for `UnwrappingVec`. -/
def parseVec {α : Type} (fits : List α → Bool) (p : P α) : P (List α) := do
  let n ← parseU32
  parseN fits n.toNat p []

/-- `Sized<T>::parse`, `binary/core/sized.rs:46-60`: if the size does not match, `result` is dropped. -/
def parseSized {α : Type} (fits : α → Bool) (p : P α) : P α := do
  let size ← parseU32
  fun s =>
    let window := s.take size.toNat
    let after := s.drop size.toNat
    match p window with
    | (.error e, r) => (.error e, r ++ after)
    | (.ok x, r) =>
      let count := window.length - r.length
      if size.toNat ≠ count then (.error (if fits x then .sizeMissmatch else .panic), r ++ after)
      else (.ok x, r ++ after)

/-- The end of the arm of the code section, `binary/module.rs:56-64`. The functions are already part of `result` when their number is found to be wrong. -/
def withBodies (F : Frames) (room : Nat) (st : LoopState) (x : List Func) : P LoopState :=
  scope (x.all fun f => walkInstrs F.drop f.body room) (Whasm.withBodies st x)

/-- The `match id` of the loop, `binary/module.rs:42-67`. -/
def parseSection (F : Frames) (room : Nat) (id : Byte) (st : LoopState) : P LoopState :=
  match id.toNat with
  | 0x06 => do
    let fits := fun gs : List Global => gs.all fun g => walkInstrs F.drop g.init room
    let x ← parseSized fits (parseVec fits (parseGlobal F room))
    pure { st with result := { st.result with globals := x } }
  | 0x09 => do
    let fits := fun es : List Elem => es.all fun e => walkInstrs F.drop e.offset room
    let x ← parseSized fits (parseVec fits (parseElem F room))
    pure { st with result := { st.result with elem := x } }
  | 0x0A => do
    let fits := fun f : Func => walkInstrs F.drop f.body room
    let x ← parseSized (fun fs => fs.all fits) (parseVec (fun fs => fs.all fits) (parseSized fits (parseFunc F room)))
    withBodies F room st x
  | 0x0B => do
    let fits := fun ds : List Data => ds.all fun d => walkInstrs F.drop d.offset room
    let x ← parseSized fits (parseVec fits (parseData F room))
    pure { st with result := { st.result with data := x } }
  | _ => Whasm.parseSection id st

/-- One iteration of the loop, `binary/module.rs:31-67`: `result` is alive. -/
def parseIteration (F : Frames) (room : Nat) (st : LoopState) : P LoopState := scope (walkModule F.drop st.result room) (do
  let id ← parseByte
  if id ≠ 0x00 then
    if id ≤ st.lastId then P.fail (.unexpectedSectionId id)
    else parseSection F room id { st with lastId := id }
  else parseSection F room id st)

/-- The loop over the sections, `binary/module.rs:30-70`. -/
def sectionLoop (F : Frames) (room : Nat) : Nat → LoopState → P Module
  | 0, st => scope (walkModule F.drop st.result room) (P.fail .fuel)
  | fuel + 1, st => fun s =>
    match s with
    | [] => (.ok st.result, [])
    | _ :: _ => (do
        let st' ← parseIteration F room st
        sectionLoop F room fuel st') s

/-- The loop with enough fuel. -/
def parseSections (F : Frames) (room : Nat) : P Module := fun s => sectionLoop F room (s.length + 1) {} s

/-- `Module::parse`, `binary/module.rs:13-72`. -/
def parseModule (F : Frames) (room : Nat) : P Module := do
  let magic ← Whasm.parseN 4 parseByte
  if magic.map (fun b => b.toNat) ≠ magicChars.map (fun c => c.toNat) then
    P.fail .invalidPreambleMagic
  else do
    let version ← Whasm.parseN 4 parseByte
    if version ≠ [1, 0, 0, 0] then P.fail .invalidPreambleVersion
    else parseSections F room

/-- `main`, `parser/src/main.rs:6-49`, on a native stack with `room` bytes: after a failed `parse` or `validate` the process exits without dropping the module, otherwise `module` is
dropped at the end. `none` is an abort of the process. -/
def mainRun (F : Frames) (room : Nat) (args : List String) (fs : String → FileResult) : Option Run :=
  match configNew args with
  | none => some (Whasm.mainRun args fs)
  | some config =>
    match fs config.filename with
    | .cannotOpen _ => some (Whasm.mainRun args fs)
    | .cannotRead _ => some (Whasm.mainRun args fs)
    | .contents buffer =>
      match (parseModule F room buffer).1 with
      | .error .panic => none
      | .error err => some ⟨[text "Error parsing file \"" ++ config.filename.toList ++ text "\".", err.display], none, 1⟩
      | .ok module =>
        match validateModuleOn (room / F.validate) module with
        | .error .panic => none
        | .error err => some ⟨[text "Error validating file \"" ++ config.filename.toList ++ text "\".", err.display], none, 1⟩
        | .ok _ =>
          if config.print && !walkModule F.print module room then none
          else if !walkModule F.drop module room then none
          else some ⟨[], if config.print then some module else none, 0⟩

end Whasm.Scope
