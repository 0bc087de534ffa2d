import Verif.Model.Context

/-!
# Validation state: `validation/stacks.rs`, `validation/context.rs`, `validation/error.rs`
-/

namespace Whasm

/-- A validation step: `fn validate(&'a self, ctx: &mut Context<'a>) -> Result<R>`
(`validation/mod.rs:21-25`). The context after a failure is not kept; see `Model/Held.lean`. -/
def V (α : Type) : Type := Ctx → Except VErr (α × Ctx)

namespace V

/-- `Ok(x)`. -/
protected def pure {α : Type} (x : α) : V α := fun c => .ok (x, c)

/-- The `?` operator. -/
protected def bind {α β : Type} (p : V α) (f : α → V β) : V β := fun c =>
  match p c with
  | .ok (x, c') => f x c'
  | .error e => .error e

/-- `return Err(e)`. -/
def fail {α : Type} (e : VErr) : V α := fun _ => .error e

instance : Monad V where
  pure := V.pure
  bind := V.bind

/-- Read access to the context. -/
def get : V Ctx := fun c => .ok (c, c)

/-- Replace the context. -/
def set (c : Ctx) : V Unit := fun _ => .ok ((), c)

end V

/-- `Stacks::push_operand`, `validation/stacks.rs:33-35`. -/
def pushOperand (op : Operand) : V Unit := fun c =>
  .ok ((), { c with operands := op :: c.operands })

/-- `Stacks::pop_operand`, `validation/stacks.rs:37-52`. -/
def popOperand (op : Operand) : V Operand := fun c =>
  match c.frames with
  | [] => .error .invalid
  | frame :: _ =>
    if c.operands.length = frame.height ∧ frame.unreachable = true then .ok (op, c)
    else if c.operands.length = frame.height then .error .invalid
    else
      match c.operands with
      | [] => .error .panic
      | val :: rest =>
        match val, op with
        | .unknown, _ => .ok (op, { c with operands := rest })
        | _, .unknown => .ok (val, { c with operands := rest })
        | _, _ => if val = op then .ok (val, { c with operands := rest }) else .error .invalid

/-- `Stacks::push_operands`, `validation/stacks.rs:54-58`. -/
def pushOperands : List Val → V Unit
  | [] => pure ()
  | v :: vs => do
    pushOperand (.val v)
    pushOperands vs

/-- The loop of `Stacks::pop_operands` over the already reversed list. -/
def popReversed : List Val → V Unit
  | [] => pure ()
  | v :: vs => do
    let _ ← popOperand (.val v)
    popReversed vs

/-- `Stacks::pop_operands`, `validation/stacks.rs:60-65`. -/
def popOperands (ops : List Val) : V Unit := popReversed ops.reverse

/-- `Stacks::push_frame`, `validation/stacks.rs:67-74`. -/
def pushFrame (label out : List Val) : V Unit := fun c =>
  .ok ((), { c with frames :=
    { label := label, out := out, height := c.operands.length, unreachable := false } :: c.frames })

/-- `Stacks::pop_frame`, `validation/stacks.rs:76-86`. -/
def popFrame : V (List Val) := do
  let c ← V.get
  match c.frames with
  | [] => V.fail .invalid
  | frame :: _ => do
    let out := frame.out
    let height := frame.height
    popOperands out
    let c ← V.get
    if c.operands.length ≠ height then V.fail .invalid
    else
      match c.frames with
      | [] => V.fail .invalid
      | _ :: rest => do
        V.set { c with frames := rest }
        pure out

/-- `Stacks::unreachable`, `validation/stacks.rs:88-94`. `truncate(height)` keeps the `height` elements at
the bottom of the stack. -/
def setUnreachable : V Unit := fun c =>
  match c.frames with
  | [] => .error .invalid
  | frame :: rest =>
    .ok ((), { c with
      operands := c.operands.drop (c.operands.length - frame.height)
      frames := { frame with unreachable := true } :: rest })

end Whasm
