import Verif.Spec.Flat

/-!
# A machine that checks nothing

It executes code in place like the one of `Spec/Flat.lean`, but it is a function, operands and local variables are words of 64 bits that do not tell their type, and nothing is checked that validation is there to
check: whether there are operands, whether a label, a local variable, a global, a function or a memory exists, whether the table has an entry. What is not there is zero, or whatever comes first. What it does check is
what the rules of execution check: the bounds of memories and tables, whether the function in a table has the type that is wanted, and what makes a numeric operator trap.

The store, numeric operators and functions of the host are those of `Spec/Run.lean`; a word is given a type where it leaves the machine: as an operand of a numeric operator, an argument of the host, a global or a result.
-/

namespace Whasm.Run
open Spec

/-- A word without type. -/
abbrev Cell := BitVec 64

/-- The word for a value: its bits. -/
def Value.cell : Value → Cell
  | .i32 v => v.setWidth 64
  | .i64 v => v
  | .f32 v => v.setWidth 64
  | .f64 v => v

/-- A word taken for a value of this type. -/
def asValue (t : Val) (w : Cell) : Value :=
  match t with
  | .i32 => .i32 (w.setWidth 32)
  | .i64 => .i64 w
  | .f32 => .f32 (w.setWidth 32)
  | .f64 => .f64 w

/-- The highest words of a stack taken for values of these types, the last one on top. -/
def asValues (ts : List Val) (S : List Cell) : List Value := List.zipWith asValue ts (S.take ts.length).reverse

/-- The word on top, taken for an `i32`. -/
def top32 (S : List Cell) : BitVec 32 := (S.headD 0).setWidth 32

/-- What an instruction does. -/
inductive Effect where
  | next (st : Store) (ls S : List Cell)
  | trap (st : Store)
  /-- into a block -/
  | enter (S : List Cell)
  | enterElse (S : List Cell)
  /-- to a label -/
  | jump (l : Nat) (S : List Cell)
  | call (fi : FuncInst) (S : List Cell)
  /-- to the caller -/
  | back (S : List Cell)

/-- An instruction with local variables `ls` and the stack `S`; top first. -/
def effect (M : Machine) (st : Store) (ls S : List Cell) : Instr → Effect
  | .constI32 v => .next st ls (v.setWidth 64 :: S)
  | .constI64 v => .next st ls (v :: S)
  | .constF32 v => .next st ls (v.setWidth 64 :: S)
  | .constF64 v => .next st ls (v :: S)
  | .num op =>
    match M.num op (asValues (numType op).1 S) with
    | some v => .next st ls (v.cell :: S.drop (numType op).1.length)
    | none => .trap st
  | .drop => .next st ls S.tail
  | .select => .next st ls ((if top32 S = 0 then S.getD 1 0 else S.getD 2 0) :: S.drop 3)
  | .localGet x => .next st ls (ls.getD x.toNat 0 :: S)
  | .localSet x => .next st (ls.set x.toNat (S.headD 0)) S.tail
  | .localTee x => .next st (ls.set x.toNat (S.headD 0)) S
  | .globalGet x => .next st ls ((st.globals.map Value.cell).getD x.toNat 0 :: S)
  | .globalSet x => .next { st with globals := st.globals.modify x.toNat fun old => asValue old.type (S.headD 0) } ls S.tail
  | .load op _ o =>
    match st.mems with
    | m :: _ =>
      if (top32 S).toNat + o.toNat + (loadType op).2 ≤ 65536 * m.pages then .next st ls ((loaded op (readMem m ((top32 S).toNat + o.toNat) (loadType op).2)).cell :: S.tail) else .trap st
    | [] => .trap st
  | .store op _ o =>
    match st.mems with
    | m :: ms =>
      if (top32 S.tail).toNat + o.toNat + (storeType op).2 ≤ 65536 * m.pages then
        .next { st with mems := writeMem m ((top32 S.tail).toNat + o.toNat) (storeType op).2 (S.headD 0).toNat :: ms } ls (S.drop 2)
      else .trap st
    | [] => .trap st
  | .memSize x =>
    match st.mems[x.toNat]? with
    | some m => .next st ls ((BitVec.ofNat 32 m.pages).setWidth 64 :: S)
    | none => .trap st
  | .memGrow x =>
    match st.mems[x.toNat]? with
    | some m =>
      if m.pages + (top32 S).toNat ≤ pageLimit m ∧ M.grow st x.toNat (m.pages + (top32 S).toNat) = true then
        .next { st with mems := st.mems.set x.toNat { m with pages := m.pages + (top32 S).toNat, byte := fun a => if a < 65536 * m.pages then m.byte a else 0 } } ls
          ((BitVec.ofNat 32 m.pages).setWidth 64 :: S.tail)
      else .next st ls ((BitVec.ofInt 32 (-1)).setWidth 64 :: S.tail)
    | none => .trap st
  | .nop => .next st ls S
  | .unreachable => .trap st
  | .block _ _ => .enter S
  | .loop _ _ => .enter S
  | .ifElse _ _ _ => if top32 S = 0 then .enterElse S.tail else .enter S.tail
  | .br l => .jump l.toNat S
  | .brIf l => if top32 S = 0 then .next st ls S.tail else .jump l.toNat S.tail
  | .brTable tb l => .jump (tb.getD (top32 S).toNat l).toNat S.tail
  | .ret => .back S
  | .call x =>
    match M.funcs[x.toNat]? with
    | some fi => .call fi S
    | none => .trap st
  | .callIndirect x y =>
    match ((st.tables.getD y.toNat []).getD (top32 S).toNat none).bind (M.all[·]?) with
    | some fi => if some fi.type = M.types[x.toNat]? then .call fi S.tail else .trap st
    | none => .trap st
  | .elseMark => .next st ls S
  | .endMark => .next st ls S

/-- A call that is being executed. -/
structure WAct where
  type : FuncTy
  func : Func
  place : Place
  locals : List Cell
  stack : List Cell

/-- A state: a call and those around it, or an end. -/
inductive WState where
  | running (st : Store) (a : WAct) (as : List WAct)
  | finished (st : Store) (vs : List Value)
  | trapped (st : Store)

/-- The end of a call, with the stack `S`. -/
def wleave (st : Store) (t : FuncTy) (S : List Cell) : List WAct → WState
  | [] => .finished st (asValues t.results S)
  | a :: as => .running st { a with place := a.place.next, stack := S.take t.results.length ++ a.stack } as

/-- The beginning of a call, with the stack `S`. -/
def winvoke (M : Machine) (st : Store) (a : WAct) (as : List WAct) (S : List Cell) : FuncInst → WState
  | .own t f => .running st ⟨t, f, .here 0, (S.take t.params.length).reverse ++ f.locals.map fun _ => 0, []⟩ ({ a with stack := S.drop t.params.length } :: as)
  | .host t id =>
    match M.host id st (asValues t.params S) with
    | (st', some us) => .running st' { a with place := a.place.next, stack := (us.map Value.cell).reverse ++ S.drop t.params.length } as
    | (st', none) => .trapped st'

/-- One step; the ends stay. -/
def wstep (M : Machine) (T : Landings) : WState → WState
  | .running st a as =>
    match a.place.instr a.func.body with
    | none =>
      match a.place.outer with
      | some q => .running st { a with place := q.next } as
      | none => wleave st a.type a.stack as
    | some i =>
      match effect M st a.locals a.stack i with
      | .next st' ls S => .running st' { a with place := a.place.next, locals := ls, stack := S } as
      | .trap st' => .trapped st'
      | .enter S => .running st { a with place := a.place.enter, stack := S } as
      | .enterElse S => .running st { a with place := a.place.enterElse, stack := S } as
      | .jump l S =>
        .running st { a with
          place := ((a.place.up l).getD a.place).land a.func.body
          stack := S.take ((T a.func a.place l).getD (0, 0)).1 ++ S.drop (S.length - ((T a.func a.place l).getD (0, 0)).2) } as
      | .call fi S => winvoke M st a as S fi
      | .back S => wleave st a.type S as
  | s => s

/-- `n` steps. -/
def wsteps (M : Machine) (T : Landings) : Nat → WState → WState
  | 0, s => s
  | n + 1, s => wsteps M T n (wstep M T s)

/-- The state in which a function of the module is called, with these words as arguments. -/
def wentered (t : FuncTy) (f : Func) (args : List Cell) (st : Store) : WState := .running st ⟨t, f, .here 0, args ++ f.locals.map fun _ => 0, []⟩ []

end Whasm.Run
