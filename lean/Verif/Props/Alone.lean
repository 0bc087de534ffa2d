import Verif.Lemmas.Alone
import Verif.Props.Link

/-!
# C70: a module alone in the store

The theorems about one module (C50, C51, C64 and others) use `Spec/Run` and `Spec/Instantiate`, those on linking use `Spec/Link`. For a module that is
accepted they say the same.
-/

namespace Whasm
open Spec
open Link
open Run (Value)

/-- **C70, one module, partial.** An accepted module, in a store with nothing else than its imports, in their order: instantiation as one module among
others is instantiation of the module alone, with the same outcome and the same values in globals, memories and tables.
Missing for C70: see `C70_instantiate_partial`. -/
theorem C70_alone_partial {M : Machine} {R : Run.Machine} (hn : NumOk M) (hh : HostOk M) (hM : SameMachine M R) {s : System} (hs : SystemOk s) {m : Module}
    {r : ModuleResult} (h : Linkable m r) {imports : List Extern} (hr : Resolved s.pool r.imports imports) (ho : OnlyImports imports s.store)
    (ht : R.types = m.types) (hf : R.funcs = s.store.funcs.map plainFunc ++ Run.ownFuncs m) (fuel : Nat) :
    Run.instantiate R m (provided s.store) fuel = plainStarted (instantiate M m imports fuel s.store) ∧ (instantiate M m imports fuel s.store).AloneIn R := by
  rcases instantiate_sim hM ho ht hf fuel with h1 | h1
  · have := C70_instantiate_partial hn hh hs h hr fuel
    rw [h1] at this
    exact this.elim
  · exact h1

/-- **C70, calls of one module, partial.** After that, calls have the same results in both. -/
theorem C70_alone_call_partial {M : Machine} {R : Run.Machine} (hn : NumOk M) (hh : HostOk M) (hM : SameMachine M R) {s : System} (hs : SystemOk s)
    (hal : Alone R s.store) {a : Nat} {t : FuncTy} (ha : (.func a, .func t) ∈ s.pool) {args : List Value} (hargs : args.map Value.type = t.params) (fuel : Nat) :
    Run.invoke R fuel a args (plain s.store) = plainCalled (invoke M fuel a args s.store) ∧ (invoke M fuel a args s.store).AloneIn R := by
  rcases invoke_sim hM hal fuel a args with h1 | h1
  · have := C70_call_partial hn hh hs ha hargs fuel
    rw [h1] at this
    exact this.elim
  · exact h1

/-! ## An example, at the ends of a memory and of a table -/

/-- (module (type (func (param i32) (result i32))) (table 2 funcref) (memory 1 2)
  (func (type 0) (i32.load (local.get 0)))
  (func (type 0) (i32.load8_u offset=1 (local.get 0)))
  (func (type 0) (i32.store offset=2 (local.get 0) (i32.const 0x01020304)) (i32.load16_u offset=2 (local.get 0)))
  (func (type 0) (memory.grow (local.get 0)))
  (func (type 0) (call_indirect (type 0) (i32.const 65532) (local.get 0)))
  (elem (i32.const 1) 0) (data (i32.const 65535) "\07")) -/
def edgeModule (elemAt dataAt : BitVec 32) : Module :=
  { types := [⟨[.i32], [.i32]⟩], tables := [⟨⟨⟨2, none⟩, .funcRef⟩⟩], mems := [⟨⟨⟨1, some 2⟩⟩⟩],
    funcs := [⟨0, [], [.localGet 0, .load .i32Load 0 0]⟩, ⟨0, [], [.localGet 0, .load .i32Load8U 0 1]⟩,
      ⟨0, [], [.localGet 0, .constI32 0x01020304, .store .i32Store 0 2, .localGet 0, .load .i32Load16U 0 2]⟩,
      ⟨0, [], [.localGet 0, .memGrow 0]⟩, ⟨0, [], [.constI32 65532, .localGet 0, .callIndirect 0 0]⟩],
    elem := [⟨0, [.constI32 elemAt], [0]⟩], data := [⟨0, [.constI32 dataAt], [7]⟩],
    exports := [⟨[0x61], .func 0⟩, ⟨[0x62], .func 1⟩, ⟨[0x63], .func 2⟩, ⟨[0x64], .func 3⟩, ⟨[0x65], .func 4⟩] }

def edgeResult : ModuleResult := ⟨[], List.replicate 5 (.func ⟨[.i32], [.i32]⟩)⟩

/-- The same machine for the module alone. -/
def edgeMachine (e d : BitVec 32) : Run.Machine where
  types := (edgeModule e d).types
  funcs := Run.ownFuncs (edgeModule e d)
  foreign := []
  num := linkMachine.num
  grow _ _ _ := true
  host _ st _ := (st, none)

theorem edgeMachine_same (e d : BitVec 32) : SameMachine linkMachine (edgeMachine e d) :=
  ⟨rfl, fun _ _ _ _ => rfl, fun _ _ h _ => ⟨h, rfl⟩⟩

def edgeStore : Store := startedStore (instantiate linkMachine (edgeModule 1 65535) [] 9 {})

/-- The results of calls one after the other; `none` for a trap. -/
def edgeCalls : List (Nat × BitVec 32) → Store → List (Option (List Value))
  | [], _ => []
  | (a, v) :: l, st => (calledValues (invoke linkMachine 9 a [.i32 v] st)).1 :: edgeCalls l (calledValues (invoke linkMachine 9 a [.i32 v] st)).2

/-- The same for the module alone. -/
def aloneCalls : List (Nat × BitVec 32) → Run.Store → List (Option (List Value))
  | [], _ => []
  | (a, v) :: l, st =>
    match Run.invoke (edgeMachine 1 65535) 9 a [.i32 v] st with
    | .values vs st => some vs :: aloneCalls l st
    | .trap st => none :: aloneCalls l st
    | _ => []

def aloneStore : Run.Started → Run.Store
  | .ok st => st
  | _ => ⟨[], [], [], 0⟩

-- the last four bytes, and one further; the last byte, and one further
example : edgeCalls [(0, 65532), (0, 65533), (1, 65534), (1, 65535)] edgeStore = [some [.i32 0x07000000], none, some [.i32 7], none] := by decide +kernel
-- the same alone
example : aloneCalls [(0, 65532), (0, 65533), (1, 65534), (1, 65535)] (aloneStore (Run.instantiate (edgeMachine 1 65535) (edgeModule 1 65535) {} 9)) =
    [some [.i32 0x07000000], none, some [.i32 7], none] := by decide +kernel
-- stores are little endian, replace what was there, write nothing if a part is outside, and addresses do not wrap around
example : edgeCalls [(2, 65530), (0, 65532), (2, 65531), (0, 65532), (2, 0xFFFFFFFE), (2, 0xFFFFFFFF)] edgeStore =
    [some [.i32 0x0304], some [.i32 0x01020304], none, some [.i32 0x01020304], none, none] := by decide +kernel
-- growing returns the old size, or -1 if there would be more pages than the maximum; the new page is zero
example : edgeCalls [(3, 2), (3, 0), (0, 65533), (3, 1), (3, 0), (0, 65533), (0, 131068), (0, 131069), (3, 1)] edgeStore =
    [some [.i32 0xFFFFFFFF], some [.i32 1], none, some [.i32 1], some [.i32 2], some [.i32 0x00070000], some [.i32 0], none, some [.i32 0xFFFFFFFF]] := by
  decide +kernel
-- an element that is not initialized, the function, and one beyond the end of the table
example : edgeCalls [(4, 0), (4, 1), (4, 2)] edgeStore = [none, some [.i32 0x07000000], none] := by decide +kernel

/-- Whether instantiation succeeds, or a segment does not fit. -/
def startedFits : Started → Option Bool
  | .ok _ _ => some true
  | .fail _ => some false
  | _ => none

-- segments at the end, and one further
example : startedFits (instantiate linkMachine (edgeModule 1 65535) [] 9 {}) = some true ∧ startedFits (instantiate linkMachine (edgeModule 2 65535) [] 9 {}) = some false ∧
    startedFits (instantiate linkMachine (edgeModule 1 65536) [] 9 {}) = some false := ⟨rfl, rfl, rfl⟩

theorem edgeModule_linkable : Linkable (edgeModule 1 65535) edgeResult := by
  refine ⟨by decide +kernel, ?_, ?_⟩
  · intro f hf
    refine (plain_iff.mp ?_).2
    simp only [edgeModule, List.mem_cons, List.not_mem_nil, or_false] at hf
    rcases hf with rfl | rfl | rfl | rfl | rfl <;> simp [plainL, plainI]
  · intro g hg x hx
    simp [edgeModule] at hg

-- the theorem, with any fuel
example (fuel : Nat) : Run.instantiate (edgeMachine 1 65535) (edgeModule 1 65535) {} fuel = plainStarted (instantiate linkMachine (edgeModule 1 65535) [] fuel {}) :=
  (C70_alone_partial linkMachine_num linkMachine_host (edgeMachine_same 1 65535) (s := ⟨{}, []⟩)
    ⟨⟨fun _ h => (by cases h), fun _ h => (by cases h), fun _ h => (by cases h)⟩, fun _ _ h => (by cases h)⟩ edgeModule_linkable
    ⟨rfl, fun i t x h => (by simp [edgeResult] at h)⟩ ⟨rfl, rfl, rfl, rfl, fun _ h => (by cases h)⟩ rfl rfl fuel).1

end Whasm
