import Verif.Lemmas.HeldItem
import Verif.Props.Validity

/-!
# C72 to C73: validation with a context held by the caller

A user of the library can build a `Context`, and validate parts of modules with it one after the other. `runAll` of `Model/Held.lean` is such a history of
calls; it goes on after an error.
-/

namespace Whasm
open Spec Held

/-! ## The same verdicts as in the main model -/

/-- What the rest of this development says about `Module::validate` holds for this model, too. -/
theorem C72_module (m : Module) (c : Ctx) : (validateModuleIn m c) = (validateModule m, c) := module_in m c

/-! ## C72 -/

/-- The parts of modules a caller may want to check: everything but single instructions, expressions, labels and locals, which only have a meaning inside a
function. Bodies are without stray `Else` and `End`, as the parser delivers them (C18). -/
inductive Part : Item → Prop
  | typeIdx (i : Idx) : Part (.typeIdx i)
  | funcIdx (i : Idx) : Part (.funcIdx i)
  | tableIdx (i : Idx) : Part (.tableIdx i)
  | memIdx (i : Idx) : Part (.memIdx i)
  | globalIdx (i : Idx) : Part (.globalIdx i)
  | limits (t : Limits) : Part (.limits t)
  | funcTy (t : FuncTy) : Part (.funcTy t)
  | tableTy (t : TableTy) : Part (.tableTy t)
  | memTy (t : MemTy) : Part (.memTy t)
  | globalTy (t : GlobalTy) : Part (.globalTy t)
  | retVal (t : RetVal) : Part (.retVal t)
  | func (f : Func) : ¬ Occurs .endMark f.body ∧ ¬ Occurs .elseMark f.body → Part (.func f)
  | table (t : Table) : Part (.table t)
  | mem (m : Mem) : Part (.mem m)
  | global (g : Global) : Part (.global g)
  | elem (e : Elem) : Part (.elem e)
  | data (d : Data) : Part (.data d)
  | start (s : Start) : Part (.start s)
  | import (i : Import) : Part (.import i)
  | export (e : Export) : Part (.export e)
  | module (m : Module) : Part (.module m)

/-- The parts that contain code. -/
def HasCode : Item → Prop
  | .func _ | .global _ | .elem _ | .data _ => True
  | _ => False

/-- Nothing on the stacks. -/
def Empty (c : Ctx) : Prop := c.frames = [] ∧ c.operands = []

theorem dirty_iff {c : Ctx} : Dirty c ↔ ¬ Empty c := by
  unfold Dirty Empty
  by_cases h : c.frames = [] <;> simp [h]

/-- The verdict on a part. -/
def verdict (x : Item) (c : Ctx) : Except VErr Unit := (x.validate c).1

theorem part_cases {x : Item} (h : Part x) : (HasCode x ∧ Framed x.validate) ∨ (¬ HasCode x ∧ Sees x.validate) := by
  cases h with
  | typeIdx i => exact .inr ⟨id, (sees_typeIdx i).drop⟩
  | funcIdx i => exact .inr ⟨id, (sees_funcIdx i).drop⟩
  | tableIdx i => exact .inr ⟨id, (sees_tableIdx i).drop⟩
  | memIdx i => exact .inr ⟨id, (sees_memIdx i).drop⟩
  | globalIdx i => exact .inr ⟨id, (sees_globalIdx i).drop⟩
  | limits t => exact .inr ⟨id, (sees_limits t).drop⟩
  | funcTy t => exact .inr ⟨id, sees_funcTy t⟩
  | tableTy t => exact .inr ⟨id, sees_tableTy t⟩
  | memTy t => exact .inr ⟨id, sees_memTy t⟩
  | globalTy t => exact .inr ⟨id, Sees.pure ()⟩
  | retVal t => exact .inr ⟨id, (Sees.pure t).drop⟩
  | func f hm => exact .inl ⟨trivial, (framed_func (plain_iff.mpr hm)).drop⟩
  | table t => exact .inr ⟨id, (sees_table t).drop⟩
  | mem m => exact .inr ⟨id, (sees_mem m).drop⟩
  | global g => exact .inl ⟨trivial, (framed_global g).drop⟩
  | elem e => exact .inl ⟨trivial, framed_elem e⟩
  | data d => exact .inl ⟨trivial, framed_data d⟩
  | start s => exact .inr ⟨id, sees_start s⟩
  | «import» i => exact .inr ⟨id, (sees_import i).drop⟩
  | «export» e => exact .inr ⟨id, (sees_export e).drop⟩
  | module m => exact .inr ⟨id, (sees_moduleIn m).drop⟩

/-- The calls that validate one part after the other. -/
def validates (xs : List Item) : List Call := xs.map .validate

theorem runAll_cons (k : Call) (ks : List Call) (c : Ctx) :
    runAll (k :: ks) c = ((k.run c).1 :: (runAll ks (k.run c).2).1, (runAll ks (k.run c).2).2) := rfl

/-- After any history of calls of `validate`, whether they failed or not, the declarations in the context are what they were. -/
theorem C72_declarations_partial (xs : List Item) (c : Ctx) :
    let c' := (runAll (validates xs) c).2
    c'.types = c.types ∧ c'.funcs = c.funcs ∧ c'.tables = c.tables ∧ c'.mems = c.mems ∧ c'.globals = c.globals := by
  refine (runAll_keep (I := SameDecls c) (E := fun _ => True) (fun k hk => ?_) (SameDecls.refl c)).2
  obtain ⟨x, _, rfl⟩ := List.mem_map.mp hk
  exact (closed_decls c).item C32_no_panic x

theorem history {c : Ctx} (hc : Clean c) : ∀ {xs : List Item}, (∀ x ∈ xs, Part x) → ∀ {d : Ctx}, d = c ∨ Dirty d ∧ SameDecls c d →
    ((runAll (validates xs) d).2 = c ∧ d = c) ∨ (Dirty (runAll (validates xs) d).2 ∧ SameDecls c (runAll (validates xs) d).2 ∧
      (d = c → ∃ e, .error e ∈ (runAll (validates xs) d).1))
  | [], _, d, hd => by
    rcases hd with rfl | ⟨hd, hs⟩
    · exact .inl ⟨rfl, rfl⟩
    · refine .inr ⟨hd, hs, fun h => ?_⟩
      subst h
      exact (clean_not_dirty hc hd).elim
  | x :: xs, hx, d, hd => by
    have hp := part_cases (hx x List.mem_cons_self)
    have e := runAll_cons (.validate x) (validates xs) d
    have e' : validates (x :: xs) = .validate x :: validates xs := rfl
    rw [e', e]
    have key : (Call.validate x).run d = ((Call.validate x).run d |>.1, d) ∨ (Dirty ((Call.validate x).run d).2 ∧ ∃ e, ((Call.validate x).run d).1 = .error e) := by
      rcases hp with ⟨_, hf⟩ | ⟨_, hs⟩
      · rcases hd with rfl | ⟨hd, _⟩
        · rcases (hf d).2 hc with h | ⟨h, h'⟩
          · exact .inl h
          · exact .inr ⟨h', h⟩
        · exact .inr ⟨((hf d).1 hd).2, ((hf d).1 hd).1⟩
      · left
        have := (hs d d (SameDecls.refl d)).2
        show x.validate d = ((x.validate d).1, d)
        rw [← this]
        rcases hr : x.validate d with ⟨r, d'⟩
        rw [hr] at this
        cases this
        rw [hr]
    have hdecl : SameDecls c d := by
      rcases hd with rfl | hd
      · exact SameDecls.refl _
      · exact hd.2
    rcases key with h | ⟨h, h'⟩
    · have h2 : ((Call.validate x).run d).2 = d := by rw [h]
      rw [h2]
      rcases history hc (fun y hy => hx y (List.mem_cons_of_mem _ hy)) hd with h | ⟨h1, h2, h3⟩
      · exact .inl h
      · exact .inr ⟨h1, h2, fun h => by
          obtain ⟨e, he⟩ := h3 h
          exact ⟨e, List.mem_cons_of_mem _ he⟩⟩
    · have hs : SameDecls c ((Call.validate x).run d).2 := by
        have := (closed_decls c).item C32_no_panic x d hdecl
        show SameDecls c (x.validate d).2
        rcases hr : x.validate d with ⟨e | y, d'⟩ <;> rw [hr] at this
        · exact this.1
        · exact this
      rcases history hc (fun y hy => hx y (List.mem_cons_of_mem _ hy)) (.inr ⟨h, hs⟩) with ⟨_, h5⟩ | ⟨h1, h2, _⟩
      · rw [h5] at h
        exact (clean_not_dirty hc h).elim
      · refine .inr ⟨h1, h2, fun _ => ?_⟩
        obtain ⟨e, he⟩ := h'
        exact ⟨e, by rw [he]; exact List.mem_cons_self⟩

/-- The full property, false of the code (`C72_negation`): the verdict on a part is the same as at first, after any history of validations. -/
def C72 : Prop := ∀ (m : Module) (c : Ctx), contextOf m = .ok c → ∀ xs : List Item, (∀ x ∈ xs, Part x) → ∀ x, Part x →
  verdict x (runAll (validates xs) c).2 = verdict x c

/-- **C72 for parts without code**: the verdict never depends on the history. -/
theorem C72_codeless_partial {c : Ctx} {xs : List Item} {x : Item} (hx : Part x) (hn : ¬ HasCode x) : verdict x (runAll (validates xs) c).2 = verdict x c := by
  rcases part_cases hx with ⟨h', _⟩ | ⟨_, hs⟩
  · exact (hn h').elim
  · exact (hs c _ (C72_declarations_partial xs c)).1

/-- **C72 after successes**: as long as nothing was rejected, the context is as it was, and so are all verdicts. -/
theorem C72_after_successes_partial {m : Module} {c : Ctx} (h : contextOf m = .ok c) {xs : List Item} (hxs : ∀ x ∈ xs, Part x)
    (hok : ∀ r ∈ (runAll (validates xs) c).1, r = .ok ()) : (runAll (validates xs) c).2 = c := by
  cases contextOf_eq h
  rcases history (clean_ctxOf m) hxs (.inl rfl) with h | ⟨_, _, h⟩
  · exact h.1
  · obtain ⟨e, he⟩ := h rfl
    cases hok _ he

/-- **C72, one direction**: a part that is accepted after any history, also one with rejections, is also accepted at first. A history makes the
validator reject more, never less. -/
theorem C72_sound_partial {m : Module} {c : Ctx} (h : contextOf m = .ok c) {xs : List Item} (hxs : ∀ x ∈ xs, Part x) {x : Item} (hx : Part x)
    (hok : verdict x (runAll (validates xs) c).2 = .ok ()) : verdict x c = .ok () := by
  rcases part_cases hx with ⟨_, hf⟩ | ⟨hn, _⟩
  · cases contextOf_eq h
    rcases history (clean_ctxOf m) hxs (.inl rfl) with ⟨h, _⟩ | ⟨h, _⟩
    · rw [h] at hok; exact hok
    · obtain ⟨⟨e, he⟩, _⟩ := (hf _).1 h
      unfold verdict at hok
      rw [he] at hok
      cases hok
  · rw [← C72_codeless_partial hx hn (xs := xs)]; exact hok

/-- **C72, how it fails**: after a history either the context is as it was, or something is left on the stacks, and then every part with code is
rejected, and the stacks never become empty again. -/
theorem C72_stuck_partial {m : Module} {c : Ctx} (h : contextOf m = .ok c) {xs : List Item} (hxs : ∀ x ∈ xs, Part x) :
    (runAll (validates xs) c).2 = c ∨
    (¬ Empty (runAll (validates xs) c).2 ∧ ∀ ys : List Item, (∀ y ∈ ys, Part y) →
      ¬ Empty (runAll (validates ys) (runAll (validates xs) c).2).2 ∧
      ∀ x, Part x → HasCode x → ∃ e, verdict x (runAll (validates ys) (runAll (validates xs) c).2).2 = .error e) := by
  cases contextOf_eq h
  rcases history (clean_ctxOf m) hxs (.inl rfl) with ⟨h, _⟩ | ⟨h, hs, _⟩
  · exact .inl h
  · refine .inr ⟨dirty_iff.mp h, fun ys hys => ?_⟩
    rcases history (clean_ctxOf m) hys (.inr ⟨h, hs⟩) with ⟨_, h5⟩ | ⟨h5, _⟩
    · rw [h5] at h
      exact (clean_not_dirty (clean_ctxOf m) h).elim
    · refine ⟨dirty_iff.mp h5, fun x hx hc => ?_⟩
      rcases part_cases hx with ⟨_, hf⟩ | ⟨hn, _⟩
      · exact ((hf _).1 h5).1
      · exact (hn hc).elim

/-- **C72, when it fails**: a rejected function whose type exists leaves something on the stacks, and so does each rejected global. -/
theorem C72_leftover_partial (c : Ctx) :
    (∀ f : Func, ¬ Occurs .endMark f.body ∧ ¬ Occurs .elseMark f.body → f.ty.toNat < c.types.length → ∀ e, verdict (.func f) c = .error e →
      ¬ Empty ((Item.func f).validate c).2) ∧
    (∀ (g : Global) e, verdict (.global g) c = .error e → ¬ Empty ((Item.global g).validate c).2) := by
  refine ⟨fun f hm ht e he => dirty_iff.mp ?_, fun g e he => dirty_iff.mp ?_⟩
  · have h := func_run (plain_iff.mpr hm) c
    have h' : (Item.func f).validate c = match Held.validateFunc f c with
      | (.ok _, c') => (.ok (), c')
      | (.error e, c') => (.error e, c') := by
      show Held.drop (Held.validateFunc f) c = _
      rw [drop_eq]
      rcases Held.validateFunc f c with ⟨e | x, c'⟩ <;> rfl
    unfold verdict at he
    rw [h'] at he ⊢
    rcases hr : Held.validateFunc f c with ⟨x | x, d⟩ <;> rw [hr] at h he
    · rcases h with ⟨_, h⟩ | h
      · omega
      · exact h
    · cases he
  · have h := init_run c [g.ty.val] g.init
    have h' : (Item.global g).validate c = match Held.validateInit [g.ty.val] g.init c with
      | (.ok _, c') => (.ok (), c')
      | (.error e, c') => (.error e, c') := by
      show Held.drop (Held.validateGlobal g) c = _
      rw [drop_eq]
      have h2 : Held.validateGlobal g c = match Held.validateInit [g.ty.val] g.init c with
        | (.ok _, c') => (.ok g.ty, c')
        | (.error e, c') => (.error e, c') := by
        show (Held.validateInit [g.ty.val] g.init >>= fun _ => pure g.ty : H GlobalTy) c = _
        rw [bind_eq]
        rcases Held.validateInit [g.ty.val] g.init c with ⟨e | x, c'⟩ <;> rfl
      rw [h2]
      rcases Held.validateInit [g.ty.val] g.init c with ⟨e | x, c'⟩ <;> rfl
    unfold verdict at he
    rw [h'] at he ⊢
    rcases hr : Held.validateInit [g.ty.val] g.init c with ⟨x | x, d⟩ <;> rw [hr] at h he
    · exact h
    · cases he

theorem checks_drop {α : Type} {p : H α} {c : Ctx} {Q : Prop} (h : Checks (do let _ ← erase p; pure ()) c Q) : Checks (erase (Held.drop p)) c Q := by
  rw [erase_drop]; exact h

theorem verdict_iff {x : Item} {c : Ctx} {Q : Prop} (h : Checks (erase x.validate) c Q) : verdict x c = .ok () ↔ Q := by
  have h := of_checks h
  unfold verdict
  constructor
  · intro hv
    by_cases q : Q
    · exact q
    · rw [h.2 q] at hv; cases hv
  · intro q; rw [h.1 q]

/-- **C72, what the first verdict means**: in the context made of a module a part of it is accepted exactly if it is valid in that module by the rules of
the crate. With `C72_sound_partial`, acceptance after any history implies validity. -/
theorem C72_first {m : Module} {c : Ctx} (h : contextOf m = .ok c) :
    (∀ f : Func, ¬ Occurs .endMark f.body ∧ ¬ Occurs .elseMark f.body → (verdict (.func f) c = .ok () ↔ FuncOk .code m f)) ∧
    (∀ e : Elem, verdict (.elem e) c = .ok () ↔ ElemOk .code m e) ∧
    (∀ d : Data, verdict (.data d) c = .ok () ↔ DataOk .code m d) ∧
    (∀ s : Start, verdict (.start s) c = .ok () ↔ (funcSpace m)[s.func.toNat]? = some ⟨[], []⟩) ∧
    (∀ n : Module, verdict (.module n) c = .ok () ↔ ∃ r, validateModule n = .ok r) := by
  cases contextOf_eq h
  refine ⟨fun f hm => verdict_iff (checks_drop ?_), fun e => verdict_iff ?_, fun d => verdict_iff ?_, fun s => verdict_iff ?_, fun n => ?_⟩
  · rw [erase_func]; exact checks_func (clean_ctxOf m) (plain_iff.mpr hm)
  · show Checks (erase (Held.validateElem e)) _ _
    rw [erase_elem]; exact checks_elem (clean_ctxOf m) e
  · show Checks (erase (Held.validateData d)) _ _
    rw [erase_data]; exact checks_data (clean_ctxOf m) d
  · show Checks (erase (Held.validateStart s)) _ _
    rw [erase_start]; exact checks_start s
  · show (Held.drop (validateModuleIn n) (ctxOf m)).1 = .ok () ↔ _
    rw [drop_eq, C72_module]
    cases validateModule n with
    | error e => exact ⟨fun h => (by cases h), fun ⟨r, h⟩ => (by cases h)⟩
    | ok r => exact ⟨fun _ => ⟨r, rfl⟩, fun _ => rfl⟩

-- a function that returns an `i32`, one that should and returns an `i64`
def goodFunc : Func := ⟨0, [], [.constI32 0]⟩
def badFunc : Func := ⟨0, [], [.constI64 0]⟩
def bothFuncs : Module := { types := [⟨[], [.i32]⟩], funcs := [goodFunc, badFunc], exports := [⟨[], .func 0⟩] }

/-- The context of `bothFuncs`. -/
def bothCtx : Ctx := { types := [⟨[], [.i32]⟩], funcs := [⟨[], [.i32]⟩, ⟨[], [.i32]⟩] }

theorem both_ctx : contextOf bothFuncs = .ok bothCtx := rfl

/-- **The code violates C72**: `goodFunc` is accepted at first, and rejected after `badFunc` was rejected. -/
theorem C72_negation : ¬ C72 := by
  intro h
  have h := h bothFuncs bothCtx both_ctx [.func badFunc] (fun x hx => by
    rw [List.mem_singleton.mp hx]
    exact .func _ (plain_iff.mp ⟨trivial, trivial⟩)) (.func goodFunc) (.func _ (plain_iff.mp ⟨trivial, trivial⟩))
  have h1 : verdict (.func goodFunc) bothCtx = .ok () := by decide +kernel
  have h2 : verdict (.func goodFunc) (runAll (validates [.func badFunc]) bothCtx).2 = .error .invalid := by decide +kernel
  rw [h1, h2] at h
  cases h

-- the stacks after `badFunc`, and the verdicts on a series of parts
example : ((Item.func badFunc).validate bothCtx).2.frames = [⟨[.i32], [.i32], 0, false⟩] ∧ ((Item.func badFunc).validate bothCtx).2.locals = [] ∧
    ((Item.func badFunc).validate bothCtx).2.ret = some [.i32] ∧ ((Item.func badFunc).validate bothCtx).2.operands = [] := by decide +kernel

example : (runAll (validates [.func goodFunc, .export ⟨[], .func 0⟩, .func badFunc, .func goodFunc, .export ⟨[], .func 0⟩, .module bothFuncs]) bothCtx).1 =
    [.ok (), .ok (), .error .invalid, .error .invalid, .ok (), .error .invalid] := by decide +kernel

/-- With a stray `End`, which only a hand-made body can contain, a history can even make the validator accept more: this body is rejected at first,
and accepted after another rejection. -/
theorem C72_marks : ∃ f : Func, verdict (.func f) { types := [⟨[], []⟩] } = .error .invalid ∧
    verdict (.func f) (runAll (validates [.func ⟨0, [], [.drop]⟩]) { types := [⟨[], []⟩] }).2 = .ok () :=
  ⟨⟨0, [], [.endMark]⟩, by decide +kernel⟩

/-! ## C73 -/

/-- **C73.** Whatever functions a caller calls on a context, starting from an empty one or from one made of a module, in whatever order and whatever failed before: no
call panics. -/
theorem C73_no_panic (ks : List Call) :
    (∀ r ∈ (runAll ks {}).1, r ≠ .error .panic) ∧ ∀ m c, contextOf m = .ok c → ∀ r ∈ (runAll ks c).1, r ≠ .error .panic := by
  have h : ∀ c, Nested c → ∀ r ∈ (runAll ks c).1, r ≠ .error .panic := fun c hc r hr he => by
    subst he
    exact (runAll_keep (fun k _ => nested_call C32_no_panic k) hc).1 _ hr rfl
  refine ⟨h _ trivial, fun m c hc => h c ?_⟩
  cases contextOf_eq hc
  exact trivial

/-- The stacks at any time: every frame begins at a height that the stack of operands has. -/
theorem C73_heights (ks : List Call) {f : Frame} (hf : f ∈ (runAll ks {}).2.frames) : f.height ≤ (runAll ks {}).2.operands.length := by
  have h := (runAll_keep (fun k _ => nested_call C32_no_panic k) (c := {}) trivial (ks := ks)).2
  have key : ∀ {fs : List Frame} {n : Nat}, Held.Nests fs n → ∀ f ∈ fs, f.height ≤ n := by
    intro fs
    induction fs with
    | nil => intro _ _ f hf; cases hf
    | cons g fs ih =>
      intro n h f hf
      rcases List.mem_cons.mp hf with rfl | hf
      · exact h.1
      · exact Nat.le_trans (ih h.2 f hf) h.1
  exact key h f hf

-- operands below a frame are not popped, also by calls that fail
example : runAll [.pushOperand (.val .i32), .pushFrame [] [.i64], .popOperand .unknown, .popFrame, .validate (.instr .unreachable), .popFrame, .popFrame,
    .validate (.instr (.br 7))] {} =
    ([.ok (), .ok (), .error .invalid, .error .invalid, .ok (), .ok (), .error .invalid, .error .invalid], { operands := [.val .i32] }) := rfl

/-- The assumption that the fields are not assigned directly is needed: `Frame` and `Stacks` have public fields, and `pop_operand` panics on stacks that no
calls lead to. -/
theorem C73_fields : ∃ c : Ctx, (Call.run (.popOperand .unknown) c).1 = .error .panic := ⟨{ frames := [⟨[], [], 1, false⟩] }, rfl⟩

end Whasm
