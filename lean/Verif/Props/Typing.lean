import Verif.Lemmas.Inside
import Verif.Lemmas.Trace
import Verif.Lemmas.DecEq
import Verif.Props.Grammar

/-!
# Properties of the validation of function bodies: C30, C31, C33, C34, C43, C46, C51

`Spec/Typing.lean` has the type system, `Spec/Validity.lean` the rules for modules. `NoElse m` excludes modules built by hand with a stray
`Else` in a body; the parser delivers no such module (`parsed_noElse`).
-/

namespace Whasm
open Spec

deriving instance DecidableEq for Ctx

/-- The parser delivers no pseudo-instructions. -/
theorem parsed_noMarks {s r : List Byte} {m : Module} (h : parseModule s = (.ok m, r)) : NoMarks m := by
  intro f hf
  have he : f.body ∈ exprsOf m := by
    unfold exprsOf
    simp only [List.mem_append, List.mem_map]
    exact .inl (.inl (.inl ⟨f, hf, rfl⟩))
  exact ⟨fun ho => (C18_module h f.body he _ ho).1 rfl, fun ho => (C18_module h f.body he _ ho).2.1 rfl⟩

theorem parsed_noElse {s r : List Byte} {m : Module} (h : parseModule s = (.ok m, r)) : NoElse m := fun f hf => (parsed_noMarks h f hf).2

/-! ## C30 -/

/-- **C30.** All bodies of an accepted module are well typed, by the rules of the document except that alignment is not checked. -/
theorem C30_typed {m : Module} {r : ModuleResult} (h : validateModule m = .ok r) (he : NoElse m) {f : Func} (hf : f ∈ m.funcs) :
    ∃ t, m.types[f.ty.toNat]? = some t ∧ ExprType { bodyEnv .w3c m t f.locals with aligned := false } f.body t.results :=
  funcOk_transfer (R := .code) (R' := { Rules.w3c with aligned := false }) ((valid_of_ok h he).funcs f hf) (fun h => by cases h)
    fun h => by cases h

/-- **C30, for parsed modules.** -/
theorem C30_parsed {s rest : List Byte} {m : Module} (hs : parseModule s = (.ok m, rest)) {r : ModuleResult} (h : validateModule m = .ok r)
    {f : Func} (hf : f ∈ m.funcs) :
    ∃ t, m.types[f.ty.toNat]? = some t ∧ ExprType { bodyEnv .w3c m t f.locals with aligned := false } f.body t.results :=
  C30_typed h (parsed_noElse hs) hf

/-- **C30, with alignment.** If no load or store has too large an alignment, the body is well typed by the document. -/
theorem C30_aligned {m : Module} {r : ModuleResult} (h : validateModule m = .ok r) (he : NoElse m) {f : Func} (hf : f ∈ m.funcs)
    (ha : ∀ j d, OccursAt j d f.body → AlignOk j) :
    ∃ t, m.types[f.ty.toNat]? = some t ∧ ExprType (bodyEnv .w3c m t f.locals) f.body t.results :=
  funcOk_transfer (R := .code) (R' := .w3c) ((valid_of_ok h he).funcs f hf) (fun h => by cases h) fun _ => .inr ha

/-- (func (param i32) (result i64) (local f32)  block i32 (local.get 0) (br_if 0 (local.get 0)) (i32.const 1) (i32.add) end
  if i64 (i64.const 5) else (return (i64.const 7)) end) -/
def exampleModule : Module :=
  { types := [⟨[.i32], [.i64]⟩],
    funcs := [⟨0, [.f32], [.block [.i32] [.localGet 0, .localGet 0, .brIf 0, .constI32 1, .num .i32Add],
      .ifElse [.i64] [.constI64 5] [.constI64 7, .ret]]⟩] }

example : validateModule exampleModule = .ok ⟨[], []⟩ := by decide +kernel

example : ExprType { bodyEnv .w3c exampleModule ⟨[.i32], [.i64]⟩ [.f32] with aligned := false }
    [.block [.i32] [.localGet 0, .localGet 0, .brIf 0, .constI32 1, .num .i32Add], .ifElse [.i64] [.constI64 5] [.constI64 7, .ret]]
    [.i64] := by
  have he : NoElse exampleModule := by
    intro f hf
    obtain rfl := List.mem_singleton.mp hf
    exact (plain_iff.mp (by simp [plainL, plainI])).2
  obtain ⟨t, h1, h2⟩ := C30_typed (m := exampleModule) (r := ⟨[], []⟩) (by decide +kernel) he (f := exampleModule.funcs[0]) (by simp)
  cases h1
  exact h2

/-! ## C31 -/

/-- **C31, exact.** If the declarations of a module are fine, the module is accepted exactly if all bodies are well typed in the context
*without* a label for the function body itself (`Rules.code`). -/
theorem C31_exact {m : Module} (hd : DeclsOk .code m) (hm : NoMarks m) :
    validateModule m = .ok (externals m) ↔ ∀ f ∈ m.funcs, ∃ t, m.types[f.ty.toNat]? = some t ∧
      ExprType { bodyEnv .w3c m t f.locals with aligned := false, labels := [] } f.body t.results := by
  rw [validate_ok_iff (plain_of_noMarks hm)]
  exact ⟨fun h => h.1.funcs, fun h => ⟨⟨hd, h⟩, rfl⟩⟩

/-- **C31, partial.** Bodies that are well typed by the document are accepted, *provided no branch targets the function body itself*.
Missing for C31: such branches; see `C31_negation`. -/
theorem C31_accepted_partial {m : Module} (hd : DeclsOk .code m) (h : ∀ f ∈ m.funcs, FuncOk .w3c m f)
    (hb : ∀ f ∈ m.funcs, ∀ j d, OccursAt j d f.body → ∀ l ∈ branchTargets j, l.toNat < d) :
    validateModule m = .ok (externals m) :=
  ok_of_valid ⟨hd, fun f hf => funcOk_transfer (h f hf) (fun _ _ => hb f hf) fun h => by cases h⟩

/-- (func (br 0)) -/
def brModule : Module := { types := [⟨[], []⟩], funcs := [⟨0, [], [.br 0]⟩] }

/-- **C31 fails.** A body that branches to the label of the function is well typed but rejected. -/
theorem C31_negation : DeclsOk .code brModule ∧ (∀ f ∈ brModule.funcs, FuncOk .w3c brModule f) ∧ validateModule brModule = .error .invalid := by
  refine ⟨?_, ?_, by decide +kernel⟩
  · constructor <;> simp [brModule, Rules.code, importedTables, importedMems]
  · intro f hf
    obtain rfl := List.mem_singleton.mp hf
    exact ⟨⟨[], []⟩, rfl, hasTypes_single [] (.br [] [] rfl)⟩

-- the same branch in a block is fine
example : validateModule { types := [⟨[], []⟩], funcs := [⟨0, [], [.block [] [.br 0]]⟩] } = .ok ⟨[], []⟩ := by decide +kernel
example : validateModule { types := [⟨[], []⟩], funcs := [⟨0, [], [.block [] [.br 1]]⟩] } = .error .invalid := by decide +kernel

/-! ## C33 -/

/-- **C33.** Inside a frame entered with operands `base`, an expression leaves `base`, the outer frames and all declarations as they are;
of the frame itself only the flag changes. -/
theorem C33_frame {e : List Instr} (hm : ¬ Occurs .endMark e ∧ ¬ Occurs .elseMark e) {c c' : Ctx} {f : Frame} {outer : List Frame}
    (hf : c.frames = f :: outer) {top base : List Operand} (ho : c.operands = top ++ base) (hh : f.height = base.length)
    (h : validateExpr e c = .ok ((), c')) :
    ∃ top' u, c' = { c with operands := top' ++ base, frames := { f with unreachable := u } :: outer } := by
  have hx := exec_expr c e (plain_iff.mpr hm) base f.label f.out outer (top, f.unreachable)
  rw [← mk_eta hf ho hh, h] at hx
  cases he : evalExpr (envOf c (labelsOf f.label outer)) e (top, f.unreachable) with
  | none => rw [he] at hx; cases hx
  | some s =>
    rw [he] at hx
    refine ⟨s.1, s.2, ?_⟩
    simp only [outU, Option.map_some, outcome, Except.ok.injEq, Prod.mk.injEq, true_and] at hx
    rw [hx, mk, hh]

/-- **C33, independence.** Nor does it look at them: other operands below give the same result. -/
theorem C33_independent {e : List Instr} (hm : ¬ Occurs .endMark e ∧ ¬ Occurs .elseMark e) {c : Ctx} {f : Frame} {outer : List Frame}
    {top top' base base' : List Operand} {u : Bool} (hh : f.height = base.length) (hl : base'.length = base.length)
    (h : validateExpr e { c with operands := top ++ base, frames := f :: outer } =
      .ok ((), { c with operands := top' ++ base, frames := { f with unreachable := u } :: outer })) :
    validateExpr e { c with operands := top ++ base', frames := f :: outer } =
      .ok ((), { c with operands := top' ++ base', frames := { f with unreachable := u } :: outer }) := by
  have h1 := exec_expr c e (plain_iff.mpr hm) base f.label f.out outer (top, f.unreachable)
  have h2 := exec_expr c e (plain_iff.mpr hm) base' f.label f.out outer (top, f.unreachable)
  have e1 : mk c base f.label f.out outer (top, f.unreachable) = { c with operands := top ++ base, frames := f :: outer } := by
    unfold mk; rw [← hh]
  have e2 : mk c base' f.label f.out outer (top, f.unreachable) = { c with operands := top ++ base', frames := f :: outer } := by
    unfold mk; rw [hl, ← hh]
  rw [e1, h] at h1
  rw [e2] at h2
  rw [h2]
  cases he : evalExpr (envOf c (labelsOf f.label outer)) e (top, f.unreachable) with
  | none => rw [he] at h1; cases h1
  | some s =>
    rw [he] at h1
    simp only [outU, Option.map_some, outcome, Except.ok.injEq, Prod.mk.injEq, true_and, mk, Ctx.mk.injEq, List.cons.injEq, and_true] at h1
    obtain ⟨h3, h4⟩ := h1
    have h3 := List.append_cancel_right h3
    simp only [outU, Option.map_some, outcome, mk]
    rw [h3, hl, h4]

-- the `i64` and the unknown operand below stay; the block may use only what it was given
example : validateExpr [.num .i32Eqz, .drop, .constF32 0] { operands := [.val .i32, .val .i64, .unknown], frames := [⟨[], [], 2, false⟩] } =
      .ok ((), { operands := [.val .f32, .val .i64, .unknown], frames := [⟨[], [], 2, false⟩] }) ∧
    validateExpr [.drop, .num .i64Eqz] { operands := [.val .i32, .val .i64, .unknown], frames := [⟨[], [], 2, false⟩] } =
      .error .invalid ∧
    validateExpr [.unreachable, .num .i64Eqz] { operands := [.val .i32, .val .i64, .unknown], frames := [⟨[], [], 2, false⟩] } =
      .ok ((), { operands := [.val .i32, .val .i64, .unknown], frames := [⟨[], [], 2, true⟩] }) := by decide +kernel

/-- A hand-made `End` does reach the operands below: the restriction is needed. -/
theorem C33_marks : validateExpr [.endMark, .drop] { operands := [.val .i64], frames := [⟨[], [], 1, false⟩, ⟨[], [], 0, false⟩] } =
    .ok ((), { operands := [], frames := [⟨[], [], 0, false⟩] }) := by decide +kernel

/-! ## C34 -/

theorem lt_of_some {α : Type} {xs : List α} {n : Nat} {x : α} (h : xs[n]? = some x) : n < xs.length := by
  rw [← isSome_lt, h]; rfl

/-- **C34, function bodies**, for all modules. At any depth, also in unreachable code. -/
theorem C34_bodies {m : Module} {r : ModuleResult} (h : validateModule m = .ok r) {f : Func} (hf : f ∈ m.funcs) :
    ∃ t, m.types[f.ty.toNat]? = some t ∧ ∀ j d, OccursAt j d f.body → IndicesOk m (t.params.length + f.locals.length) d j := by
  obtain ⟨⟨_, ha⟩, _⟩ := validate_any_iff.mp h
  obtain ⟨t, ht, hs⟩ := accepted_seen (ha f hf)
  refine ⟨t, ht, fun j d hj => ?_⟩
  obtain ⟨c, c', _, hc, hd, hv⟩ := hs j d hj
  obtain ⟨e1, e2, e3, e4, e5, e6⟩ := same_decls hc
  have hlab : ∀ {x : Idx} {α : Type} {y : α} {k : Frame → V α} {c' : Ctx}, (validateLabel x >>= k) c = .ok (y, c') → x.toNat < d := by
    intro x α y k c' h
    obtain ⟨_, _, h1, _⟩ := bindOk_inv h
    have := (label_ok h1).1
    rw [hd] at this
    simp only [funcCtx, ctxOf, List.length_nil] at this
    omega
  have hlook : ∀ {α β : Type} {xs ys : List α} {x : Idx} {y : β} {k : α → V β} {c' : Ctx}, xs = ys → (lookup xs x >>= k) c = .ok (y, c') →
      x.toNat < ys.length := by
    intro α β xs ys x y k c' hxs h
    obtain ⟨_, _, h1, _⟩ := bindOk_inv h
    exact hxs ▸ lt_of_some (lookup_ok h1).1
  have hl : (t.params ++ f.locals).length = t.params.length + f.locals.length := List.length_append
  cases j with
  | br l => exact hlab hv
  | brIf l => exact hlab hv
  | brTable ls l =>
    refine ⟨fun x hx => ?_, hlab hv⟩
    obtain ⟨f, c1, h1, h2⟩ := bindOk_inv hv
    obtain ⟨_, rfl⟩ := label_ok h1
    obtain ⟨_, c2, h3, _⟩ := bindOk_inv h2
    have := labels_ok h3 x hx
    rw [hd] at this
    simp only [funcCtx, ctxOf, List.length_nil] at this
    omega
  | call x => exact hlook e2 hv
  | callIndirect x y =>
    have hv' := hv
    obtain ⟨tb, c1, h1, h2⟩ := bindOk_inv (p := lookup c.tables y) hv
    obtain ⟨_, rfl⟩ := lookup_ok h1
    exact ⟨hlook e1 h2, hlook e3 hv'⟩
  | localGet x => exact hl ▸ hlook e6 hv
  | localSet x => exact hl ▸ hlook e6 hv
  | localTee x => exact hl ▸ hlook e6 hv
  | globalGet x => exact hlook e5 hv
  | globalSet x => exact hlook e5 hv
  | load op a o => exact hlook (x := 0) e4 hv
  | store op a o => exact hlook (x := 0) e4 hv
  | memSize x => exact hlook e4 hv
  | memGrow x => exact hlook e4 hv
  | _ => trivial

/-- **C54, accepted modules.** If there is at most one memory, what is accepted in the end has the index 0 where the document has its reserved byte, in whatever bytes that was written; the same for tables. Missing: with several
memories or tables, which the crate accepts if they are imported (C43), any of them can be meant (`C54_several`). -/
theorem C54_valid_partial {m : Module} {r : ModuleResult} (h : validateModule m = .ok r) {f : Func} (hf : f ∈ m.funcs) :
    ((memSpace m).length ≤ 1 → ∀ x d, OccursAt (.memSize x) d f.body ∨ OccursAt (.memGrow x) d f.body → x = 0) ∧
    ((tableSpace m).length ≤ 1 → ∀ x y d, OccursAt (.callIndirect x y) d f.body → y = 0) := by
  obtain ⟨t, _, hi⟩ := C34_bodies h hf
  have z : ∀ {x : Idx} {n : Nat}, n ≤ 1 → x.toNat < n → x = 0 := fun h1 h2 => BitVec.eq_of_toNat_eq (by simp; omega)
  refine ⟨fun hl x d hx => ?_, fun hl x y d hx => z hl (hi _ _ hx).2⟩
  rcases hx with hx | hx
  · exact z hl (hi _ _ hx)
  · exact z hl (hi _ _ hx)

/-- With two imported memories the second one can be meant. -/
theorem C54_several : validateModule { types := [⟨[], []⟩], imports := [⟨[], [], .mem ⟨⟨1, none⟩⟩⟩, ⟨[], [], .mem ⟨⟨1, none⟩⟩⟩], funcs := [⟨0, [], [.memSize 1, .drop]⟩] } =
    .ok ⟨[.mem ⟨⟨1, none⟩⟩, .mem ⟨⟨1, none⟩⟩], []⟩ := by decide +kernel

example : validateModule { types := [⟨[], []⟩], mems := [⟨⟨⟨1, none⟩⟩⟩], funcs := [⟨0, [], [.memSize 1, .drop]⟩] } = .error .invalid ∧
    validateModule { types := [⟨[], []⟩], mems := [⟨⟨⟨1, none⟩⟩⟩], funcs := [⟨0, [], [.memSize 0, .drop]⟩] } = .ok ⟨[], []⟩ := by decide +kernel

-- also beside hand-made marks
example : validateModule { types := [⟨[], []⟩], funcs := [⟨0, [], [.elseMark, .block [] [.elseMark, .br 0]]⟩] } = .ok ⟨[], []⟩ ∧
    validateModule { types := [⟨[], []⟩], funcs := [⟨0, [], [.elseMark, .block [] [.elseMark, .br 1]]⟩] } = .error .invalid := by decide +kernel

/-- **C34, everything else**, for all modules. The own globals are the space in which the validator resolves global initializers. -/
theorem C34_items {m : Module} {r : ModuleResult} (h : validateModule m = .ok r) :
    (∀ f ∈ m.funcs, f.ty.toNat < m.types.length) ∧
    (∀ i ∈ m.imports, ∀ x, i.desc = .func x → x.toNat < m.types.length) ∧
    (∀ e ∈ m.exports,
      (∀ x, e.desc = .func x → x.toNat < (funcSpace m).length) ∧ (∀ x, e.desc = .table x → x.toNat < (tableSpace m).length) ∧
      (∀ x, e.desc = .mem x → x.toNat < (memSpace m).length) ∧ (∀ x, e.desc = .global x → x.toNat < (globalSpace m).length)) ∧
    (∀ s, m.start = some s → s.func.toNat < (funcSpace m).length) ∧
    (∀ e ∈ m.elem, e.table.toNat < (tableSpace m).length ∧ (∀ x ∈ e.init, x.toNat < (funcSpace m).length) ∧
      ∀ x, .globalGet x ∈ e.offset → x.toNat < (globalSpace m).length) ∧
    (∀ d ∈ m.data, d.mem.toNat < (memSpace m).length ∧ ∀ x, .globalGet x ∈ d.offset → x.toNat < (globalSpace m).length) ∧
    ∀ g ∈ m.globals, ∀ x, .globalGet x ∈ g.init → x.toNat < (ownGlobals m).length := by
  obtain ⟨⟨hd, ha⟩, _⟩ := validate_any_iff.mp h
  have hconst : ∀ {C : Env} {e : Expr} {t : Val}, ConstOk C e t → ∀ x, Instr.globalGet x ∈ e → x.toNat < C.globals.length := by
    intro C e t hc x hx
    obtain ⟨a, b, hty⟩ := hasTypes_mem hc.1 hx
    cases hty with
    | globalGet h => exact lt_of_some h
  refine ⟨fun f hf => ?_, (typesIn_of hd fun f hf => ?_).1, fun e he => ?_, fun s hs => lt_of_some (hd.start s hs), fun e he => ?_,
    fun d hd' => ?_, fun g hg x hx => hconst (hd.globals g hg) x hx⟩
  · obtain ⟨t, h1, _⟩ := accepted_type (ha f hf)
    exact lt_of_some h1
  · obtain ⟨t, h1, _⟩ := accepted_type (ha f hf)
    exact ⟨t, h1⟩
  · have := hd.exports e he
    unfold exportType at this
    refine ⟨fun x hx => ?_, fun x hx => ?_, fun x hx => ?_, fun x hx => ?_⟩
    all_goals
      rw [hx] at this
      simpa using this
  · obtain ⟨⟨t, h1, _⟩, h2, h3⟩ := hd.elem e he
    exact ⟨lt_of_some h1, h3, fun x hx => hconst h2 x hx⟩
  · obtain ⟨h1, h2⟩ := hd.data d hd'
    exact ⟨h1, fun x hx => hconst h2 x hx⟩

-- unreachable code is checked as well: local 1 does not exist
example : validateModule { types := [⟨[.i32], []⟩], funcs := [⟨0, [], [.ret, .block [] [.localGet 1, .drop]]⟩] } = .error .invalid ∧
    validateModule { types := [⟨[.i32], []⟩], funcs := [⟨0, [.i64], [.ret, .block [] [.localGet 1, .drop]]⟩] } = .ok ⟨[], []⟩ ∧
    OccursAt (.localGet 1) 1 [.ret, .block [] [.localGet 1, .drop]] :=
  ⟨by decide +kernel, by decide +kernel, .block (t := []) (body := [.localGet 1, .drop]) (by simp) (.here (by simp))⟩

example : validateModule { types := [⟨[], []⟩], imports := [⟨[], [], .func 0⟩], exports := [⟨[], .func 1⟩] } = .error .invalid ∧
    validateModule { types := [⟨[], []⟩], imports := [⟨[], [], .func 0⟩], exports := [⟨[], .func 0⟩], start := some ⟨0⟩ } =
      .ok ⟨[.func ⟨[], []⟩], [.func ⟨[], []⟩]⟩ := by decide +kernel

/-! ## C43 -/

/-- **C43, partial.** A load or store is accepted only if there is a memory. Missing for C43: any check of the alignment; see
`C43_ignored` and `C43_negation`. -/
theorem C43_memory_partial {m : Module} {r : ModuleResult} (h : validateModule m = .ok r) {f : Func} (hf : f ∈ m.funcs)
    {j : Instr} (hj : Occurs j f.body) (hl : (∃ op a o, j = .load op a o) ∨ ∃ op a o, j = .store op a o) : 0 < (memSpace m).length := by
  obtain ⟨t, _, hr⟩ := C34_bodies h hf
  obtain ⟨d, hj⟩ := occursAt_iff.mp hj
  have := hr j d hj
  rcases hl with ⟨op, a, o, rfl⟩ | ⟨op, a, o, rfl⟩ <;> exact this

/-- **C43, the immediates are ignored.** Whatever they are, the result of validation is the same. -/
theorem C43_ignored (a o a' o' : U32) (c : Ctx) : (∀ op, validateInstr (.load op a o) c = validateInstr (.load op a' o') c) ∧
    ∀ op, validateInstr (.store op a o) c = validateInstr (.store op a' o') c := by
  constructor
  · intro op; simp only [validateInstr]; rfl
  · intro op; simp only [validateInstr]; rfl

/-- `i32.load8_u` with alignment 2^31. -/
def misaligned : Module :=
  { types := [⟨[], [.i32]⟩], funcs := [⟨0, [], [.constI32 0, .load .i32Load8U 31 0]⟩], mems := [⟨⟨⟨1, none⟩⟩⟩] }

/-- **C43, the sizes, partial.** The sizes in bits with which the check is called, which ignores them, are those of the accesses.
Missing for C43: that they are compared with the alignment. -/
theorem C43_sizes_partial : (∀ op, loadSig op = (8 * (loadType op).2, (loadType op).1)) ∧ ∀ op, storeSig op = (8 * (storeType op).2, (storeType op).1) :=
  ⟨fun op => by cases op <;> rfl, fun op => by cases op <;> rfl⟩

/-- **C43 fails.** -/
theorem C43_negation : validateModule misaligned = .ok ⟨[], []⟩ ∧ (∃ f ∈ misaligned.funcs, Occurs (.load .i32Load8U 31 0) f.body) ∧
    ¬ AlignOk (.load .i32Load8U 31 0) ∧ ∀ f ∈ misaligned.funcs, ¬ FuncOk .w3c misaligned f := by
  refine ⟨by decide +kernel, ⟨_, List.mem_cons_self, .here (by simp)⟩, by simp [AlignOk], ?_⟩
  rintro f hf ⟨t, ht, hb⟩
  obtain rfl := List.mem_singleton.mp hf
  obtain ⟨a, b, hl⟩ := hasTypes_mem (i := .load .i32Load8U 31 0) hb (by simp)
  cases hl with
  | load _ h => exact absurd (h rfl) (by decide)

-- without memory there is an error
example : validateModule { misaligned with mems := [] } = .error .invalid := by decide +kernel

/-! ## C46 -/

/-- **C46.** -/
theorem C46_immutable {m : Module} {r : ModuleResult} (h : validateModule m = .ok r) {f : Func} (hf : f ∈ m.funcs)
    {x : Idx} (hx : Occurs (.globalSet x) f.body) : ∃ t, (globalSpace m)[x.toNat]? = some t ∧ t.mt = .var := by
  obtain ⟨⟨_, ha⟩, _⟩ := validate_any_iff.mp h
  obtain ⟨t, _, hs⟩ := accepted_seen (ha f hf)
  obtain ⟨d, hj⟩ := occursAt_iff.mp hx
  obtain ⟨c, c', _, hc, _, hv⟩ := hs _ d hj
  obtain ⟨_, _, _, _, e5, _⟩ := same_decls hc
  obtain ⟨g, c1, h1, h2⟩ := bindOk_inv (p := lookup c.globals x) hv
  refine ⟨g, e5 ▸ (lookup_ok h1).1, Classical.byContradiction fun hn => ?_⟩
  rw [if_pos hn] at h2
  cases h2

/-- A module that sets a global in unreachable code. -/
def setsGlobal (mt : Mut) : Module :=
  { types := [⟨[], []⟩], funcs := [⟨0, [], [.ret, .block [] [.constI32 0, .globalSet 0]]⟩], globals := [⟨⟨mt, .i32⟩, [.constI32 0]⟩] }

example : validateModule (setsGlobal .const) = .error .invalid ∧ validateModule (setsGlobal .var) = .ok ⟨[], []⟩ := by decide +kernel

/-! ## C51 -/

theorem leaves_any {C : Env} {i : Instr} (hi : Leaves i) {a b : List Val} (h : HasType C i a b) (b' : List Val) (t0 : List Val) :
    HasType C i (t0 ++ a) b' := by
  cases hi with
  | unreachable => exact .unreachable _ _
  | br l => cases h with | br _ _ h => rw [← List.append_assoc]; exact .br _ _ h
  | brTable ls l => cases h with | brTable _ _ h h' => rw [← List.append_assoc, ← List.append_assoc]; exact .brTable _ _ h h'
  | ret => cases h with | ret _ _ h => rw [← List.append_assoc]; exact .ret _ _ h

theorem leaves_split {C : Env} {i : Instr} (hi : Leaves i) {e1 e2 : List Instr} {a r : List Val} :
    HasTypes C (e1 ++ i :: e2) a r ↔ HasTypes C (e1 ++ [i]) a r ∧ ∃ ts, HasTypes C e2 ts r := by
  have split : ∀ {e1 : List Instr} {e2 : List Instr} {a r : List Val}, HasTypes C (e1 ++ e2) a r → ∃ b, HasTypes C e1 a b ∧ HasTypes C e2 b r := by
    intro e1
    induction e1 with
    | nil => exact fun h => ⟨_, .nil _, h⟩
    | cons j js ih =>
      intro e2 a r h
      obtain ⟨t0, x, y, rfl, h1, h2⟩ := hasTypes_cons.mp h
      obtain ⟨b, h3, h4⟩ := ih h2
      exact ⟨b, hasTypes_cons.mpr ⟨t0, x, y, rfl, h1, h3⟩, h4⟩
  constructor
  · intro h
    obtain ⟨b, h1, h2⟩ := split h
    obtain ⟨t0, x, y, rfl, h3, h4⟩ := hasTypes_cons.mp h2
    refine ⟨hasTypes_append h1 ?_, _, h4⟩
    exact hasTypes_single [] (leaves_any hi h3 r t0)
  · rintro ⟨h, ts, h'⟩
    obtain ⟨b, h1, h2⟩ := split h
    obtain ⟨t0, x, y, rfl, h3, h4⟩ := hasTypes_cons.mp h2
    refine hasTypes_append h1 (hasTypes_cons.mpr ⟨[], t0 ++ x, ts, rfl, leaves_any hi h3 ts t0, h'⟩)

/-- **C51.** In any block, at any point of validation: code after an instruction that does not continue is accepted exactly if the code up
to there is, and the rest is well typed for *some* operands `ts` on the stack. -/
theorem C51_polymorphic {c : Ctx} {f : Frame} {outer : List Frame} (hf : c.frames = f :: outer) (hh : f.height ≤ c.operands.length)
    (r : RetVal) {e1 e2 : List Instr} {i : Instr} (hi : Leaves i)
    (hm : ¬ Occurs .endMark (e1 ++ i :: e2) ∧ ¬ Occurs .elseMark (e1 ++ i :: e2)) :
    (∃ c', validateInstr (.block r (e1 ++ i :: e2)) c = .ok ((), c')) ↔
      (∃ c', validateInstr (.block r (e1 ++ [i])) c = .ok ((), c')) ∧
      ∃ ts, HasTypes { viewOf c with labels := r :: (viewOf c).labels } e2 ts r := by
  have hp := plain_iff.mpr hm
  have hp' : plainL (e1 ++ [i]) := by
    refine plain_iff.mpr ⟨fun ho => hm.1 ?_, fun ho => hm.2 ?_⟩
    all_goals
      obtain ⟨d, ho⟩ := occursAt_iff.mp ho
      exact occursAt_iff.mpr ⟨d, occursAt_mono ho fun j hj => by
        rcases List.mem_append.mp hj with h | h
        · exact List.mem_append_left _ h
        · obtain rfl := List.mem_singleton.mp h; exact List.mem_append_right _ List.mem_cons_self⟩
  rw [block_iff hf hh r hp, block_iff hf hh r hp', leaves_split hi]

/-- **C51, function bodies.** -/
theorem C51_function {m : Module} (hd : DeclsOk .code m) {f : Func} (hfs : m.funcs = [f]) {e1 e2 : List Instr} {i : Instr} (hi : Leaves i)
    (hb : f.body = e1 ++ i :: e2) (hm : ¬ Occurs .endMark f.body ∧ ¬ Occurs .elseMark f.body) :
    (∃ r, validateModule m = .ok r) ↔ ∃ t, m.types[f.ty.toNat]? = some t ∧
      HasTypes (bodyEnv .code m t f.locals) (e1 ++ [i]) [] t.results ∧ ∃ ts, HasTypes (bodyEnv .code m t f.locals) e2 ts t.results := by
  have hn : NoMarks m := by rw [NoMarks, hfs]; simpa using hm
  constructor
  · rintro ⟨r, h⟩
    obtain ⟨hv, _⟩ := (validate_ok_iff (plain_of_noMarks hn)).mp h
    obtain ⟨t, ht, h⟩ := hv.funcs f (by simp [hfs])
    rw [hb] at h
    exact ⟨t, ht, (leaves_split hi).mp h⟩
  · rintro ⟨t, ht, h⟩
    refine ⟨_, ok_of_valid ⟨hd, fun g hg => ?_⟩⟩
    rw [hfs] at hg
    obtain rfl := List.mem_singleton.mp hg
    refine ⟨t, ht, ?_⟩
    rw [hb]
    exact (leaves_split hi).mpr h

-- `i32.add` may assume two operands; but an `f32` it is given is one too many, and the result has to be an `i32`
example : validateModule { types := [⟨[], [.i32]⟩], funcs := [⟨0, [], [.unreachable, .num .i32Add]⟩] } = .ok ⟨[], []⟩ ∧
    validateModule { types := [⟨[], [.i32]⟩], funcs := [⟨0, [], [.constF32 0, .ret, .num .i32Add]⟩] } = .error .invalid ∧
    validateModule { types := [⟨[], [.i32]⟩], funcs := [⟨0, [], [.unreachable, .constF32 0, .num .i32Add]⟩] } = .error .invalid ∧
    validateModule { types := [⟨[], [.i32]⟩], funcs := [⟨0, [], [.unreachable, .num .i64Add]⟩] } = .error .invalid ∧
    validateModule { types := [⟨[], [.i32]⟩], funcs := [⟨0, [], [.unreachable, .constF32 0, .select, .drop]⟩] } = .error .invalid ∧
    validateModule { types := [⟨[], [.i32]⟩], funcs := [⟨0, [], [.unreachable, .select, .drop]⟩] } = .ok ⟨[], []⟩ := by decide +kernel

end Whasm
