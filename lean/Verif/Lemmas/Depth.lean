import Verif.Spec.Depth
import Verif.Lemmas.Typing

/-!
# Typing and occurrences
-/

namespace Whasm
open Spec

theorem occursAt_iff {j : Instr} {e : List Instr} : Occurs j e ↔ ∃ d, OccursAt j d e := by
  constructor
  · intro h
    induction h with
    | here h => exact ⟨_, .here h⟩
    | block h _ ih => obtain ⟨d, ih⟩ := ih; exact ⟨_, .block h ih⟩
    | loop h _ ih => obtain ⟨d, ih⟩ := ih; exact ⟨_, .loop h ih⟩
    | thn h _ ih => obtain ⟨d, ih⟩ := ih; exact ⟨_, .thn h ih⟩
    | els h _ ih => obtain ⟨d, ih⟩ := ih; exact ⟨_, .els h ih⟩
  · rintro ⟨d, h⟩
    induction h with
    | here h => exact .here h
    | block h _ ih => exact .block h ih
    | loop h _ ih => exact .loop h ih
    | thn h _ ih => exact .thn h ih
    | els h _ ih => exact .els h ih

theorem occursAt_mono {j : Instr} {d : Nat} {e e' : List Instr} (h : OccursAt j d e) (hs : ∀ i ∈ e, i ∈ e') : OccursAt j d e' := by
  cases h with
  | here h => exact .here (hs _ h)
  | block h h' => exact .block (hs _ h) h'
  | loop h h' => exact .loop (hs _ h) h'
  | thn h h' => exact .thn (hs _ h) h'
  | els h h' => exact .els (hs _ h) h'

theorem hasTypes_mem {C : Env} {i : Instr} : ∀ {e : List Instr} {a b : List Val}, HasTypes C e a b → i ∈ e → ∃ a' b', HasType C i a' b'
  | _, _, _, .nil _, h => by cases h
  | _, _, _, .snoc h1 h2, h => by
    have ih := hasTypes_mem (i := i) h1
    rcases List.mem_append.mp h with h | h
    · exact ih h
    · obtain rfl := List.mem_singleton.mp h
      exact ⟨_, _, h2⟩

/-- Whatever occurs in a well-typed expression is well typed, with as many additional labels as blocks around it. -/
theorem occurs_typed {j : Instr} {d : Nat} {e : List Instr} (ho : OccursAt j d e) : ∀ {C : Env} {a b : List Val}, HasTypes C e a b →
    ∃ L a' b', L.length = d ∧ HasType { C with labels := L ++ C.labels } j a' b' := by
  have step : ∀ {C : Env} {r : List Val} {d : Nat}, (∃ L a' b', L.length = d ∧ HasType { C with labels := L ++ (r :: C.labels) } j a' b') →
      ∃ L a' b', L.length = d + 1 ∧ HasType { C with labels := L ++ C.labels } j a' b' := by
    rintro C r d ⟨L, a', b', hl, h⟩
    refine ⟨L ++ [r], a', b', by simp [hl], ?_⟩
    rw [List.append_assoc]
    exact h
  induction ho with
  | here h =>
    intro C a b ht
    obtain ⟨a', b', h'⟩ := hasTypes_mem ht h
    exact ⟨[], a', b', rfl, h'⟩
  | block h _ ih =>
    intro C a b ht
    obtain ⟨a', b', h'⟩ := hasTypes_mem ht h
    cases h' with
    | block h' => exact step (ih h')
  | loop h _ ih =>
    intro C a b ht
    obtain ⟨a', b', h'⟩ := hasTypes_mem ht h
    cases h' with
    | loop h' => exact step (ih h')
  | thn h _ ih =>
    intro C a b ht
    obtain ⟨a', b', h'⟩ := hasTypes_mem ht h
    cases h' with
    | ifElse h1 h2 => exact step (ih h1)
  | els h _ ih =>
    intro C a b ht
    obtain ⟨a', b', h'⟩ := hasTypes_mem ht h
    cases h' with
    | ifElse h1 h2 => exact step (ih h2)

/-- Not a block. -/
def flatI : Instr → Prop
  | .block _ _ => False
  | .loop _ _ => False
  | .ifElse _ _ _ => False
  | _ => True

section
variable {P : Nat → Instr → Prop} {C C' : Env} {M M' : List (List Val)}
  (base : ∀ (L : List (List Val)) (i : Instr) (a b : List Val), flatI i → P L.length i → HasType { C with labels := L ++ M } i a b →
    HasType { C' with labels := L ++ M' } i a b)
include base

set_option linter.unusedSectionVars false in
mutual

/-- Typing in another context, if that works for all instructions that are not blocks. -/
theorem transfer_instr : ∀ {D : Env} {i : Instr} {a b : List Val}, HasType D i a b → ∀ L : List (List Val), D = { C with labels := L ++ M } →
    (∀ j d, OccursAt j d [i] → P (L.length + d) j) → HasType { C' with labels := L ++ M' } i a b
  | _, _, _, _, .block (r := r) h, L, hD, hP => by
    refine .block (transfer_expr h (r :: L) (by rw [hD]; rfl) fun j d hj => ?_)
    have := hP j _ (.block List.mem_cons_self hj)
    rwa [List.length_cons, Nat.add_right_comm]
  | _, _, _, _, .loop (r := r) h, L, hD, hP => by
    refine .loop (transfer_expr h ([] :: L) (by rw [hD]; rfl) fun j d hj => ?_)
    have := hP j _ (.loop List.mem_cons_self hj)
    rwa [List.length_cons, Nat.add_right_comm]
  | _, _, _, _, .ifElse (r := r) h1 h2, L, hD, hP => by
    refine .ifElse (transfer_expr h1 (r :: L) (by rw [hD]; rfl) fun j d hj => ?_) (transfer_expr h2 (r :: L) (by rw [hD]; rfl) fun j d hj => ?_)
    · have := hP j _ (.thn List.mem_cons_self hj)
      rwa [List.length_cons, Nat.add_right_comm]
    · have := hP j _ (.els List.mem_cons_self hj)
      rwa [List.length_cons, Nat.add_right_comm]
  | _, _, _, _, .constI32, L, hD, hP => .constI32
  | _, _, _, _, .constI64, L, hD, hP => .constI64
  | _, _, _, _, .constF32, L, hD, hP => .constF32
  | _, _, _, _, .constF64, L, hD, hP => .constF64
  | _, _, _, _, .num, L, hD, hP => .num
  | _, _, _, _, .drop t, L, hD, hP => .drop t
  | _, _, _, _, .select t, L, hD, hP => .select t
  | _, _, _, _, .nop, L, hD, hP => .nop
  | _, _, _, _, .unreachable _ _, L, hD, hP => .unreachable _ _
  | _, _, _, _, .localGet h, L, hD, hP => base L _ _ _ trivial (hP _ 0 (.here List.mem_cons_self)) (hD ▸ .localGet h)
  | _, _, _, _, .localSet h, L, hD, hP => base L _ _ _ trivial (hP _ 0 (.here List.mem_cons_self)) (hD ▸ .localSet h)
  | _, _, _, _, .localTee h, L, hD, hP => base L _ _ _ trivial (hP _ 0 (.here List.mem_cons_self)) (hD ▸ .localTee h)
  | _, _, _, _, .globalGet h, L, hD, hP => base L _ _ _ trivial (hP _ 0 (.here List.mem_cons_self)) (hD ▸ .globalGet h)
  | _, _, _, _, .globalSet h h', L, hD, hP => base L _ _ _ trivial (hP _ 0 (.here List.mem_cons_self)) (hD ▸ .globalSet h h')
  | _, _, _, _, .load h h', L, hD, hP => base L _ _ _ trivial (hP _ 0 (.here List.mem_cons_self)) (hD ▸ .load h h')
  | _, _, _, _, .store h h', L, hD, hP => base L _ _ _ trivial (hP _ 0 (.here List.mem_cons_self)) (hD ▸ .store h h')
  | _, _, _, _, .memSize h, L, hD, hP => base L _ _ _ trivial (hP _ 0 (.here List.mem_cons_self)) (hD ▸ .memSize h)
  | _, _, _, _, .memGrow h, L, hD, hP => base L _ _ _ trivial (hP _ 0 (.here List.mem_cons_self)) (hD ▸ .memGrow h)
  | _, _, _, _, .br _ _ h, L, hD, hP => base L _ _ _ trivial (hP _ 0 (.here List.mem_cons_self)) (hD ▸ .br _ _ h)
  | _, _, _, _, .brIf h, L, hD, hP => base L _ _ _ trivial (hP _ 0 (.here List.mem_cons_self)) (hD ▸ .brIf h)
  | _, _, _, _, .brTable _ _ h h', L, hD, hP => base L _ _ _ trivial (hP _ 0 (.here List.mem_cons_self)) (hD ▸ .brTable _ _ h h')
  | _, _, _, _, .ret _ _ h, L, hD, hP => base L _ _ _ trivial (hP _ 0 (.here List.mem_cons_self)) (hD ▸ .ret _ _ h)
  | _, _, _, _, .call h, L, hD, hP => base L _ _ _ trivial (hP _ 0 (.here List.mem_cons_self)) (hD ▸ .call h)
  | _, _, _, _, .callIndirect h h' h'', L, hD, hP =>
    base L _ _ _ trivial (hP _ 0 (.here List.mem_cons_self)) (hD ▸ .callIndirect h h' h'')

theorem transfer_expr : ∀ {D : Env} {e : List Instr} {a b : List Val}, HasTypes D e a b → ∀ L : List (List Val), D = { C with labels := L ++ M } →
    (∀ j d, OccursAt j d e → P (L.length + d) j) → HasTypes { C' with labels := L ++ M' } e a b
  | _, _, _, _, .nil _, _, _, _ => .nil _
  | _, _, _, _, .snoc h1 h2, L, hD, hP =>
    .snoc (transfer_expr h1 L hD fun j d hj => hP j d (occursAt_mono hj fun _ => List.mem_append_left _))
      (transfer_instr h2 L hD fun j d hj => hP j d (occursAt_mono hj fun _ => List.mem_append_right _))

end
end

/-- All entries of `C` are in `C'`. -/
structure EnvLe (C C' : Env) : Prop where
  types : ∀ {n : Nat} {t}, C.types[n]? = some t → C'.types[n]? = some t
  funcs : ∀ {n : Nat} {t}, C.funcs[n]? = some t → C'.funcs[n]? = some t
  tables : ∀ {n : Nat} {t}, C.tables[n]? = some t → C'.tables[n]? = some t
  mems : ∀ {n : Nat} {t}, C.mems[n]? = some t → C'.mems[n]? = some t
  globals : ∀ {n : Nat} {t}, C.globals[n]? = some t → C'.globals[n]? = some t
  locals : ∀ {n : Nat} {t}, C.locals[n]? = some t → C'.locals[n]? = some t
  ret : ∀ {r}, C.ret = some r → C'.ret = some r

/-- The general form of the lemmas below: more entries; labels as far as needed; alignment where it is checked. -/
theorem transfer {C C' : Env} (hle : EnvLe C C') {M M' : List (List Val)} {e : List Instr} {a b : List Val}
    (h : HasTypes { C with labels := M } e a b)
    (hl : ∀ j d, OccursAt j d e → ∀ l ∈ branchTargets j, ∀ r, d ≤ l.toNat → M[l.toNat - d]? = some r → M'[l.toNat - d]? = some r)
    (ha : C'.aligned = true → C.aligned = true ∨ ∀ j d, OccursAt j d e → AlignOk j) : HasTypes { C' with labels := M' } e a b := by
  let P : Nat → Instr → Prop := fun n j =>
    (∀ l ∈ branchTargets j, ∀ r, n ≤ l.toNat → M[l.toNat - n]? = some r → M'[l.toNat - n]? = some r) ∧
    (C'.aligned = true → C.aligned = true ∨ AlignOk j)
  refine transfer_expr (P := P) (C := C) (C' := C') (M := M) (M' := M') ?_ h [] rfl fun j d hj => ⟨?_, ?_⟩
  · intro L i a b hf hP ht
    have hlab : ∀ l ∈ branchTargets i, ∀ r, (L ++ M)[l.toNat]? = some r → (L ++ M')[l.toNat]? = some r := by
      intro l hl' r hr
      rcases Nat.lt_or_ge l.toNat L.length with hlt | hge
      · rw [List.getElem?_append_left hlt] at hr ⊢
        exact hr
      · rw [List.getElem?_append_right hge] at hr ⊢
        exact hP.1 l hl' r hge hr
    have hal := hP.2
    cases ht with
    | constI32 => exact .constI32
    | constI64 => exact .constI64
    | constF32 => exact .constF32
    | constF64 => exact .constF64
    | num => exact .num
    | drop t => exact .drop t
    | select t => exact .select t
    | nop => exact .nop
    | unreachable _ _ => exact .unreachable _ _
    | localGet h => exact .localGet (hle.locals h)
    | localSet h => exact .localSet (hle.locals h)
    | localTee h => exact .localTee (hle.locals h)
    | globalGet h => exact .globalGet (hle.globals h)
    | globalSet h h' => exact .globalSet (hle.globals h) h'
    | load h h' =>
      refine .load (hle.mems h) fun hc => ?_
      rcases hal hc with hc' | hok
      · exact h' hc'
      · rename_i op al off m
        cases op <;> exact hok
    | store h h' =>
      refine .store (hle.mems h) fun hc => ?_
      rcases hal hc with hc' | hok
      · exact h' hc'
      · rename_i op al off m
        cases op <;> exact hok
    | memSize h => exact .memSize (hle.mems h)
    | memGrow h => exact .memGrow (hle.mems h)
    | br _ _ h => exact .br _ _ (hlab _ (by simp [branchTargets]) _ h)
    | brIf h => exact .brIf (hlab _ (by simp [branchTargets]) _ h)
    | brTable _ _ h h' =>
      exact .brTable _ _ (fun x hx => hlab x (by simp [branchTargets, hx]) _ (h x hx)) (hlab _ (by simp [branchTargets]) _ h')
    | ret _ _ h => exact .ret _ _ (hle.ret h)
    | call h => exact .call (hle.funcs h)
    | callIndirect h h' h'' => exact .callIndirect (hle.tables h) h' (hle.types h'')
    | block | loop | ifElse => exact hf.elim
  · intro l hl' r hr
    simp only [List.length_nil, Nat.zero_add] at hr ⊢
    exact hl j d hj l hl' r hr
  · intro hc
    rcases ha hc with h' | h'
    · exact .inl h'
    · exact .inr (h' j d hj)

theorem EnvLe.refl (C : Env) : EnvLe C C := ⟨id, id, id, id, id, id, id⟩

end Whasm
