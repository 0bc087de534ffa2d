import Verif.Spec.Instantiate

/-!
# More fuel does not change a result
-/

namespace Whasm.Run
open Spec

/-- The same outcome, unless the first one is a timeout. -/
def Le (a b : Outcome) : Prop := a = .timeout ∨ a = b

theorem Le.refl (a : Outcome) : Le a a := .inr rfl

theorem execs_le {f g : Instr → Conf → Outcome} (h : ∀ i c, Le (f i c) (g i c)) : ∀ is c, Le (execs f is c) (execs g is c)
  | [], c => .inr rfl
  | i :: is, c => by
    rw [execs, execs]
    rcases h i c with h1 | h1
    · rw [h1]; exact .inl rfl
    · rw [h1]
      cases g i c with
      | normal c' => exact execs_le h is c'
      | _ => exact .inr rfl

theorem leave_le {r : List Val} {s : List Value} {a b : Outcome} (h : Le a b) : Le (leave r s a) (leave r s b) := by
  rcases h with rfl | rfl
  · exact .inl rfl
  · exact .inr rfl

theorem leaveFunc_le {t : FuncTy} {c : Conf} {a b : Outcome} (h : Le a b) : Le (leaveFunc t c a) (leaveFunc t c b) := by
  rcases h with rfl | rfl
  · exact .inl rfl
  · exact .inr rfl

theorem call_le {M : Machine} {f g : Instr → Conf → Outcome} (h : ∀ i c, Le (f i c) (g i c)) (fi : FuncInst) (c : Conf) :
    Le (call M f fi c) (call M g fi c) := by
  unfold call
  cases popArgs fi.type.params c.stack with
  | none => exact .inr rfl
  | some p =>
    cases fi with
    | own t f => exact leaveFunc_le (execs_le h _ _)
    | host t id => exact .inr rfl

theorem popI32_le {c : Conf} {f g : BitVec 32 → Conf → Outcome} (h : ∀ v c, Le (f v c) (g v c)) : Le (popI32 c f) (popI32 c g) := by
  unfold popI32
  split
  · exact h _ _
  · exact .inr rfl

theorem exec_le (M : Machine) : ∀ n i c, Le (exec M n i c) (exec M (n + 1) i c) := by
  intro n
  induction n with
  | zero => intro i c; exact .inl rfl
  | succ n ih =>
    intro i c
    cases i with
    | block r body => exact leave_le (execs_le ih _ _)
    | loop r body =>
      rw [exec, exec]
      rcases execs_le ih body { c with stack := [] } with h | h
      · rw [h]; exact .inl rfl
      · rw [h]
        cases execs (exec M (n + 1)) body { c with stack := [] } with
        | br l c' =>
          cases l with
          | zero => exact ih _ _
          | succ l => exact .inr rfl
        | _ => exact .inr rfl
    | ifElse r thn els =>
      rw [exec, exec]
      exact popI32_le fun b c => leave_le (execs_le ih _ _)
    | call x =>
      rw [exec, exec]
      cases M.funcs[x.toNat]? with
      | none => exact .inr rfl
      | some fi => exact call_le ih fi c
    | callIndirect x y =>
      rw [exec, exec]
      cases c.store.tables[y.toNat]? with
      | none => exact .inr rfl
      | some tb =>
        cases M.types[x.toNat]? with
        | none => exact .inr rfl
        | some t =>
          refine popI32_le fun k c => ?_
          split
          · split
            · split
              · exact call_le ih _ _
              · exact .inr rfl
            · exact .inr rfl
          · exact .inr rfl
    | _ => exact .inr rfl

theorem exec_le_add (M : Machine) (n : Nat) (i : Instr) (c : Conf) : ∀ k, Le (exec M n i c) (exec M (n + k) i c)
  | 0 => .inr rfl
  | k + 1 => by
    rcases exec_le_add M n i c k with h | h
    · exact .inl h
    · rcases exec_le M (n + k) i c with h' | h'
      · exact .inl (h.trans h')
      · exact .inr (h.trans h')

theorem invoke_fuel {M : Machine} {n k a : Nat} {args : List Value} {st : Store} (h : invoke M n a args st ≠ .timeout) :
    invoke M (n + k) a args st = invoke M n a args st := by
  unfold invoke at *
  cases hf : M.funcs[a]? with
  | none => rfl
  | some fi =>
    simp only [hf] at h ⊢
    rcases call_le (M := M) (fun i c => exec_le_add M n i c k) fi ⟨st, [], args.reverse⟩ with h1 | h1
    · rw [h1] at h; exact (h rfl).elim
    · rw [h1]

end Whasm.Run
