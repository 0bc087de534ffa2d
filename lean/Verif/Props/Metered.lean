import Verif.Lemmas.MeteredPeak
import Verif.Lemmas.DecEq
import Verif.Props.Encode
import Verif.Props.Exact

/-!
# C76, C77: what validation costs

C76: the time of validation is at most proportional to the size of the module,

`∃ k, ∀ m, BlockResults 1 m → (Meter.validateModule m).steps ≤ k * (bulk m + 1)`.

This is false, even for valid modules: `C76_negation`. What is proved is that the factor is the largest number of parameters of a type.

C77: the context is never larger than proportional to the size of the module.
-/

namespace Whasm
open Spec

/-- Two functions, blocks, a global, a table with an element segment, a memory with data. -/
def costly : Module :=
  { types := [⟨[.i32, .i64], [.i32]⟩, ⟨[], []⟩]
    funcs := [⟨0, [.f32, .f32], [.block [.i32] [.localGet 0, .localGet 0, .brTable [0, 0] 0], .drop, .localGet 0, .localGet 1, .call 0]⟩, ⟨1, [], [.loop [] [.nop]]⟩]
    tables := [⟨⟨⟨2, none⟩, .funcRef⟩⟩]
    mems := [⟨⟨⟨1, none⟩⟩⟩]
    globals := [⟨⟨.const, .i32⟩, [.constI32 7]⟩]
    elem := [⟨0, [.constI32 0], [1, 0]⟩]
    data := [⟨0, [.constI32 0], [0x61]⟩]
    start := some ⟨1⟩
    exports := [⟨[0x66], .func 0⟩] }

/-! ## C76 -/

/-- **C76, the count, partial.** The validator that counts gives the verdicts and results of the validator. -/
theorem C76_same_partial (m : Module) : validateModule m = match (Meter.validateModule m).out with | .ok (r, _) => .ok r | .error e => .error e :=
  Meter.erases_module m

example : validateModule costly = .ok ⟨[], [.func ⟨[.i32, .i64], [.i32]⟩]⟩ ∧ (Meter.validateModule costly).steps = 94 ∧ bulk costly = 34 := by decide +kernel

/-- **C76, any module, partial.** With at most `w` parameters in types and `r` results in block types, each part of the module costs at most `w + 3 r + 10` steps,
whether or not the module is valid. Missing for C76: a number that does not depend on `w`, see `C76_negation`. -/
theorem C76_width_partial {m : Module} {w r : Nat} (hw : ∀ t ∈ m.types, t.params.length ≤ w) (hr : 1 ≤ r) (h : BlockResults r m) :
    (Meter.validateModule m).steps ≤ bulk m * (w + 3 * r + 10) :=
  (Meter.module_le hw hr h).1

example : (Meter.validateModule costly).steps ≤ 34 * 15 := by decide +kernel

/-- The same for a module with a type error in the first of two functions. -/
example : (Meter.validateModule { types := [⟨[.i32], [.i32]⟩], funcs := [⟨0, [], [.nop]⟩, ⟨0, [.i32], [.localGet 0]⟩] }).steps = 11 ∧
    validateModule { types := [⟨[.i32], [.i32]⟩], funcs := [⟨0, [], [.nop]⟩, ⟨0, [.i32], [.localGet 0]⟩] } = .error .invalid := by decide +kernel

/-- **C76, what is read, partial.** Whatever can be parsed, from `n` bytes, with `l` local variables in all functions together and at most `w` parameters in a type: at
most `(n + l) (w + 13)` steps. -/
theorem C76_bytes_partial {s rest : List Byte} {m : Module} {w : Nat} (h : parseModule s = (.ok m, rest)) (hw : ∀ t ∈ m.types, t.params.length ≤ w) :
    (Meter.validateModule m).steps ≤ (s.length + localsOf m) * (w + 13) := by
  have hb := flats_of_encodable ((C27_exact m).mp ⟨s, rest, h⟩)
  have hl := bulk_le_length hb
  have hs := C27_shortest h
  exact Nat.le_trans (C76_width_partial hw (Nat.le_refl 1) hb) (Nat.mul_le_mul_right _ (by omega))

/-- **C76, quadratic, partial.** The time is at most quadratic in the number of bytes and local variables. -/
theorem C76_quadratic_partial {s rest : List Byte} {m : Module} (h : parseModule s = (.ok m, rest)) :
    (Meter.validateModule m).steps ≤ (s.length + localsOf m) * (s.length + 13) := by
  have hs := C27_shortest h
  refine C76_bytes_partial h fun t ht => ?_
  exact Nat.le_trans (params_length ht) hs


/-- **C76, accepted modules, partial.** Each function costs as many steps as it has parameters and local variables, whether it uses them or not. -/
theorem C76_lower_partial {m : Module} {r : ModuleResult} (h : validateModule m = .ok r) : total (slots m.types) m.funcs ≤ (Meter.validateModule m).steps :=
  module_slots h

example : total (slots costly.types) costly.funcs = 4 := by decide

/-- One type with `n` parameters, and `n` functions of that type that do nothing. -/
def wideModule (n : Nat) : Module := { types := [⟨List.replicate n .i32, []⟩], funcs := List.replicate n ⟨0, [], []⟩ }

theorem wide_valid (n : Nat) : validateModule (wideModule n) = .ok ⟨[], []⟩ := by
  refine ok_of_valid ⟨?_, fun f hf => ?_⟩
  · constructor <;> simp [Rules.code, importedTables, importedMems, wideModule]
  · obtain rfl := List.eq_of_mem_replicate hf
    exact ⟨⟨List.replicate n .i32, []⟩, rfl, .nil []⟩

theorem total_replicate {α : Type} (f : α → Nat) (x : α) : ∀ n : Nat, total f (List.replicate n x) = n * f x
  | 0 => (Nat.zero_mul _).symm
  | n + 1 => by
    rw [List.replicate_succ]
    show f x + total f (List.replicate n x) = _
    rw [total_replicate f x n, Nat.succ_mul, Nat.add_comm]

theorem wide_steps (n : Nat) : n * n ≤ (Meter.validateModule (wideModule n)).steps := by
  refine Nat.le_trans (Nat.le_of_eq ?_) (C76_lower_partial (wide_valid n))
  show _ = total (slots [⟨List.replicate n .i32, []⟩]) (List.replicate n (⟨0, [], []⟩ : Func))
  rw [total_replicate]
  show _ = n * ((List.replicate n Val.i32).length + 0)
  rw [List.length_replicate, Nat.add_zero]

theorem wide_bulk (n : Nat) : bulk (wideModule n) = 2 * n + 1 := by
  unfold bulk wideModule
  dsimp only
  rw [total_replicate]
  show (1 + (List.replicate n Val.i32).length + 0 + 0) + n * 1 + 0 + 0 + 0 + 0 + 0 + 0 + 0 + 0 = _
  rw [List.length_replicate]
  omega

theorem flatMap_replicate_length {α : Type} (enc : α → List Byte) (x : α) (n : Nat) : ((List.replicate n x).flatMap enc).length = n * (enc x).length := by
  rw [flatMap_total, total_replicate]

theorem wide_contents {n : Nat} (h : n < 2 ^ 28) : (contents (wideModule n)).types.length ≤ n + 8 ∧ (contents (wideModule n)).tys.length ≤ n + 5 ∧
    (contents (wideModule n)).code.length ≤ 3 * n + 5 := by
  have h5 := encU_five (n := n) (by omega)
  have e1 : ∀ k, k < 128 → (encU k).length ≤ 1 := fun k hk => (encU_length_le k 0).mpr (by omega)
  refine ⟨?_, ?_, ?_⟩
  · show (encU 1 ++ ((0x60 :: (encU (List.replicate n Val.i32).length ++ (List.replicate n Val.i32).flatMap encVal) ++ (encU 0 ++ [])) ++ [])).length ≤ _
    have a := e1 1 (by omega)
    have b := e1 0 (by omega)
    have c := flatMap_replicate_length encVal Val.i32 n
    rw [encVal_length, Nat.mul_one] at c
    simp only [List.length_append, List.length_cons, List.length_nil, List.length_replicate, c]
    omega
  · show (encU ((List.replicate n (⟨0, [], []⟩ : Func)).map (·.ty)).length ++ ((List.replicate n (⟨0, [], []⟩ : Func)).map (·.ty)).flatMap encIdx).length ≤ _
    have a := e1 0 (by omega)
    rw [List.map_replicate, List.length_replicate, List.length_append, flatMap_replicate_length]
    have c : n * (encIdx 0).length ≤ n * 1 := Nat.mul_le_mul_left n a
    dsimp only
    omega
  · show (encU ((List.replicate n (⟨0, [], []⟩ : Func)).map fun f => (f.locals, f.body)).length ++
      ((List.replicate n (⟨0, [], []⟩ : Func)).map fun f => (f.locals, f.body)).flatMap fun f => encSized (encFunc f)).length ≤ _
    have a : (encSized (encFunc (([] : List Val), ([] : Expr)))).length ≤ 3 := by
      have h0 : (encFunc (([] : List Val), ([] : Expr))).length ≤ 2 := by
        show ((encU 0 ++ []) ++ [0x0B]).length ≤ 2
        have := e1 0 (by omega)
        simp only [List.length_append, List.length_cons, List.length_nil]
        omega
      have := e1 _ (Nat.lt_of_le_of_lt h0 (by omega))
      unfold encSized
      rw [List.length_append]
      omega
    rw [List.map_replicate, List.length_replicate, List.length_append, flatMap_replicate_length]
    have c := Nat.mul_le_mul_left n a
    dsimp only at c ⊢
    omega

theorem no_occurs {P : Prop} {j : Instr} (h : Occurs j []) : P := by
  cases h with
  | here h => cases h
  | block h _ => cases h
  | loop h _ => cases h
  | thn h _ => cases h
  | els h _ => cases h

theorem encodable_wide {D : Dialect} (hD : D.locals 0) {n : Nat} (h : n < 2 ^ 28) : Encodable D (wideModule n) := by
  obtain ⟨h1, h2, h3⟩ := wide_contents h
  have h0 : ∀ {α : Type} (enc : α → List Byte), (encVec enc []).length < 2 ^ 32 := fun enc => by
    have := (encU_length_le 0 0).mpr (by omega)
    show (encU 0 ++ []).length < _
    rw [List.append_nil]
    omega
  refine ⟨fun i hi => (by cases hi), fun i hi => (by cases hi), fun e he i hi => ?_, fun f hf => ?_, by omega, h0 _, by omega, h0 _, h0 _, h0 _, h0 _, h0 _, by omega, h0 _⟩
  · have : e = [] := by
      simp [exprsOf, wideModule] at he
      exact he.2
    subst this
    exact no_occurs hi
  · obtain rfl := List.eq_of_mem_replicate hf
    exact hD

theorem length_wide {n : Nat} (h : n < 2 ^ 28) : (encModule (wideModule n)).length ≤ 5 * n + 44 := by
  obtain ⟨h1, h2, h3⟩ := wide_contents h
  have s : ∀ (id : Byte) {α : Type} (xs : List α) {c : List Byte}, c.length < 2 ^ 32 → (encSection id xs c).length ≤ c.length + 6 := fun id α xs c hc => by
    have := encU_five hc
    unfold encSection encSized
    split
    · exact Nat.zero_le _
    · rw [List.length_cons, List.length_append]; omega
  have a := s 0x01 (wideModule n).types (c := (contents (wideModule n)).types) (by omega)
  have b := s 0x03 (wideModule n).funcs (c := (contents (wideModule n)).tys) (by omega)
  have c := s 0x0A (wideModule n).funcs (c := (contents (wideModule n)).code) (by omega)
  have h6 : encModule (wideModule n) = [0x00, 0x61, 0x73, 0x6D, 0x01, 0x00, 0x00, 0x00] ++
      encSection 0x01 (wideModule n).types (contents (wideModule n)).types ++ encSection 0x03 (wideModule n).funcs (contents (wideModule n)).tys ++
      encSection 0x0A (wideModule n).funcs (contents (wideModule n)).code := by
    have e : ∀ (id : Byte) {α : Type} (c : List Byte), encSection id ([] : List α) c = [] := fun _ _ _ => rfl
    show [0x00, 0x61, 0x73, 0x6D, 0x01, 0x00, 0x00, 0x00] ++ _ ++ encSection 0x02 [] _ ++ _ ++ encSection 0x04 [] _ ++ encSection 0x05 [] _ ++ encSection 0x06 [] _ ++
      encSection 0x07 [] _ ++ [] ++ encSection 0x09 [] _ ++ _ ++ encSection 0x0B [] _ = _
    simp only [e, List.append_nil]
  rw [h6]
  simp only [List.length_append, List.length_cons, List.length_nil]
  omega

/-- **C76 does not hold.** No constant number of steps per part is enough, not even for modules that are valid by the document. And for each `n` below 2^28 there is an
input of at most `5 n + 44` bytes, well-formed and valid, that is parsed to a module with `2 n + 1` parts and no local variables, whose validation takes `n²` steps. -/
theorem C76_negation : (∀ k, ∃ m, BlockResults 1 m ∧ Valid .w3c m ∧ (∃ r, validateModule m = .ok r) ∧ k * (bulk m + 1) < (Meter.validateModule m).steps) ∧
    ∀ n, n < 2 ^ 28 → ∃ s m, s.length ≤ 5 * n + 44 ∧ GModule .w3c s m ∧ Valid .w3c m ∧ parseModule s = (.ok m, []) ∧ bulk m = 2 * n + 1 ∧ localsOf m = 0 ∧
      (∃ r, validateModule m = .ok r) ∧ n * n ≤ (Meter.validateModule m).steps := by
  have hno : ∀ n, ∀ e ∈ exprsOf (wideModule n), e = [] := fun n e he => by
    simp [exprsOf, wideModule] at he
    exact he.2
  have hvalid : ∀ n, Valid .w3c (wideModule n) := fun n => by
    refine (C48_exact (wide_valid n) ?_).mpr ⟨?_, fun g hg => (by cases hg), by simp [tableSpace, importedTables, wideModule], by simp [memSpace, importedMems, wideModule]⟩
    · intro f hf hj
      obtain rfl := List.eq_of_mem_replicate hf
      exact no_occurs hj
    · intro f hf j hj
      obtain rfl := List.eq_of_mem_replicate hf
      exact no_occurs hj
  refine ⟨fun k => ⟨wideModule (2 * k + 2), fun e he j hj => ?_, hvalid _, ⟨_, wide_valid _⟩, Nat.lt_of_lt_of_le ?_ (wide_steps _)⟩, fun n hn =>
    ⟨encModule (wideModule n), wideModule n, length_wide hn, (C27_w3c _).2 (encodable_wide (by simp [Dialect.w3c]) hn), hvalid n,
      C27_roundtrip (encodable_wide trivial hn), wide_bulk n, ?_, ⟨_, wide_valid n⟩, wide_steps n⟩⟩
  · rw [hno _ e he] at hj
    exact no_occurs hj
  · rw [wide_bulk]
    have e1 : (2 * k + 2) * (2 * k + 2) = k * (2 * (2 * k + 2) + 1 + 1) + (2 * (2 * k + 2) - 2 * k) := by
      rw [Nat.add_mul, Nat.mul_comm 2 k, Nat.mul_assoc, Nat.mul_add k, Nat.mul_add k]
      omega
    omega
  · unfold localsOf wideModule
    dsimp only
    rw [total_replicate]
    rfl

/-- Twice the size, up to three times the steps. -/
example : (Meter.validateModule (wideModule 3)).steps = 32 ∧ (Meter.validateModule (wideModule 6)).steps = 80 ∧ (Meter.validateModule (wideModule 12)).steps = 230 := by decide +kernel

/-! ## C77 -/

/-- **C77.** In validation of a module whose block types have at most `r` results, valid or not, the vectors of the context never have more than `r + 4` entries for each
part of the module, whatever the types of the functions. -/
theorem C77_linear {m : Module} {r : Nat} (hr : 1 ≤ r) (h : BlockResults r m) : (Meter.validateModule m).peak ≤ bulk m * (r + 4) := Meter.peak_le hr h

example : (Meter.validateModule costly).peak ≤ 34 * 5 := by decide +kernel

/-- **C77, what is read.** Whatever can be parsed: at most five entries for each byte and local variable. -/
theorem C77_bytes {s rest : List Byte} {m : Module} (h : parseModule s = (.ok m, rest)) : (Meter.validateModule m).peak ≤ (s.length + localsOf m) * 5 := by
  have hb := flats_of_encodable ((C27_exact m).mp ⟨s, rest, h⟩)
  have hl := bulk_le_length hb
  have hs := C27_shortest h
  exact Nat.le_trans (C77_linear (Nat.le_refl 1) hb) (Nat.mul_le_mul_right _ (by omega))

/-- The bytes of `costly`. -/
def costlyBytes : List Byte :=
  [0, 97, 115, 109, 1, 0, 0, 0, 1, 10, 2, 96, 2, 127, 126, 1, 127, 96, 0, 0, 3, 3, 2, 0, 1, 4, 4, 1, 112, 0, 2, 5, 3, 1,
   0, 1, 6, 6, 1, 127, 0, 65, 7, 11, 7, 5, 1, 1, 102, 0, 0, 8, 1, 1, 9, 8, 1, 0, 65, 0, 11, 2, 1, 0, 10, 32, 2, 23, 1, 2,
   125, 2, 127, 32, 0, 32, 0, 14, 2, 0, 0, 0, 11, 26, 32, 0, 32, 1, 16, 0, 11, 6, 0, 3, 64, 1, 11, 11, 11, 7, 1, 0, 65, 0, 11, 1, 97]

example : (parseModule costlyBytes).1 = .ok costly ∧ costlyBytes.length = 107 ∧ localsOf costly = 2 ∧ (Meter.validateModule costly).peak = 15 := by decide +kernel

/-- **C77, from below.** Of an accepted module, all types and all definitions and imports of the four index spaces are in the context at the same time, with the parameters and local variables of any one of the
functions and a frame for each of the blocks that are inside of each other, or with the own globals once more while their initializers are validated. -/
theorem C77_lower {m : Module} {r : ModuleResult} (h : validateModule m = .ok r) :
    (∀ f ∈ m.funcs, m.types.length + (funcSpace m).length + (tableSpace m).length + (memSpace m).length + (globalSpace m).length + slots m.types f + 1 + depthL f.body ≤
      (Meter.validateModule m).peak) ∧
    (m.globals ≠ [] → m.types.length + (funcSpace m).length + (tableSpace m).length + (memSpace m).length + (globalSpace m).length + m.globals.length + 1 ≤
      (Meter.validateModule m).peak) :=
  module_peak h

/-- In `costly`, two entries are missing in the bound: the operands of `br_table` inside of the block. -/
example : costly.types.length + (funcSpace costly).length + (tableSpace costly).length + (memSpace costly).length + (globalSpace costly).length = 7 ∧
    costly.funcs.map (fun f => slots costly.types f + 1 + depthL f.body) = [6, 2] ∧ (Meter.validateModule costly).peak = 15 := by decide +kernel

/-- With 70 blocks inside of each other there are 71 frames. -/
example : (Meter.validateModule { types := [⟨[], []⟩], funcs := [⟨0, [], (List.range 70).foldl (fun e _ => [.block [] e]) []⟩] }).peak = 73 := by decide +kernel

end Whasm
