import Verif.Lemmas.Rewrite
import Verif.Lemmas.DecEq

/-!
# Replacing code in function bodies: C81

Validation looks at a piece of code only through its types. So an optimiser that keeps types (dead code elimination, constant folding, the
usual local rules) never makes an accepted module rejected, and two pieces of code can stand for each other in all surroundings exactly if
they have the same types.
-/

namespace Whasm
open Spec

/-- **C81.** Rules for replacing code that keep types in all contexts of the module keep acceptance, and the types of imports and exports, if
applied any number of times in any functions at any depth. -/
theorem C81_rewrite {R : List Instr → List Instr → Prop} {m m' : Module} {r : ModuleResult} (h : validateModule m = .ok r) (he : NoElse m)
    (hR : ∀ ls lb rt x y, R x y → TypesIncl (codeEnv m ls lb rt) x y) (hm : RewritesModule R m m') : validateModule m' = .ok r := by
  obtain ⟨hv, hx⟩ := rewritesModule_valid (valid_of_ok h he) hm hR
  rw [ok_of_valid hv, hx]
  exact congrArg _ (validate_any_iff.mp h).2.symm

/-- **C81, both directions.** Rules whose two sides have the same types do not change the outcome of validation at all. -/
theorem C81_equal {R : List Instr → List Instr → Prop} {m m' : Module} (hn : NoMarks m) (hn' : NoMarks m')
    (hR : ∀ ls lb rt x y, R x y → ∀ a b, HasTypes (codeEnv m ls lb rt) x a b ↔ HasTypes (codeEnv m ls lb rt) y a b)
    (hm : RewritesModule R m m') : validateModule m' = validateModule m := by
  have hx : moduleEnv .code m' = moduleEnv .code m := by
    have hf : funcSpace m' = funcSpace m := by rw [hm.eq]; exact funcSpace_congr hm.types
    unfold moduleEnv
    rw [hf, hm.eq]
    rfl
  obtain ⟨h1, h2⟩ := validate_iff m (plain_of_noMarks hn)
  obtain ⟨h1', h2'⟩ := validate_iff m' (plain_of_noMarks hn')
  by_cases hv : Valid .code m
  · obtain ⟨hv', he⟩ := rewritesModule_valid hv hm fun ls lb rt x y h a b => (hR ls lb rt x y h a b).mp
    rw [h1 hv, h1' hv', he]
  · have hv' : ¬ Valid .code m' := fun hv' => hv (rewritesModule_valid hv' hm.flip fun ls lb rt x y h a b => by
      unfold codeEnv
      rw [hx]
      exact (hR ls lb rt y x h a b).mpr).1
    rw [h2 hv, h2' hv']

/-- **C81, optimisers.** The rules of the simple optimiser `Peephole` keep acceptance: constant folding, decisions on constants, removal of
unused values and of code that is not reached, and so on. -/
theorem C81_optimise {m m' : Module} {r : ModuleResult} (h : validateModule m = .ok r) (he : NoElse m)
    (hm : RewritesModule Peephole m m') : validateModule m' = .ok r :=
  C81_rewrite h he (fun _ _ _ _ _ h => peephole_types h) hm

/-- **C81, full abstraction.** In function `k` of an accepted module, `y` can stand for `x` in all surroundings and within all blocks exactly
if every type of `x` is a type of `y`. -/
theorem C81_interchangeable {m : Module} {r : ModuleResult} (h : validateModule m = .ok r) {k : Nat} {f : Func} (hf : m.funcs[k]? = some f)
    {t : FuncTy} (ht : m.types[f.ty.toNat]? = some t) {x y : List Instr} (hx : ¬ Occurs .elseMark x) (hy : ¬ Occurs .elseMark y) :
    (∀ (ls : List RetVal) (pre post : List Instr), ¬ Occurs .elseMark pre → ¬ Occurs .elseMark post →
      validateModule (withBody m k (wrap ls (pre ++ x ++ post))) = .ok r →
      validateModule (withBody m k (wrap ls (pre ++ y ++ post))) = .ok r) ↔
    ∀ ls, TypesIncl (codeEnv m (t.params ++ f.locals) ls (some t.results)) x y := by
  have three : ∀ {p q s : List Instr}, ¬ Occurs .elseMark p → ¬ Occurs .elseMark q → ¬ Occurs .elseMark s → ¬ Occurs .elseMark (p ++ q ++ s) := by
    intro p q s h1 h2 h3 h
    rw [occurs_append, occurs_append] at h
    rcases h with (h | h) | h
    · exact h1 h
    · exact h2 h
    · exact h3 h
  constructor
  · intro hall ls a b hab
    have hpre := noMarks_push .elseMark (.inl rfl) a
    have hpost : ¬ Occurs .elseMark (popsOf b ++ (ls.head?.getD t.results).map pushOf) := by
      rw [occurs_append]
      rintro (h | h)
      · exact noMarks_pops .elseMark (.inl rfl) _ h
      · exact noMarks_push .elseMark (.inl rfl) _ h
    have := hall ls _ _ hpre hpost
    rw [withBody_ok h hf, withBody_ok h hf, accepted_wrap ht (three hpre hx hpost), accepted_wrap ht (three hpre hy hpost), probe, probe] at this
    exact this hab
  · intro hall ls pre post hpre hpost
    rw [withBody_ok h hf, withBody_ok h hf, accepted_wrap ht (three hpre hx hpost), accepted_wrap ht (three hpre hy hpost)]
    exact (hall ls).around pre post _ _

/-- **C81, prefixes.** The beginning of a body can be completed to an accepted body exactly if `unreachable` completes it; the same for the
end of a body, and for a part in the middle. All at any depth. -/
theorem C81_complete {m : Module} {r : ModuleResult} (h : validateModule m = .ok r) {k : Nat} {f : Func} (hf : m.funcs[k]? = some f)
    {x : List Instr} (hx : ¬ Occurs .elseMark x) (ls : List RetVal) :
    ((∃ post, ¬ Occurs .elseMark post ∧ validateModule (withBody m k (wrap ls (x ++ post))) = .ok r) ↔
      validateModule (withBody m k (wrap ls (x ++ [.unreachable]))) = .ok r) ∧
    ((∃ pre, ¬ Occurs .elseMark pre ∧ validateModule (withBody m k (wrap ls (pre ++ x))) = .ok r) ↔
      validateModule (withBody m k (wrap ls ([.unreachable] ++ x))) = .ok r) ∧
    ((∃ pre post, ¬ Occurs .elseMark pre ∧ ¬ Occurs .elseMark post ∧ validateModule (withBody m k (wrap ls (pre ++ x ++ post))) = .ok r) ↔
      validateModule (withBody m k (wrap ls ([.unreachable] ++ x ++ [.unreachable]))) = .ok r) := by
  have hu : ¬ Occurs .elseMark [.unreachable] := by
    have : HasTypes {} [.unreachable] [] [] := hasTypes_single [] (.unreachable [] [])
    exact (plain_iff.mp (hasTypes_plain this)).2
  have two : ∀ {p q : List Instr}, ¬ Occurs .elseMark p → ¬ Occurs .elseMark q → ¬ Occurs .elseMark (p ++ q) := by
    intro p q h1 h2 h
    rw [occurs_append] at h
    rcases h with h | h
    · exact h1 h
    · exact h2 h
  obtain ⟨t, ht⟩ : ∃ t, m.types[f.ty.toNat]? = some t := by
    obtain ⟨⟨_, ha⟩, _⟩ := validate_any_iff.mp h
    obtain ⟨t, h1, _⟩ := accepted_type (ha f (List.mem_of_getElem? hf))
    exact ⟨t, h1⟩
  have key : ∀ {e : List Instr}, ¬ Occurs .elseMark e → (validateModule (withBody m k (wrap ls e)) = .ok r ↔
      HasTypes (codeEnv m (t.params ++ f.locals) ls (some t.results)) e [] (ls.head?.getD t.results)) :=
    fun he => (withBody_ok h hf).trans (accepted_wrap ht he)
  refine ⟨⟨?_, fun h => ⟨_, hu, h⟩⟩, ⟨?_, fun h => ⟨_, hu, h⟩⟩, ⟨?_, fun h => ⟨[.unreachable], [.unreachable], hu, hu, h⟩⟩⟩
  · rintro ⟨post, hp, h⟩
    rw [key (two hx hp)] at h
    rw [key (two hx hu)]
    obtain ⟨c, h1, _⟩ := hasTypes_split h
    exact hasTypes_append h1 (hasTypes_single [] (.unreachable _ _))
  · rintro ⟨pre, hp, h⟩
    rw [key (two hp hx)] at h
    rw [key (two hu hx)]
    obtain ⟨c, _, h1⟩ := hasTypes_split h
    exact hasTypes_append (is := [.unreachable]) (hasTypes_single [] (.unreachable _ _)) h1
  · rintro ⟨pre, post, hp, hq, h⟩
    rw [key (two (two hp hx) hq)] at h
    rw [key (two (two hu hx) hu)]
    obtain ⟨c, h1, _⟩ := hasTypes_split h
    obtain ⟨d, _, h2⟩ := hasTypes_split h1
    exact hasTypes_append (hasTypes_append (is := [.unreachable]) (hasTypes_single [] (.unreachable _ _)) h2)
      (hasTypes_single [] (.unreachable _ _))

/-! ### Examples -/

/-- A module with one function of type `[i32] → [i32]`, which has a local variable of type `i64`. -/
def sample81 (e : List Instr) : Module := { types := [⟨[.i32], [.i32]⟩], funcs := [⟨0, [.i64], e⟩] }

theorem sample81_noElse {e : List Instr} (h : ¬ Occurs .elseMark e) : NoElse (sample81 e) := fun f hf => by
  obtain rfl := List.mem_singleton.mp hf
  exact h

theorem sample81_rewrites {R : List Instr → List Instr → Prop} {e e' : List Instr} (h : Rewrites R e e') :
    RewritesModule R (sample81 e) (sample81 e') where
  rest := rfl
  count := rfl
  funcs k f f' hf hf' := by
    match k with
    | 0 => cases hf; cases hf'; exact ⟨rfl, rfl, h⟩
    | k + 1 => cases hf

/-- Code before and after three steps of optimisation: a decision on a constant in a block, `2 + 3`, and a dead end after a `return`. -/
def before81 : List Instr :=
  [.block [.i32] [.constI32 1, .ifElse [.i32] [.constI32 2, .constI32 3, .num .i32Add] [.localGet 0]], .ret, .num .i32Add]
def after81 : List Instr := [.block [.i32] [.block [.i32] [.constI32 5]], .ret]

theorem steps81 : Rewrites Peephole before81 after81 := by
  refine .step (e' := [.block [.i32] [.block [.i32] [.constI32 2, .constI32 3, .num .i32Add]], .ret, .num .i32Add]) ?_ ?_
  · exact .block [] [.ret, .num .i32Add] _ (.here [] [] (Peephole.ifTrue 1 [.i32] [.constI32 2, .constI32 3, .num .i32Add] [.localGet 0]))
  · refine .step (e' := [.block [.i32] [.block [.i32] [.constI32 5]], .ret, .num .i32Add]) ?_ (.step ?_ (.refl _))
    · exact .block [] [.ret, .num .i32Add] _ (.block [] [] _
        (.here [] [] (Peephole.fold (cs := [.constI32 2, .constI32 3]) (op := .i32Add) (c := .constI32 5) (by decide) (by decide))))
    · exact .here [.block [.i32] [.block [.i32] [.constI32 5]]] [] (Peephole.dead [.num .i32Add] .ret)

-- the optimised module is accepted, whatever optimised by these rules
example {e' : List Instr} (h : Rewrites Peephole before81 e') : validateModule (sample81 e') = .ok ⟨[], []⟩ := by
  have h0 : validateModule (sample81 before81) = .ok ⟨[], []⟩ := by decide +kernel
  refine C81_optimise h0 (sample81_noElse fun h => ?_) (sample81_rewrites h)
  have : HasTypes (bodyEnv .code (sample81 []) ⟨[.i32], [.i32]⟩ [.i64]) before81 [] [.i32] := by
    refine hasTypes_append (is := [_]) (js := [.ret, .num .i32Add]) (hasTypes_single [] (.block ?_)) ?_
    · refine hasTypes_append (is := [.constI32 1]) (hasTypes_single [] .constI32) (hasTypes_single [] (.ifElse ?_ ?_))
      · refine hasTypes_append (is := [.constI32 2]) (hasTypes_single [] .constI32) ?_
        exact hasTypes_append (is := [.constI32 3]) (hasTypes_single [.i32] .constI32) (hasTypes_single [] (.num (op := .i32Add)))
      · exact hasTypes_single [] (.localGet rfl)
    · exact hasTypes_append (is := [.ret]) (hasTypes_single [] (.ret [] [.i32, .i32] rfl)) (hasTypes_single [] (.num (op := .i32Add)))
  exact (plain_iff.mp (hasTypes_plain this)).2 h

example : validateModule (sample81 after81) = .ok ⟨[], []⟩ := by decide +kernel

-- the dead end after the `return` cannot be just any code, so the rule does not work the other way round
example : validateModule (sample81 [.localGet 0, .ret, .num .f32Add]) = .error .invalid ∧
    validateModule (sample81 [.localGet 0, .ret]) = .ok ⟨[], []⟩ := by decide +kernel

-- `local.set 0; local.get 0` and `local.tee 0` have the same types, in all contexts
example (m : Module) (ls : List Val) (lb : List (List Val)) (rt : Option (List Val)) (a b : List Val) :
    HasTypes (codeEnv m ls lb rt) [.localSet 0, .localGet 0] a b ↔ HasTypes (codeEnv m ls lb rt) [.localTee 0] a b := by
  refine ⟨peephole_types (.tee 0) a b, fun h => ?_⟩
  obtain ⟨t0, x, y, rfl, rfl, h'⟩ := hasTypes_one h
  cases h' with
  | localTee hl =>
    have h1 := hasTypes_single t0 (.localSet hl)
    rw [List.append_nil] at h1
    have h2 := hasTypes_single t0 (.localGet hl)
    rw [List.append_nil] at h2
    exact hasTypes_append (is := [.localSet 0]) h1 h2

-- `drop` has more types than `i32.eqz; drop`, so that there are surroundings that tell them apart, and they are found by the theorem
example : ∃ (ls : List RetVal) (pre post : List Instr), validateModule (withBody (sample81 [.localGet 0]) 0 (wrap ls (pre ++ [.drop] ++ post))) = .ok ⟨[], []⟩ ∧
    validateModule (withBody (sample81 [.localGet 0]) 0 (wrap ls (pre ++ [.num .i32Eqz, .drop] ++ post))) ≠ .ok ⟨[], []⟩ := by
  have h0 : validateModule (sample81 [.localGet 0]) = .ok ⟨[], []⟩ := by decide +kernel
  have hd : ¬ Occurs .elseMark [.drop] := (plain_iff.mp (hasTypes_plain (hasTypes_single (C := {}) [] (.drop .i32)))).2
  have hp : ¬ Occurs .elseMark [.num .i32Eqz, .drop] := (plain_iff.mp (hasTypes_plain ((pop_types (C := {}) .i32 (b := [])).mpr rfl))).2
  have key := C81_interchangeable h0 (k := 0) rfl (t := ⟨[.i32], [.i32]⟩) rfl hd hp
  refine Classical.byContradiction fun hno => ?_
  have := key.mp fun ls pre post _ _ h => Classical.byContradiction fun h' => hno ⟨ls, pre, post, h, h'⟩
  have h1 := this [] [.f64] [] (hasTypes_single [] (.drop .f64))
  have h2 := (pop_types (.i32) (b := [])).mp h1
  cases h2

-- one of them, inside a block
example : validateModule (withBody (sample81 [.localGet 0]) 0 (wrap [[]] ([.localGet 1] ++ [.drop] ++ []))) = .ok ⟨[], []⟩ ∧
    validateModule (withBody (sample81 [.localGet 0]) 0 (wrap [[]] ([.localGet 1] ++ [.num .i32Eqz, .drop] ++ []))) = .error .invalid := by
  decide +kernel

-- `i32.const 0; i64.const 0; i32.add` begins no body, `i32.add; br 0` can be part of a loop, but of no body outside of a block
example : ¬ ∃ post, ¬ Occurs .elseMark post ∧
    validateModule (withBody (sample81 [.localGet 0]) 0 (wrap [] ([.constI32 0, .constI64 0, .num .i32Add] ++ post))) = .ok ⟨[], []⟩ := by
  have h0 : validateModule (sample81 [.localGet 0]) = .ok ⟨[], []⟩ := by decide +kernel
  have hx : ¬ Occurs .elseMark [.constI32 0, .constI64 0, .num .i32Add] := by
    intro h
    cases h with
    | here h | block h _ | loop h _ | thn h _ | els h _ => simp at h
  rw [(C81_complete h0 (k := 0) rfl hx []).1]
  decide +kernel

example : validateModule (withBody (sample81 [.localGet 0]) 0 (wrap [[]] (.unreachable :: [.num .i32Add, .br 0] ++ [.unreachable]))) = .ok ⟨[], []⟩ ∧
    validateModule (withBody (sample81 [.localGet 0]) 0 (wrap [] (.unreachable :: [.num .i32Add, .br 0] ++ [.unreachable]))) = .error .invalid := by
  decide +kernel

end Whasm
