import Verif.Lemmas.Run
import Verif.Spec.Reduce

/-!
# The reduction rules keep states well typed
-/

namespace Whasm.Run
open Spec

/-- Types of instruction sequences with administrative instructions: `AOk m M C es ts ts'` if `es` takes values of types `ts` to values of types `ts'`. -/
inductive AOk (m : Module) (M : Machine) : Env → List Admin → List Val → List Val → Prop
  | nil {C ts} : AOk m M C [] ts ts
  | plain {C i es t0 a b ts} (hi : HasType C i a b) (hes : AOk m M C es (t0 ++ b) ts) : AOk m M C (.plain i :: es) (t0 ++ a) ts
  | trap {C es ts ts'} : AOk m M C (.trap :: es) ts ts'
  | invoke {C fi es t0 ts} (hf : fi ∈ M.all) (hes : AOk m M C es (t0 ++ fi.type.results) ts) : AOk m M C (.invoke fi :: es) (t0 ++ fi.type.params) ts
  | label {C r k ws fs es tw b t0 ts} (hw : Typed ws tw) (hfs : AOk m M { C with labels := r :: C.labels } fs tw b) (hk : HasTypes C k r b)
    (hes : AOk m M C es (t0 ++ b) ts) : AOk m M C (.label r k ws fs :: es) t0 ts
  | frame {C C' r ls ws fs es tw t0 ts} (hC : EnvOk m C') (hl : ls.map Value.type = C'.locals) (hn : C'.labels = []) (hr : C'.ret = some r)
    (hw : Typed ws tw) (hfs : AOk m M C' fs tw r) (hes : AOk m M C es (t0 ++ r) ts) : AOk m M C (.frame r ls ws fs :: es) t0 ts

theorem typed_nil : Typed [] [] := rfl

variable {m : Module} {M : Machine} {st : Store} {C : Env}

theorem aok_plain {i : Instr} {es : List Admin} {ts ts' : List Val} (h : AOk m M C (.plain i :: es) ts ts') :
    ∃ t0 a b, ts = t0 ++ a ∧ HasType C i a b ∧ AOk m M C es (t0 ++ b) ts' := by
  cases h with
  | plain hi hes => exact ⟨_, _, _, rfl, hi, hes⟩

theorem aok_plains {is : List Instr} {a b ts : List Val} {es : List Admin} (h : HasTypes C is a b) (hes : AOk m M C es b ts) : AOk m M C (plains is ++ es) a ts := by
  induction is generalizing a with
  | nil => obtain rfl := hasTypes_nil h; exact hes
  | cons i is ih =>
    obtain ⟨t0, x, y, rfl, hi, hr⟩ := hasTypes_cons.mp h
    exact .plain hi (ih hr)

theorem hasTypes_weaken {is : List Instr} {a b : List Val} (t0 : List Val) (h : HasTypes C is a b) : HasTypes C is (t0 ++ a) (t0 ++ b) := by
  induction is generalizing a t0 with
  | nil => obtain rfl := hasTypes_nil h; exact .nil _
  | cons i is ih =>
    obtain ⟨t1, x, y, rfl, hi, hr⟩ := hasTypes_cons.mp h
    exact hasTypes_cons.mpr ⟨t0 ++ t1, x, y, (List.append_assoc ..).symm, hi, by rw [List.append_assoc]; exact ih t0 hr⟩

/-- Arguments are what the types say. -/
theorem popArgs_typed {s : List Value} {ts a : List Val} (h : Typed s (ts ++ a)) {vs rest : List Value} (hp : popArgs a s = some (vs, rest)) :
    vs.map Value.type = a ∧ Typed rest ts := by
  obtain ⟨vs', rest', hp', hv, hr, _⟩ := popArgs_ok h
  rw [hp] at hp'
  cases hp'
  exact ⟨hv, hr⟩

theorem popArgs_types {s : List Value} {a : List Val} {vs rest : List Value} (hp : popArgs a s = some (vs, rest)) : vs.map Value.type = a := by
  unfold popArgs at hp
  dsimp only at hp
  split at hp
  · next h => cases hp; exact h
  · cases hp

theorem envOk_labels {ls : List (List Val)} (h : EnvOk m C) : EnvOk m { C with labels := ls } := ⟨h.1, h.2, h.3, h.4, h.5⟩

/-- A step that is one of the interpreter. -/
theorem keep_normal (H : Fit m M) (hC : EnvOk m C) {i : Instr} {es : List Admin} {ts ts' : List Val} {c c' : Conf} (h : AOk m M C (.plain i :: es) ts ts')
    (hc : ConfOk m M st C ts c) (he : exec M 1 i c = .normal c') : ∃ us, ConfOk m M st C us c' ∧ AOk m M C es us ts' := by
  obtain ⟨t0, a, b, rfl, hi, hes⟩ := aok_plain h
  have := exec_ok H 1 C hC i a b t0 c hi hc
  rw [he] at this
  exact ⟨_, this, hes⟩

theorem keep_trap {es : List Admin} {ts ts' : List Val} {c : Conf} (hc : ConfOk m M st C ts c) {s : List Value} :
    ∃ us, ConfOk m M st C us ⟨c.store, c.locals, s⟩ ∧ AOk m M C (.trap :: es) us ts' :=
  ⟨(s.map Value.type).reverse, confOk_stack hc (by unfold Typed; rw [List.reverse_reverse]), .trap⟩

theorem step_keeps (H : Fit m M) {c c' : Conf} {es es' : List Admin} (h : Step M c es c' es') :
    ∀ {C : Env}, EnvOk m C → ∀ {ts ts' : List Val}, ConfOk m M st C ts c → AOk m M C es ts ts' → ∃ us, ConfOk m M st C us c' ∧ AOk m M C es' us ts' := by
  induction h with
  | constI32 => intro C hC ts ts' hc ha; exact keep_normal H hC ha hc rfl
  | constI64 => intro C hC ts ts' hc ha; exact keep_normal H hC ha hc rfl
  | constF32 => intro C hC ts ts' hc ha; exact keep_normal H hC ha hc rfl
  | constF64 => intro C hC ts ts' hc ha; exact keep_normal H hC ha hc rfl
  | num hp hv => intro C hC ts ts' hc ha; exact keep_normal H hC ha hc (by simp only [exec, hp, hv])
  | numTrap => intro C hC ts ts' hc ha; exact keep_trap hc
  | drop => intro C hC ts ts' hc ha; exact keep_normal H hC ha hc rfl
  | selectFirst ht hb => intro C hC ts ts' hc ha; exact keep_normal H hC ha hc (by simp only [exec, popI32, pop, push, ht, if_true]; rw [if_neg hb])
  | selectSecond ht hb => intro C hC ts ts' hc ha; exact keep_normal H hC ha hc (by simp [exec, popI32, pop, push, ht, hb])
  | localGet hx => intro C hC ts ts' hc ha; exact keep_normal H hC ha hc (by simp only [exec, push, hx])
  | localSet hx => intro C hC ts ts' hc ha; exact keep_normal H hC ha hc (by simp only [exec, pop, hx, if_true])
  | localTee hx => intro C hC ts ts' hc ha; exact keep_normal H hC ha hc (by simp only [exec, pop, push, hx, if_true])
  | globalGet hx => intro C hC ts ts' hc ha; exact keep_normal H hC ha hc (by simp only [exec, push, hx])
  | globalSet hx => intro C hC ts ts' hc ha; exact keep_normal H hC ha hc (by simp only [exec, pop, hx, if_true])
  | load hm hb => intro C hC ts ts' hc ha; exact keep_normal H hC ha hc (by simp only [exec, popI32, push, hm, hb, if_true])
  | loadTrap => intro C hC ts ts' hc ha; exact keep_trap hc
  | store hm ht hb => intro C hC ts ts' hc ha; exact keep_normal H hC ha hc (by simp only [exec, pop, popI32, hm, ht, hb, if_true])
  | storeTrap => intro C hC ts ts' hc ha; exact keep_trap hc
  | memSize hm => intro C hC ts ts' hc ha; exact keep_normal H hC ha hc (by simp only [exec, push, hm])
  | memGrow hm hl hg => intro C hC ts ts' hc ha; exact keep_normal H hC ha hc (by simp [exec, popI32, push, hm, hl, hg])
  | memGrowFail hm hf =>
    intro C hC ts ts' hc ha
    refine keep_normal H hC ha hc ?_
    simp only [exec, popI32, push, hm]
    rw [if_neg]
    rintro ⟨h1, h2⟩
    rcases hf with hf | hf
    · omega
    · rw [h2] at hf; cases hf
  | nop => intro C hC ts ts' hc ha; exact keep_normal H hC ha hc rfl
  | unreachable => intro C hC ts ts' hc ha; exact keep_trap hc
  | block =>
    intro C hC ts ts' hc ha
    obtain ⟨t0, a, b, rfl, hi, hes⟩ := aok_plain ha
    cases hi with
    | block hb =>
      rw [List.append_nil] at hc
      exact ⟨_, hc, .label typed_nil (by simpa using aok_plains hb .nil) (.nil _) hes⟩
  | loop =>
    intro C hC ts ts' hc ha
    obtain ⟨t0, a, b, rfl, hi, hes⟩ := aok_plain ha
    cases hi with
    | loop hb =>
      rw [List.append_nil] at hc
      exact ⟨_, hc, .label typed_nil (by simpa using aok_plains hb .nil) (hasTypes_cons.mpr ⟨[], _, _, rfl, .loop hb, .nil _⟩) hes⟩
  | ifThen =>
    intro C hC ts ts' hc ha
    obtain ⟨t0, a, b, rfl, hi, hes⟩ := aok_plain ha
    cases hi with
    | ifElse h1 h2 =>
      obtain ⟨_, s, hs, ht⟩ := typed_i32 hc.stack
      cases hs
      exact ⟨_, confOk_stack hc ht, .label typed_nil (by simpa using aok_plains h1 .nil) (.nil _) hes⟩
  | ifElse =>
    intro C hC ts ts' hc ha
    obtain ⟨t0, a, b, rfl, hi, hes⟩ := aok_plain ha
    cases hi with
    | ifElse h1 h2 =>
      obtain ⟨_, s, hs, ht⟩ := typed_i32 hc.stack
      cases hs
      exact ⟨_, confOk_stack hc ht, .label typed_nil (by simpa using aok_plains h2 .nil) (.nil _) hes⟩
  | brIf =>
    intro C hC ts ts' hc ha
    obtain ⟨t0, a, b, rfl, hi, hes⟩ := aok_plain ha
    cases hi with
    | brIf hl =>
      rw [← List.append_assoc] at hc
      obtain ⟨_, s, hs, ht⟩ := typed_i32 hc.stack
      cases hs
      exact ⟨_, confOk_stack hc ht, .plain (.br [] b hl) hes⟩
  | brIfNot =>
    intro C hC ts ts' hc ha
    obtain ⟨t0, a, b, rfl, hi, hes⟩ := aok_plain ha
    cases hi with
    | brIf hl =>
      rw [← List.append_assoc] at hc
      obtain ⟨_, s, hs, ht⟩ := typed_i32 hc.stack
      cases hs
      exact ⟨_, confOk_stack hc ht, hes⟩
  | brTable hx =>
    intro C hC ts ts' hc ha
    obtain ⟨t0, a, b, rfl, hi, hes⟩ := aok_plain ha
    cases hi with
    | @brTable _ _ _ r us _ h1 h2 =>
      rw [← List.append_assoc] at hc
      obtain ⟨_, s, hs, ht⟩ := typed_i32 hc.stack
      cases hs
      exact ⟨_, confOk_stack hc ht, .plain (.br us b (h1 _ (List.mem_of_getElem? hx))) hes⟩
  | brTableElse =>
    intro C hC ts ts' hc ha
    obtain ⟨t0, a, b, rfl, hi, hes⟩ := aok_plain ha
    cases hi with
    | @brTable _ _ _ r us _ h1 h2 =>
      rw [← List.append_assoc] at hc
      obtain ⟨_, s, hs, ht⟩ := typed_i32 hc.stack
      cases hs
      exact ⟨_, confOk_stack hc ht, .plain (.br us b h2) hes⟩
  | call hf =>
    intro C hC ts ts' hc ha
    obtain ⟨t0, a, b, rfl, hi, hes⟩ := aok_plain ha
    cases hi with
    | call hx =>
      rw [hC.funcs] at hx
      obtain ⟨fi, hf', rfl⟩ := H.funcs _ _ hx
      rw [hf] at hf'
      cases hf'
      exact ⟨_, hc, .invoke (List.mem_append_left _ (List.mem_of_getElem? hf)) hes⟩
  | callIndirect hy hx hk hall ht =>
    intro C hC ts ts' hc ha
    obtain ⟨t0, a, b, rfl, hi, hes⟩ := aok_plain ha
    cases hi with
    | callIndirect _ _ hx' =>
      rw [hC.types, ← H.types, hx] at hx'
      cases hx'
      subst ht
      rw [← List.append_assoc] at hc
      obtain ⟨_, s, hs, ht⟩ := typed_i32 hc.stack
      cases hs
      exact ⟨_, confOk_stack hc ht, .invoke (List.mem_of_getElem? hall) hes⟩
  | callOther => intro C hC ts ts' hc ha; exact keep_trap hc
  | callEmpty => intro C hC ts ts' hc ha; exact keep_trap hc
  | callOutside => intro C hC ts ts' hc ha; exact keep_trap hc
  | inLabel _ ih =>
    intro C hC ts ts' hc ha
    cases ha with
    | label hw hfs hk hes =>
      obtain ⟨us, h1, h2⟩ := ih (envOk_labels hC) (confOk_labels.mpr ⟨hc.store, hc.evolves, hc.locals, hw⟩) hfs
      exact ⟨ts, ⟨h1.store, h1.evolves, h1.locals, hc.stack⟩, .label h1.stack h2 hk hes⟩
  | endLabel =>
    intro C hC ts ts' hc ha
    cases ha with
    | label hw hfs hk hes =>
      cases hfs
      exact ⟨_, confOk_stack hc (typed_append hc.stack hw), hes⟩
  | brHere hl hp =>
    intro C hC ts ts' hc ha
    cases ha with
    | label hw hfs hk hes =>
      exact ⟨_, confOk_stack hc (typed_append hc.stack (by unfold Typed; rw [List.map_reverse, popArgs_types hp])), aok_plains (hasTypes_weaken _ hk) hes⟩
  | @brOut st ls vs es r k ws fs l hl =>
    intro C hC ts ts' hc ha
    cases ha with
    | @label _ _ _ _ _ _ tw b _ _ hw hfs hk hes =>
      obtain ⟨t0, a, b', rfl, hi, _⟩ := aok_plain hfs
      cases hi with
      | @br _ _ r' us _ hb =>
        have hn : l.toNat ≠ 0 := fun h => hl (BitVec.eq_of_toNat_eq (by simpa using h))
        have e : (l - 1).toNat + 1 = l.toNat := by
          have := l.isLt
          rw [BitVec.toNat_sub]
          simp
          omega
        rw [← e] at hb
        refine ⟨_, confOk_stack hc hw, ?_⟩
        have := AOk.plain (m := m) (M := M) (C := C) (t0 := []) (.br (t0 ++ us) (ts ++ b) hb) hes
        simpa using this
  | retOut =>
    intro C hC ts ts' hc ha
    cases ha with
    | @label _ _ _ _ _ _ tw b _ _ hw hfs hk hes =>
      obtain ⟨t0, a, b', rfl, hi, _⟩ := aok_plain hfs
      cases hi with
      | @ret _ r us _ hr =>
        refine ⟨_, confOk_stack hc hw, ?_⟩
        have := AOk.plain (m := m) (M := M) (C := C) (t0 := []) (.ret (t0 ++ us) (ts ++ b) hr) hes
        simpa using this
  | trapOut => intro C hC ts ts' hc ha; exact keep_trap hc
  | @invokeOwn st ls vs es t f args rest hp =>
    intro C hC ts ts' hc ha
    cases ha with
    | @invoke _ _ _ t0 _ hf hes =>
      obtain ⟨hv, hr⟩ := popArgs_typed hc.stack hp
      refine ⟨t0, confOk_stack hc hr, .frame (C' := { bodyEnv .w3c m t f.locals with aligned := false, labels := [] }) ⟨rfl, rfl, rfl, rfl, rfl⟩ ?_ rfl rfl typed_nil
        (.label (b := t.results) (t0 := []) typed_nil ?_ (.nil _) .nil) hes⟩
      · show (args ++ f.locals.map zero).map Value.type = t.params ++ f.locals
        rw [List.map_append, List.map_map]
        refine congr (congrArg _ hv) ?_
        exact (List.map_congr_left fun x _ => zero_type x).trans (List.map_id _)
      · have := aok_plains (m := m) (M := M) (H.own t f hf) .nil
        rw [List.append_nil] at this
        exact this
  | invokeHost hp hh =>
    intro C hC ts ts' hc ha
    cases ha with
    | invoke hf hes =>
      obtain ⟨hv, hr⟩ := popArgs_typed hc.stack hp
      obtain ⟨h1, h2, h3⟩ := H.host _ _ hf _ _ hc.store hv _ _ hh
      exact ⟨_, ⟨h1, evolves_trans hc.evolves h2, hc.locals, typed_append hr (by unfold Typed; rw [List.map_reverse, h3 _ rfl]; rfl)⟩, hes⟩
  | @hostTrap st ls vs es t id args rest st' hp hh =>
    intro C hC ts ts' hc ha
    cases ha with
    | invoke hf hes =>
      obtain ⟨hv, hr⟩ := popArgs_typed hc.stack hp
      obtain ⟨h1, h2, _⟩ := H.host _ _ hf _ _ hc.store hv _ _ hh
      exact ⟨_, ⟨h1, evolves_trans hc.evolves h2, hc.locals, hr⟩, .trap⟩
  | inFrame _ ih =>
    intro C hC ts ts' hc ha
    cases ha with
    | frame hC' hl hn hr hw hfs hes =>
      obtain ⟨us, h1, h2⟩ := ih hC' ⟨hc.store, hc.evolves, hl, hw⟩ hfs
      exact ⟨ts, ⟨h1.store, h1.evolves, hc.locals, hc.stack⟩, .frame hC' h1.locals hn hr h1.stack h2 hes⟩
  | endFrame hp =>
    intro C hC ts ts' hc ha
    cases ha with
    | frame hC' hl hn hr hw hfs hes =>
      exact ⟨_, confOk_stack hc (typed_append hc.stack (by unfold Typed; rw [List.map_reverse, popArgs_types hp])), hes⟩
  | retHere hp =>
    intro C hC ts ts' hc ha
    cases ha with
    | frame hC' hl hn hr hw hfs hes =>
      exact ⟨_, confOk_stack hc (typed_append hc.stack (by unfold Typed; rw [List.map_reverse, popArgs_types hp])), hes⟩
  | trapFrame => intro C hC ts ts' hc ha; exact keep_trap hc

theorem steps_keep (H : Fit m M) {k : Nat} {c c' : Conf} {es es' : List Admin} (h : Steps M k c es c' es') (hC : EnvOk m C) {ts ts' : List Val}
    (hc : ConfOk m M st C ts c) (ha : AOk m M C es ts ts') : ∃ us, ConfOk m M st C us c' ∧ AOk m M C es' us ts' := by
  induction h generalizing ts with
  | zero => exact ⟨ts, hc, ha⟩
  | succ h _ ih =>
    obtain ⟨us, h1, h2⟩ := step_keeps H h hC hc ha
    exact ih h1 h2

/-- In a well-typed state a function is called with arguments of its types. -/
theorem calling_ok {vs : List Value} {es : List Admin} {fi : FuncInst} {args : List Value} (h : Calling vs es fi args) :
    ∀ {C : Env} {ts ts' : List Val}, Typed vs ts → AOk m M C es ts ts' → fi ∈ M.all ∧ args.map Value.type = fi.type.params := by
  induction h with
  | here hp =>
    intro C ts ts' hv ha
    cases ha with
    | invoke hf hes => exact ⟨hf, popArgs_types hp⟩
  | label _ ih =>
    intro C ts ts' hv ha
    cases ha with
    | label hw hfs hk hes => exact ih hw hfs
  | frame _ ih =>
    intro C ts ts' hv ha
    cases ha with
    | frame hC' hl hn hr hw hfs hes => exact ih hw hfs

/-- A well-typed call. -/
theorem called_ok {fi : FuncInst} (hf : fi ∈ M.all) {args : List Value} (hargs : args.map Value.type = fi.type.params) {st : Store} (hst : StoreOk m M.all.length st) :
    ∃ C, EnvOk m C ∧ ConfOk m M st C ([] ++ fi.type.params) (called args st) ∧ AOk m M C [.invoke fi] ([] ++ fi.type.params) fi.type.results :=
  ⟨{ moduleEnv .w3c m with locals := [] }, ⟨rfl, rfl, rfl, rfl, rfl⟩, ⟨hst, evolves_refl m st, rfl, by unfold Typed; rw [called, List.map_reverse, hargs]; rfl⟩,
    .invoke hf .nil⟩

end Whasm.Run
