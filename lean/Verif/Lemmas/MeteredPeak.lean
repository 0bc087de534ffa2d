import Verif.Lemmas.MeteredBytes
import Verif.Spec.Size

/-!
# Lower bounds for the context
-/

namespace Whasm
open Spec

/-- What follows does not make the peak smaller. -/
theorem peak_bind {α β : Type} {p : Meter.T α} {f : α → Meter.T β} {c : Ctx} : (p c).peak ≤ ((p >>= f) c).peak := by
  cases h : (p c).out with
  | error e => rw [Meter.bind_err' h]; exact Nat.le_refl _
  | ok r => rw [Meter.bind_ok' (x := r.1) (c' := r.2) h]; exact Nat.le_max_left _ _

theorem peak_bind_ok {α β : Type} {p : Meter.T α} {f : α → Meter.T β} {c c' : Ctx} {x : α} (h : (p c).out = .ok (x, c')) :
    (f x c').peak ≤ ((p >>= f) c).peak := by
  rw [Meter.bind_ok' h]; exact Nat.le_max_right _ _

/-- Entries that instructions do not change. -/
def fixed (c : Ctx) : Nat := c.types.length + c.funcs.length + c.tables.length + c.mems.length + c.globals.length + c.locals.length

theorem fixed_le (c : Ctx) : fixed c + c.frames.length ≤ Meter.entries c := by unfold fixed Meter.entries; omega

theorem Same.fixed {c c' : Ctx} (h : Same c c') : fixed c' = fixed c := by
  unfold Same at h
  unfold Whasm.fixed
  cases c; cases c'
  simp only [Ctx.mk.injEq] at h ⊢
  obtain ⟨a1, a2, a3, a4, a5, a6, -⟩ := h
  rw [a1, a2, a3, a4, a5, a6]

/-- Either there are no blocks, or the frames of the innermost one are part of the peak. -/
def Deep (p : Meter.T Unit) (d : Nat) : Prop := ∀ c c', Inv c → (p c).out = .ok ((), c') → d = 0 ∨ fixed c + c.frames.length + d ≤ (p c).peak

theorem deep_none (p : Meter.T Unit) : Deep p 0 := fun _ _ _ _ => .inl rfl

theorem deep_framed {l o : List Val} {b : List Instr} {k : Unit → Meter.T Unit} (h : Deep (Meter.validateExpr b) (depthL b)) :
    Deep (Meter.pushFrame l o >>= fun _ => Meter.validateExpr b >>= k) (1 + depthL b) := by
  intro c c' hc ho
  obtain ⟨x, c1, h1, h2⟩ := out_bind_ok ho
  obtain ⟨⟨⟩, c2, h3, h4⟩ := out_bind_ok h2
  obtain ⟨i1, s1, f1⟩ := (tame_pushFrame l o).ok hc h1
  right
  have a : (Meter.pushFrame l o c).peak ≤ _ := peak_bind (f := fun _ => Meter.validateExpr b >>= k)
  have b' := peak_bind_ok (f := fun _ => Meter.validateExpr b >>= k) h1
  have b'' : (Meter.validateExpr b c1).peak ≤ _ := peak_bind (f := k)
  have e : Meter.entries c1 = (Meter.pushFrame l o c).peak := by cases h1; rfl
  have g := fixed_le c1
  rw [s1.fixed] at g
  rcases h c1 c2 i1 h3 with h5 | h5
  · omega
  · rw [s1.fixed] at h5; omega

theorem deep_after {α : Type} {p : Meter.T α} {v : V α} {f : α → Meter.T Unit} {d : Nat} (hp : Meter.Erases p v) (hv : Tame v 0 0) (h : ∀ x, Deep (f x) d) : Deep (p >>= f) d := by
  intro c c' hc ho
  obtain ⟨x, c1, h1, h2⟩ := out_bind_ok ho
  obtain ⟨i1, s1, f1⟩ := hv.ok hc ((hp c).symm.trans h1)
  rcases h x c1 c' i1 h2 with h5 | h5
  · exact .inl h5
  · have := peak_bind_ok (f := f) h1
    rw [s1.fixed] at h5
    exact .inr (by omega)

theorem deep_or {p : Meter.T Unit} {a b : Nat} (ha : Deep p a) (hb : Deep p b) : Deep p (max a b) := fun c c' hc ho => by
  have h1 := ha c c' hc ho
  have h2 := hb c c' hc ho
  omega

theorem deep_first {p : Meter.T Unit} {f : Unit → Meter.T Unit} {d : Nat} (h : Deep p d) : Deep (p >>= f) d := fun c c' hc ho => by
  obtain ⟨⟨⟩, c1, h1, h2⟩ := out_bind_ok ho
  have := peak_bind (p := p) (f := f) (c := c)
  have := h c c1 hc h1
  omega

mutual

theorem peak_instr : ∀ i : Instr, endsI i = 0 → Deep (Meter.validateInstr i) (depthI i)
  | .block r b, he => by
    unfold Meter.validateInstr depthI
    exact deep_after (Meter.erases_op _ _) (fun c hc => ⟨hc, .refl _, rfl⟩) fun r => deep_framed (peak_expr b he)
  | .loop r b, he => by
    unfold Meter.validateInstr depthI
    exact deep_after (Meter.erases_op _ _) (fun c hc => ⟨hc, .refl _, rfl⟩) fun r => deep_framed (peak_expr b he)
  | .ifElse r a b, he => by
    have he : endsL a + endsL b = 0 := he
    unfold Meter.validateInstr depthI
    refine deep_after (Meter.erases_op _ _) (fun c hc => ⟨hc, .refl _, rfl⟩) fun r => deep_after (Meter.erases_popOperands _) (tame_popOperands _) fun _ => ?_
    have h1 := deep_framed (l := r) (o := r) (k := fun _ => Meter.validateElse >>= fun _ => Meter.validateExpr b >>= fun _ => Meter.validateEnd) (peak_expr a (by omega))
    have e : 1 + max (depthL a) (depthL b) = max (1 + depthL a) (1 + depthL b) := by omega
    rw [e]
    refine deep_or h1 fun c c' hc ho => ?_
    right
    -- the frame is there once more after `else`
    obtain ⟨x, c1, h2, h3⟩ := out_bind_ok ho
    obtain ⟨⟨⟩, c2, h4, h5⟩ := out_bind_ok h3
    obtain ⟨⟨⟩, c3, h6, h7⟩ := out_bind_ok h5
    obtain ⟨⟨⟩, c4, h8, h9⟩ := out_bind_ok h7
    obtain ⟨i1, s1, f1⟩ := (tame_pushFrame r r).ok hc h2
    obtain ⟨i2, s2, f2⟩ := (tame_expr a).ok i1 ((Meter.erases_expr a c1).symm.trans h4)
    obtain ⟨i3, s3, f3⟩ := tame_else.ok i2 ((Meter.erases_else c2).symm.trans h6)
    have hs := (s1.trans s2).trans s3
    have q1 := peak_bind_ok (f := fun _ => Meter.validateExpr a >>= fun _ => Meter.validateElse >>= fun _ => Meter.validateExpr b >>= fun _ => Meter.validateEnd) h2
    have q2 := peak_bind_ok (f := fun _ => Meter.validateElse >>= fun _ => Meter.validateExpr b >>= fun _ => Meter.validateEnd) h4
    have q3 := peak_bind_ok (f := fun _ => Meter.validateExpr b >>= fun _ => Meter.validateEnd) h6
    have q4 : (Meter.validateExpr b c3).peak ≤ _ := peak_bind (f := fun _ => Meter.validateEnd)
    have q0 : (Meter.pushFrame r r c).peak ≤ _ :=
      peak_bind (f := fun _ => Meter.validateExpr a >>= fun _ => Meter.validateElse >>= fun _ => Meter.validateExpr b >>= fun _ => Meter.validateEnd)
    have e1 : Meter.entries c1 = (Meter.pushFrame r r c).peak := by cases h2; rfl
    have g := fixed_le c1
    rw [s1.fixed] at g
    rcases peak_expr b (by omega) c3 c4 i3 h8 with h10 | h10
    · omega
    · rw [hs.fixed] at h10; omega
  | .unreachable, _ => deep_none _
  | .nop, _ => deep_none _
  | .elseMark, _ => deep_none _
  | .endMark, _ => deep_none _
  | .br _, _ => deep_none _
  | .brIf _, _ => deep_none _
  | .brTable _ _, _ => deep_none _
  | .ret, _ => deep_none _
  | .call _, _ => deep_none _
  | .callIndirect _ _, _ => deep_none _
  | .drop, _ => deep_none _
  | .select, _ => deep_none _
  | .localGet _, _ => deep_none _
  | .localSet _, _ => deep_none _
  | .localTee _, _ => deep_none _
  | .globalGet _, _ => deep_none _
  | .globalSet _, _ => deep_none _
  | .load _ _ _, _ => deep_none _
  | .store _ _ _, _ => deep_none _
  | .memSize _, _ => deep_none _
  | .memGrow _, _ => deep_none _
  | .constI32 _, _ => deep_none _
  | .constI64 _, _ => deep_none _
  | .constF32 _, _ => deep_none _
  | .constF64 _, _ => deep_none _
  | .num _, _ => deep_none _

theorem peak_expr : ∀ e : List Instr, endsL e = 0 → Deep (Meter.validateExpr e) (depthL e)
  | [], _ => deep_none _
  | i :: is, he => by
    have he : endsI i + endsL is = 0 := he
    unfold Meter.validateExpr depthL
    refine deep_after (Meter.erases_op _ _) (tame_pure ()) fun _ => deep_or (deep_first (peak_instr i (by omega))) ?_
    exact deep_after (Meter.erases_instr i) ((tame_instr i).cast (by omega)) fun _ => peak_expr is (by omega)

end

theorem func_peak {f : Func} {c c' : Ctx} {t : FuncTy} (hc : Clean c) (h : (Meter.validateFunc f c).out = .ok (t, c')) :
    fixed c + slots c.types f + 1 + depthL f.body ≤ (Meter.validateFunc f c).peak := by
  have hends : endsL f.body = 0 := by
    have hv := (Meter.erases_func f c).symm.trans h
    rcases func_total hc f with ⟨t', h1, h2, h3⟩ | h1
    · exact h2
    · rw [h1] at hv; cases hv
  obtain ⟨ty, c1, h1, h2⟩ := out_bind_ok h
  refine Nat.le_trans ?_ (peak_bind_ok h1)
  have h1 : lookup c.types f.ty c = .ok (ty, c1) := h1
  unfold lookup at h1
  split at h1
  · cases h1
  split at h1
  rotate_left
  · cases h1
  rename_i hx
  cases h1
  obtain ⟨_, c2, h3, h4⟩ := out_bind_ok h2
  refine Nat.le_trans ?_ (peak_bind_ok h3)
  cases h3
  obtain ⟨_, c3, h5, h6⟩ := out_bind_ok h4
  obtain ⟨_, c4, h7, h8⟩ := out_bind_ok h6
  have hi : Inv { c with ret := some ty.results, locals := ty.params ++ f.locals } := by
    unfold Inv
    rw [show ({ c with ret := some ty.results, locals := ty.params ++ f.locals } : Ctx).frames = [] from hc.frames]
    trivial
  obtain ⟨i1, s1, f1⟩ := (tame_pushFrame ty.results ty.results).ok hi h5
  have q1 := peak_bind_ok (f := fun _ => Meter.validateExpr f.body >>= fun _ => Meter.popFrame >>= fun _ => Meter.checkEmpty >>= fun _ =>
    Meter.op 1 (fun c => .ok ((), { c with locals := [], ret := none })) >>= fun _ => pure ty) h5
  have q0 := peak_bind (p := Meter.pushFrame ty.results ty.results) (c := { c with ret := some ty.results, locals := ty.params ++ f.locals }) (f := fun _ => Meter.validateExpr f.body >>= fun _ => Meter.popFrame >>= fun _ => Meter.checkEmpty >>= fun _ =>
    Meter.op 1 (fun c => .ok ((), { c with locals := [], ret := none })) >>= fun _ => pure ty)
  have q2 : (Meter.validateExpr f.body c3).peak ≤ _ := peak_bind (f := fun _ => Meter.popFrame >>= fun _ => Meter.checkEmpty >>= fun _ =>
    Meter.op 1 (fun c => .ok ((), { c with locals := [], ret := none })) >>= fun _ => pure ty)
  have e1 : Meter.entries c3 = (Meter.pushFrame ty.results ty.results { c with ret := some ty.results, locals := ty.params ++ f.locals }).peak := by cases h5; rfl
  have g := fixed_le c3
  rw [s1.fixed] at g
  have e2 : fixed { c with ret := some ty.results, locals := ty.params ++ f.locals } = fixed c + slots c.types f := by
    unfold fixed slots
    rw [hx, hc.locals]
    simp only [List.length_append, List.length_nil, Nat.add_zero]
  have e3 : ({ c with ret := some ty.results, locals := ty.params ++ f.locals } : Ctx).frames.length = 0 := by
    show c.frames.length = 0
    rw [hc.frames]; rfl
  rw [e2] at g
  rcases peak_expr f.body hends c3 c4 i1 h7 with h9 | h9
  · refine Nat.le_trans ?_ q0
    omega
  · rw [s1.fixed, e2] at h9
    refine Nat.le_trans ?_ q1
    omega

theorem funcs_peak : ∀ (fs : List Func) {c c' : Ctx}, Clean c → (Meter.forEach (fun f => do let _ ← Meter.validateFunc f; pure ()) fs c).out = .ok ((), c') →
    ∀ f ∈ fs, fixed c + slots c.types f + 1 + depthL f.body ≤ (Meter.forEach (fun f => do let _ ← Meter.validateFunc f; pure ()) fs c).peak
  | [], _, _, _, _, _, hf => by cases hf
  | g :: fs, c, c', hc, h, f, hf => by
    obtain ⟨u, c1, h1, h2⟩ := out_bind_ok h
    obtain ⟨t, c2, h3, h4⟩ := out_bind_ok h1
    cases h4
    cases Meter.func_same hc h3
    cases hf with
    | head =>
      exact Nat.le_trans (func_peak hc h3) (Nat.le_trans (peak_bind (f := fun _ => pure ()))
        (peak_bind (p := Meter.validateFunc _ >>= fun _ => pure ()) (f := fun _ => Meter.forEach (fun f => do let _ ← Meter.validateFunc f; pure ()) fs)))
    | tail _ hf =>
      exact Nat.le_trans (funcs_peak fs hc h2 f hf) (peak_bind_ok (f := fun _ => Meter.forEach (fun f => do let _ ← Meter.validateFunc f; pure ()) fs) h1)

theorem funcs_same : ∀ (fs : List Func) {c c' : Ctx}, Clean c → (Meter.forEach (fun f => do let _ ← Meter.validateFunc f; pure ()) fs c).out = .ok ((), c') → c' = c
  | [], _, _, _, h => by cases h; rfl
  | f :: fs, c, c', hc, h => by
    obtain ⟨u, c1, h1, h2⟩ := out_bind_ok h
    obtain ⟨t, c2, h3, h4⟩ := out_bind_ok h1
    cases h4
    cases Meter.func_same hc h3
    exact funcs_same fs hc h2

/-- While the globals of an accepted module are validated there is a second context, with the types of these globals. -/
theorem globals_peak {c c' : Ctx} {g : Global} {gs : List Global} {tys : List GlobalTy} (h : (Meter.withCtx { globals := tys }
    (Meter.forEach (fun g => do let _ ← Meter.validateGlobal g; pure ()) (g :: gs)) c).out = .ok ((), c')) :
    fixed c + tys.length + 1 ≤ (Meter.withCtx { globals := tys } (Meter.forEach (fun g => do let _ ← Meter.validateGlobal g; pure ()) (g :: gs)) c).peak := by
  unfold Meter.withCtx at h ⊢
  rcases hp : Meter.forEach (fun g => do let _ ← Meter.validateGlobal g; pure ()) (g :: gs) { globals := tys } with ⟨o, k, q⟩
  rw [hp] at h
  rcases o with e | ⟨x, d⟩
  · cases h
  show _ ≤ Meter.entries c + q
  have hq : q = (Meter.forEach (fun g => do let _ ← Meter.validateGlobal g; pure ()) (g :: gs) { globals := tys }).peak := by rw [hp]
  have ho : (Meter.forEach (fun g => do let _ ← Meter.validateGlobal g; pure ()) (g :: gs) { globals := tys }).out = .ok (x, d) := by rw [hp]
  have hf := fixed_le c
  have key : tys.length + 1 ≤ q := by
    rw [hq]
    obtain ⟨u, c1, h1, h2⟩ := out_bind_ok ho
    refine Nat.le_trans ?_ (peak_bind (f := fun _ => Meter.forEach (fun g => do let _ ← Meter.validateGlobal g; pure ()) gs))
    refine Nat.le_trans ?_ (peak_bind (f := fun _ => pure ()))
    refine Nat.le_trans ?_ (peak_bind_ok (p := Meter.validateGlobalTy g.ty) (x := ()) (c' := { globals := tys }) rfl)
    refine Nat.le_trans ?_ (peak_bind (p := Meter.validateInit [g.ty.val] g.init) (f := fun _ => pure g.ty))
    refine Nat.le_trans ?_ (peak_bind (p := Meter.pushFrame [g.ty.val] [g.ty.val]) (f := fun _ => Meter.validateConstExpr g.init >>= fun _ => Meter.popFrame >>= fun _ => Meter.checkEmpty))
    show _ ≤ 0 + 0 + 0 + 0 + tys.length + 0 + 0 + 1
    omega
  omega

/-- The contexts of an accepted module. -/
theorem module_peak {m : Module} {r : ModuleResult} (h : validateModule m = .ok r) :
    (∀ f ∈ m.funcs, fixed (ctxOf m) + slots m.types f + 1 + depthL f.body ≤ (Meter.validateModule m).peak) ∧
    (m.globals ≠ [] → fixed (ctxOf m) + m.globals.length + 1 ≤ (Meter.validateModule m).peak) := by
  rw [Meter.erases_module] at h
  cases ho : (Meter.validateModule m).out with
  | error e => rw [ho] at h; cases h
  | ok q =>
    obtain ⟨u, c1, h1, h2⟩ := out_bind_ok (p := Meter.contextFrom m) (f := fun _ => Meter.validateModuleBody m) (c := {}) (y := q.1) (c'' := q.2) ho
    have hc1 : c1 = ctxOf m := by
      have hx := (Meter.erases_contextFrom m {}).symm.trans h1
      by_cases hin : TypesIn m
      · cases ((contextFrom_eq m).1 hin).symm.trans hx; rfl
      · cases ((contextFrom_eq m).2 hin).symm.trans hx
    subst hc1
    have q1 := peak_bind_ok (p := Meter.contextFrom m) (f := fun _ => Meter.validateModuleBody m) (c := {}) h1
    suffices hs : (∀ f ∈ m.funcs, fixed (ctxOf m) + slots m.types f + 1 + depthL f.body ≤ (Meter.validateModuleBody m (ctxOf m)).peak) ∧
        (m.globals ≠ [] → fixed (ctxOf m) + m.globals.length + 1 ≤ (Meter.validateModuleBody m (ctxOf m)).peak) from
      ⟨fun f hf => Nat.le_trans (hs.1 f hf) q1, fun hg => Nat.le_trans (hs.2 hg) q1⟩
    obtain ⟨_, c2, h3, h4⟩ := out_bind_ok h2
    cases h3
    obtain ⟨_, c3, h5, h6⟩ := out_bind_ok h4
    have hc3 : c3 = ctxOf m := by
      obtain ⟨⟨_, h⟩, _⟩ := (Meter.keeps_types (I := fun c => c = ctxOf m) m.types (ctxOf m) rfl).2.2 _ _ h5
      exact h
    subst hc3
    obtain ⟨_, c4, h7, h8⟩ := out_bind_ok h6
    constructor
    · intro f hf
      refine Nat.le_trans ?_ (peak_bind_ok (p := Meter.tick m.globals.length) (x := ()) (c' := ctxOf m) rfl)
      refine Nat.le_trans ?_ (peak_bind_ok h5)
      exact Nat.le_trans (funcs_peak m.funcs (clean_ctxOf m) h7 f hf) peak_bind
    · intro hg
      have hc4 : c4 = ctxOf m := funcs_same m.funcs (clean_ctxOf m) h7
      subst hc4
      obtain ⟨_, c5, h9, h10⟩ := out_bind_ok h8
      have hc5 : c5 = ctxOf m := by
        have hk := Meter.keeps_forEach (I := fun c => c = ctxOf m) (f := fun t => do let _ ← Meter.validateTable t; pure ()) (n := fun _ => 1) (g := fun _ => 0) m.tables fun t _ =>
          Meter.bound_le (Meter.keeps_bind (Meter.keeps_bind (n2 := 0) (g2 := 0) (Meter.keeps_tableTy t.ty) fun _ _ => Meter.keeps_pure (P := fun _ => True) trivial)
            fun _ _ => Meter.keeps_pure trivial) (Nat.le_refl _) (Nat.le_refl _)
        exact ((hk (ctxOf m) rfl).2.2 _ _ h9).1.2
      subst hc5
      obtain ⟨_, c6, h11, h12⟩ := out_bind_ok h10
      have hc6 : c6 = ctxOf m := by
        have hk := Meter.keeps_forEach (I := fun c => c = ctxOf m) (f := fun t => do let _ ← Meter.validateMem t; pure ()) (n := fun _ => 1) (g := fun _ => 0) m.mems fun t _ =>
          Meter.bound_le (Meter.keeps_bind (Meter.keeps_bind (n2 := 0) (g2 := 0) (Meter.keeps_memTy t.ty) fun _ _ => Meter.keeps_pure (P := fun _ => True) trivial)
            fun _ _ => Meter.keeps_pure trivial) (Nat.le_refl _) (Nat.le_refl _)
        exact ((hk (ctxOf m) rfl).2.2 _ _ h11).1.2
      subst hc6
      obtain ⟨_, c7, h13, h14⟩ := out_bind_ok h12
      refine Nat.le_trans ?_ (peak_bind_ok (p := Meter.tick m.globals.length) (x := ()) (c' := ctxOf m) rfl)
      refine Nat.le_trans ?_ (peak_bind_ok h5)
      refine Nat.le_trans ?_ (peak_bind_ok h7)
      refine Nat.le_trans ?_ (peak_bind_ok h9)
      refine Nat.le_trans ?_ (peak_bind_ok h11)
      refine Nat.le_trans ?_ peak_bind
      have hl : (m.globals.map (·.ty)).length = m.globals.length := List.length_map ..
      rw [← hl]
      cases hgs : m.globals with
      | nil => exact absurd hgs hg
      | cons g gs =>
        rw [hgs] at h13
        exact globals_peak h13

end Whasm
