import Verif.Lemmas.Plain
import Verif.Lemmas.Depth

/-!
# Each instruction of an accepted function was validated, also beside hand-made `Else` marks
-/

namespace Whasm
open Spec

theorem bindOk_inv {α β : Type} {p : V α} {f : α → V β} {c c' : Ctx} {y : β} (h : (p >>= f) c = .ok (y, c')) :
    ∃ x c1, p c = .ok (x, c1) ∧ f x c1 = .ok (y, c') := by
  cases hp : p c with
  | error e => rw [bind_err hp] at h; cases h
  | ok r =>
    obtain ⟨x, c1⟩ := r
    rw [bind_ok hp] at h
    exact ⟨x, c1, rfl, h⟩

/-- The instruction was validated in a context with the declarations of `c` and `d` more frames. -/
def Seen (c : Ctx) (d : Nat) (j : Instr) : Prop :=
  ∃ c1 c2, Inv c1 ∧ Same c c1 ∧ c1.frames.length = c.frames.length + d ∧ validateInstr j c1 = .ok ((), c2)

theorem Seen.of {c c1 : Ctx} {d d' : Nat} {j : Instr} (h : Seen c1 d j) (hs : Same c c1) (hf : c1.frames.length + d = c.frames.length + d') :
    Seen c d' j := by
  obtain ⟨a, b, h1, h2, h3, h4⟩ := h
  exact ⟨a, b, h1, hs.trans h2, by omega, h4⟩

theorem seen_mem {j : Instr} : ∀ {e : List Instr} {c c' : Ctx}, j ∈ e → endsL e = 0 → Inv c → validateExpr e c = .ok ((), c') → Seen c 0 j
  | i :: e, c, c', hj, he, hc, h => by
    rw [endsL] at he
    obtain ⟨_, c1, h1, h2⟩ := bindOk_inv (p := validateInstr i) (f := fun _ => validateExpr e) h
    rcases List.mem_cons.mp hj with rfl | hj
    · exact ⟨c, c1, hc, Same.refl c, rfl, h1⟩
    · obtain ⟨k1, k2, k3⟩ := (tame_instr i).ok hc h1
      exact (seen_mem hj (by omega) k1 h2).of k2 (by omega)

theorem seen {j : Instr} {d : Nat} {e : List Instr} (ho : OccursAt j d e) : ∀ {c c' : Ctx}, endsL e = 0 → Inv c →
    validateExpr e c = .ok ((), c') → Seen c d j := by
  have body : ∀ {l r : List Val} {b : List Instr} {k : V Unit} {c c' : Ctx} {d : Nat}, endsL b = 0 → Inv c →
      (pushFrame l r >>= fun _ => validateExpr b >>= fun _ => k) c = .ok ((), c') →
      (∀ {c c' : Ctx}, endsL b = 0 → Inv c → validateExpr b c = .ok ((), c') → Seen c d j) → Seen c (d + 1) j := by
    intro l r b k c c' d hb hc h ih
    obtain ⟨_, c1, h1, h2⟩ := bindOk_inv h
    obtain ⟨_, c2, h3, _⟩ := bindOk_inv h2
    obtain ⟨k1, k2, k3⟩ := (tame_pushFrame l r).ok hc h1
    exact (ih hb k1 h3).of k2 (by omega)
  induction ho with
  | here h => exact fun he hc h' => seen_mem h he hc h'
  | @block e d t b h _ ih =>
    intro c c' he hc h'
    obtain ⟨c1, c2, k1, k2, k3, k4⟩ := seen_mem h he hc h'
    have hb : endsL b = 0 := by have := endsL_mem h; rw [endsI] at this; omega
    exact (body (k := validateEnd) hb k1 k4 ih).of k2 (by omega)
  | @loop e d t b h _ ih =>
    intro c c' he hc h'
    obtain ⟨c1, c2, k1, k2, k3, k4⟩ := seen_mem h he hc h'
    have hb : endsL b = 0 := by have := endsL_mem h; rw [endsI] at this; omega
    exact (body (k := validateEnd) hb k1 k4 ih).of k2 (by omega)
  | @thn e d t a b h _ ih =>
    intro c c' he hc h'
    obtain ⟨c1, c2, k1, k2, k3, k4⟩ := seen_mem h he hc h'
    have hb : endsL a = 0 := by have := endsL_mem h; rw [endsI] at this; omega
    obtain ⟨_, c3, h3, h4⟩ := bindOk_inv (p := popOperands [.i32])
      (f := fun _ => pushFrame t t >>= fun _ => validateExpr a >>= fun _ => validateElse >>= fun _ => validateExpr b >>= fun _ => validateEnd) k4
    obtain ⟨l1, l2, l3⟩ := (tame_popOperands [.i32]).ok k1 h3
    exact (body hb l1 h4 ih).of (k2.trans l2) (by omega)
  | @els e d t a b h _ ih =>
    intro c c' he hc h'
    obtain ⟨c1, c2, k1, k2, k3, k4⟩ := seen_mem h he hc h'
    have hz := endsL_mem h
    rw [endsI] at hz
    obtain ⟨_, c3, h3, h4⟩ := bindOk_inv (p := popOperands [.i32])
      (f := fun _ => pushFrame t t >>= fun _ => validateExpr a >>= fun _ => validateElse >>= fun _ => validateExpr b >>= fun _ => validateEnd) k4
    obtain ⟨l1, l2, l3⟩ := (tame_popOperands [.i32]).ok k1 h3
    obtain ⟨_, c4, h5, h6⟩ := bindOk_inv h4
    obtain ⟨m1, m2, m3⟩ := (tame_pushFrame t t).ok l1 h5
    obtain ⟨_, c5, h7, h8⟩ := bindOk_inv h6
    obtain ⟨n1, n2, n3⟩ := (tame_expr a).ok m1 h7
    obtain ⟨_, c6, h9, h10⟩ := bindOk_inv h8
    obtain ⟨o1, o2, o3⟩ := tame_else.ok n1 h9
    obtain ⟨_, c7, h11, _⟩ := bindOk_inv h10
    exact (ih (by omega) o1 h11).of ((((k2.trans l2).trans m2).trans n2).trans o2) (by omega)

/-- The context of a function. -/
def funcCtx (m : Module) (t : FuncTy) (f : Func) : Ctx := { ctxOf m with ret := some t.results, locals := t.params ++ f.locals }

theorem same_decls {m : Module} {t : FuncTy} {f : Func} {c : Ctx} (h : Same (funcCtx m t f) c) : c.types = m.types ∧ c.funcs = funcSpace m ∧
    c.tables = tableSpace m ∧ c.mems = memSpace m ∧ c.globals = globalSpace m ∧ c.locals = t.params ++ f.locals := by
  unfold Same funcCtx ctxOf at h
  cases c
  simp only [Ctx.mk.injEq] at h
  obtain ⟨h1, h2, h3, h4, h5, h6, _⟩ := h
  exact ⟨h1, h2, h3, h4, h5, h6⟩

/-- Each instruction of an accepted function was validated in the context of the function, with a frame for the function and for each block. -/
theorem accepted_seen {m : Module} {f : Func} (h : Accepted m f) :
    ∃ t, m.types[f.ty.toNat]? = some t ∧ ∀ j d, OccursAt j d f.body → Seen (funcCtx m t f) (d + 1) j := by
  obtain ⟨t, ht, hz, hv⟩ := accepted_type h
  refine ⟨t, ht, fun j d ho => ?_⟩
  have h0 : validateTypeIdx f.ty (ctxOf m) = .ok (t, ctxOf m) := by
    show lookup m.types f.ty (ctxOf m) = _
    unfold lookup
    rw [if_neg (by have := (List.getElem?_eq_some_iff.mp ht).1; omega), ht]
  have e : funcRest f t (funcCtx m t f) = .ok (t, ctxOf m) := by
    rw [← hv]
    refine Eq.symm ?_
    exact (bind_ok h0).trans rfl
  obtain ⟨_, c1, h1, h2⟩ := bindOk_inv (p := pushFrame t.results t.results) e
  obtain ⟨_, c2, h3, _⟩ := bindOk_inv h2
  have hi : Inv (funcCtx m t f) := trivial
  obtain ⟨k1, k2, k3⟩ := (tame_pushFrame t.results t.results).ok hi h1
  exact (seen ho hz k1 h3).of k2 (by omega)

theorem lookup_ok {α : Type} {xs : List α} {i : Idx} {c c' : Ctx} {x : α} (h : lookup xs i c = .ok (x, c')) : xs[i.toNat]? = some x ∧ c' = c := by
  unfold lookup at h
  split at h
  · cases h
  · split at h
    · next hx => cases h; exact ⟨hx, rfl⟩
    · cases h

theorem label_ok {i : Idx} {c c' : Ctx} {f : Frame} (h : validateLabel i c = .ok (f, c')) : i.toNat + 1 < c.frames.length ∧ c' = c := by
  unfold validateLabel at h
  dsimp only at h
  split at h
  · cases h
  · next h1 =>
    split at h
    · cases h
    · split at h
      · cases h; exact ⟨by omega, rfl⟩
      · cases h

theorem labels_ok {l : List Val} : ∀ {ls : List Idx} {c c' : Ctx}, validateLabels l ls c = .ok ((), c') → ∀ x ∈ ls, x.toNat + 1 < c.frames.length
  | y :: ls, c, c', h, x, hx => by
    obtain ⟨f, c1, h1, h2⟩ := bindOk_inv (p := validateLabel y) h
    obtain ⟨h3, rfl⟩ := label_ok h1
    rcases List.mem_cons.mp hx with rfl | hx
    · exact h3
    · split at h2
      · cases h2
      · exact labels_ok h2 x hx

end Whasm
