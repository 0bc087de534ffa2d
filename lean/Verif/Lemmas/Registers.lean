import Verif.Spec.Registers
import Verif.Lemmas.Stream
import Verif.Lemmas.Space

/-! # Stacks and registers -/

namespace Whasm.Run
open Spec Spec.Pass

/-- The first registers hold these words. -/
def Agree (g : Regs) (xs : List Cell) : Prop := ∀ i x, xs[i]? = some x → g i = x

/-- Local variables and operands as they are in registers. -/
def file (ls S : List Value) : List Cell := ls.map Value.cell ++ (S.map Value.cell).reverse

theorem file_nil (ls : List Value) : file ls [] = ls.map Value.cell := List.append_nil _

theorem file_cons (ls S : List Value) (v : Value) : file ls (v :: S) = file ls S ++ [v.cell] := by
  rw [file, List.map_cons, List.reverse_cons, ← List.append_assoc]
  rfl

theorem file_append (ls us S : List Value) : file ls (us.reverse ++ S) = file ls S ++ us.map Value.cell := by
  rw [file, file, List.map_append, List.reverse_append, ← List.append_assoc, ← List.map_reverse (l := us.reverse), List.reverse_reverse]

theorem file_length (ls S : List Value) : (file ls S).length = ls.length + S.length := by
  rw [file, List.length_append, List.length_reverse, List.length_map, List.length_map]

theorem file_set {ls : List Value} {x : Nat} {v : Value} {S : List Value} (h : x < ls.length) : file (ls.set x v) S = (file ls S).set x v.cell := by
  rw [file, file, List.map_set, List.set_append_left _ _ (by rw [List.length_map]; exact h)]

variable {g : Regs} {A X : List Cell} {w : Cell} {d n : Nat}

theorem agree_pre (h : Agree g (A ++ X)) : Agree g A := fun i x hx =>
  h i x (by rw [List.getElem?_append_left (List.getElem?_eq_some_iff.mp hx).1]; exact hx)

theorem agree_at (h : Agree g (A ++ w :: X)) (hd : d = A.length) : g d = w := h d w (by
  subst hd
  rw [List.getElem?_append_right (Nat.le_refl _), Nat.sub_self]
  rfl)

theorem agree_put (h : Agree g A) : Agree (put g d w) (A.set d w) := by
  intro i x hx
  unfold put
  by_cases e : i = d
  · subst e
    rw [if_pos rfl]
    obtain ⟨h1, h2⟩ := List.getElem?_eq_some_iff.mp hx
    rw [List.getElem_set_self] at h2
    exact h2
  · rw [if_neg e]
    rw [List.getElem?_set_ne (fun e' => e e'.symm)] at hx
    exact h i x hx

theorem agree_putAll {ws : List Cell} (h : Agree g (A ++ X)) (hd : d = A.length) : Agree (putAll g d ws) (A ++ ws) := by
  subst hd
  intro i x hx
  unfold putAll
  by_cases e : A.length ≤ i
  · rw [if_pos e]
    rw [List.getElem?_append_right e] at hx
    exact getD_some hx
  · rw [if_neg e]
    rw [List.getElem?_append_left (by omega)] at hx
    exact agree_pre h i x hx

theorem agree_push (h : Agree g (A ++ X)) (hd : d = A.length) : Agree (put g d w) (A ++ [w]) := by
  have h1 := agree_putAll (ws := [w]) h hd
  intro i x hx
  have h2 := h1 i x hx
  unfold putAll at h2
  unfold put
  subst hd
  by_cases e : i = A.length
  · subst e
    rw [if_pos (Nat.le_refl _), Nat.sub_self] at h2
    rw [if_pos rfl]
    exact h2
  · rw [if_neg e]
    by_cases e' : A.length ≤ i
    · rw [List.getElem?_append_right e', List.getElem?_eq_none (by simp only [List.length_cons, List.length_nil]; omega)] at hx
      cases hx
    · rw [if_neg e'] at h2
      exact h2

theorem window_at {B : List Cell} (h : Agree g (A ++ B ++ X)) (hd : d = A.length) (hn : n = B.length) : window g d n = B := by
  subst hd hn
  unfold window
  apply List.ext_getElem?
  intro i
  rw [List.getElem?_map]
  by_cases e : i < B.length
  · rw [List.getElem?_range e, Option.map_some]
    obtain ⟨x, hx⟩ : ∃ x, B[i]? = some x := ⟨_, List.getElem?_eq_getElem e⟩
    rw [hx, h (A.length + i) x]
    rw [List.append_assoc, List.getElem?_append_right (by omega), List.getElem?_append_left (by omega), ← hx]
    congr 1
    omega
  · rw [List.getElem?_eq_none (by rw [List.length_range]; omega), List.getElem?_eq_none (by omega)]
    rfl

theorem agree_fresh (args : List Cell) (ts : List Val) : Agree (fresh args) (args ++ ts.map fun _ => 0) := by
  intro i x hx
  unfold fresh
  by_cases e : i < args.length
  · rw [List.getElem?_append_left e] at hx
    exact getD_some hx
  · rw [getD_none (by omega)]
    rw [List.getElem?_append_right (by omega), List.getElem?_map] at hx
    obtain ⟨_, _, rfl⟩ := Option.map_eq_some_iff.mp hx
    rfl

theorem low32_cell (k : BitVec 32) : low32 (Value.i32 k).cell = k := setWidth_small k

/-- Operands that are taken off. -/
theorem popArgs_file {ts : List Val} {vs args rest : List Value} (h : popArgs ts vs = some (args, rest)) (ls : List Value) :
    file ls vs = file ls rest ++ args.map Value.cell ∧ args.length = ts.length ∧ ls.length + vs.length - ts.length = (file ls rest).length ∧ List.zipWith asValue ts (args.map Value.cell) = args := by
  obtain ⟨h1, h2⟩ := popArgs_len h
  unfold popArgs at h
  dsimp only at h
  split at h
  · rename_i e
    cases h
    refine ⟨?_, h1, ?_, ?_⟩
    · rw [← file_append, List.reverse_reverse, List.take_append_drop]
    · rw [file_length]
      omega
    · conv => lhs; arg 2; rw [← e]
      exact asValues_map _
  · cases h

theorem popArgs_window {ts : List Val} {vs args rest ls : List Value} (h : popArgs ts vs = some (args, rest)) (ha : Agree g (file ls vs)) :
    window g (ls.length + vs.length - ts.length) ts.length = args.map Value.cell := by
  obtain ⟨h1, h2, h3, _⟩ := popArgs_file h ls
  rw [h1, ← List.append_nil (_ ++ _)] at ha
  exact window_at ha h3 (by rw [List.length_map, h2])

variable {M : Machine} {st st' : Store} {ls ls' S S' : List Value} {i : Instr} {B : Nat → Nat → Move} {P Q : Nat → Nat} {k : Nat}

/-- An instruction that goes on. -/
theorem reg_next (h : Step M ⟨st, ls, S⟩ [.plain i] ⟨st', ls', S'⟩ []) (hg : st'.globals.map Value.type = st.globals.map Value.type) (ha : Agree g (file ls S)) :
    ls'.length = ls.length ∧ ∃ g', rexec M st g (rinstr ls.length S.length B P Q k i) = .next st' g' ∧ Agree g' (file ls' S') := by
  have ha' : Agree g (file ls S ++ []) := by rw [List.append_nil]; exact ha
  cases h with
  | constI32 => exact ⟨rfl, _, rfl, by rw [file_cons]; exact agree_push ha' (file_length _ _).symm⟩
  | constI64 => exact ⟨rfl, _, rfl, by rw [file_cons]; exact agree_push ha' (file_length _ _).symm⟩
  | constF32 => exact ⟨rfl, _, rfl, by rw [file_cons]; exact agree_push ha' (file_length _ _).symm⟩
  | constF64 => exact ⟨rfl, _, rfl, by rw [file_cons]; exact agree_push ha' (file_length _ _).symm⟩
  | num hp hv =>
    obtain ⟨h1, h2, h3, h4⟩ := popArgs_file hp ls
    refine ⟨rfl, _, by rw [rinstr, rexec, popArgs_window hp ha, h4, hv], ?_⟩
    rw [h1] at ha
    rw [file_cons]
    exact agree_push ha h3
  | drop =>
    rw [file_cons] at ha
    exact ⟨rfl, _, rfl, agree_pre ha⟩
  | @selectFirst _ _ vs _ v w b _ hb =>
    refine ⟨rfl, _, rfl, ?_⟩
    rw [file_cons, file_cons, file_cons, List.append_assoc, List.append_assoc] at ha
    have e : ls.length + (Value.i32 b :: w :: v :: vs).length - 3 = (file ls vs).length := by
      rw [file_length]; simp only [List.length_cons]; omega
    rw [file_cons, e]
    have e3 : g ((file ls vs).length + 2) = (Value.i32 b).cell := agree_at (A := file ls vs ++ [v.cell] ++ [w.cell]) (X := []) (by simpa using ha) (by simp)
    have e1 : g (file ls vs).length = v.cell := agree_at (X := [w.cell] ++ [(Value.i32 b).cell]) ha rfl
    rw [e3, e1, low32_cell, if_neg hb]
    exact agree_push ha rfl
  | @selectSecond _ _ vs _ v w b _ hb =>
    refine ⟨rfl, _, rfl, ?_⟩
    rw [file_cons, file_cons, file_cons, List.append_assoc, List.append_assoc] at ha
    have e : ls.length + (Value.i32 b :: w :: v :: vs).length - 3 = (file ls vs).length := by
      rw [file_length]; simp only [List.length_cons]; omega
    rw [file_cons, e]
    have e3 : g ((file ls vs).length + 2) = (Value.i32 b).cell := agree_at (A := file ls vs ++ [v.cell] ++ [w.cell]) (X := []) (by simpa using ha) (by simp)
    have e2 : g ((file ls vs).length + 1) = w.cell := agree_at (A := file ls vs ++ [v.cell]) (X := [(Value.i32 b).cell]) (by simpa using ha) (by simp)
    rw [e3, e2, low32_cell, if_pos hb]
    exact agree_push ha rfl
  | @localGet _ _ _ _ x v hx =>
    refine ⟨rfl, _, rfl, ?_⟩
    have e : g x.toNat = v.cell := by
      refine ha _ _ ?_
      rw [file, List.getElem?_append_left (by rw [List.length_map]; exact (List.getElem?_eq_some_iff.mp hx).1), List.getElem?_map, hx]
      rfl
    rw [e, file_cons]
    exact agree_push ha' (file_length _ _).symm
  | @localSet _ _ vs _ x v hx =>
    refine ⟨List.length_set, _, rfl, ?_⟩
    rw [file_cons] at ha
    have e : g (ls.length + (v :: S').length - 1) = v.cell := agree_at ha (by rw [file_length]; rfl)
    rw [e, file_set hx]
    exact agree_put (agree_pre ha)
  | @localTee _ _ vs _ x v hx =>
    refine ⟨List.length_set, _, rfl, ?_⟩
    have ha2 := ha
    rw [file_cons] at ha2
    have e : g (ls.length + (v :: vs).length - 1) = v.cell := agree_at ha2 (by rw [file_length]; rfl)
    rw [e, file_set hx]
    exact agree_put ha
  | globalGet hx =>
    refine ⟨rfl, _, rfl, ?_⟩
    rw [getD_cells hx, file_cons]
    exact agree_push ha' (file_length _ _).symm
  | @globalSet _ _ vs _ x v hx =>
    rw [file_cons] at ha
    have e : g (ls.length + (v :: S').length - 1) = v.cell := agree_at ha (by rw [file_length]; rfl)
    exact ⟨rfl, _, by rw [rinstr, rexec, e, set_global hg], agree_pre ha⟩
  | @load _ _ vs _ op al o mm a hm hb =>
    obtain ⟨ms, e⟩ := mems_head hm
    rw [file_cons] at ha
    have e1 : g (ls.length + (Value.i32 a :: vs).length - 1) = (Value.i32 a).cell := agree_at ha (by rw [file_length]; rfl)
    refine ⟨rfl, _, by rw [rinstr, rexec, e]; simp only [e1, low32_cell, if_pos hb]; rfl, ?_⟩
    rw [file_cons]
    exact agree_push ha (by rw [file_length]; rfl)
  | @store _ _ vs _ op al o mm a v hm ht hb =>
    obtain ⟨ms, e⟩ := mems_head hm
    rw [file_cons, file_cons, List.append_assoc] at ha
    have e1 : g (ls.length + (v :: Value.i32 a :: S').length - 2) = (Value.i32 a).cell := agree_at (A := file ls S') (X := [v.cell]) ha (by rw [file_length]; rfl)
    have e2 : g (ls.length + (v :: Value.i32 a :: S').length - 2 + 1) = v.cell := agree_at (A := file ls S' ++ [(Value.i32 a).cell]) (X := []) (by simpa using ha) (by rw [List.length_append, file_length]; rfl)
    refine ⟨rfl, _, by rw [rinstr, rexec, e]; simp only [e1, e2, low32_cell, if_pos hb, cell_bits, List.set_cons_zero], agree_pre ha⟩
  | memSize hm =>
    refine ⟨rfl, _, by rw [rinstr, rexec, hm], ?_⟩
    rw [file_cons]
    exact agree_push ha' (file_length _ _).symm
  | @memGrow _ _ vs _ x mm n hm hl hgr =>
    rw [file_cons] at ha
    have e1 : g (ls.length + (Value.i32 n :: vs).length - 1) = (Value.i32 n).cell := agree_at ha (by rw [file_length]; rfl)
    refine ⟨rfl, _, by rw [rinstr, rexec, hm]; simp only [e1, low32_cell, if_pos (And.intro hl hgr)]; rfl, ?_⟩
    rw [file_cons]
    exact agree_push ha (by rw [file_length]; rfl)
  | @memGrowFail _ _ vs _ x mm n hm hf =>
    rw [file_cons] at ha
    have e1 : g (ls.length + (Value.i32 n :: vs).length - 1) = (Value.i32 n).cell := agree_at ha (by rw [file_length]; rfl)
    have e2 : ¬ (mm.pages + n.toNat ≤ pageLimit mm ∧ M.grow st x.toNat (mm.pages + n.toNat) = true) := by
      rintro ⟨h1, h2⟩
      rcases hf with hf | hf
      · omega
      · rw [hf] at h2
        cases h2
    refine ⟨rfl, _, by rw [rinstr, rexec, hm]; simp only [e1, low32_cell, if_neg e2]; rfl, ?_⟩
    rw [file_cons]
    exact agree_push ha (by rw [file_length]; rfl)
  | nop => exact ⟨rfl, _, rfl, ha⟩
  | @brIfNot _ _ vs _ l k hk =>
    rw [file_cons] at ha
    have e1 : g (ls.length + (Value.i32 k :: S').length - 1) = (Value.i32 k).cell := agree_at ha (by rw [file_length]; rfl)
    exact ⟨rfl, _, by rw [rinstr, rexec, e1, low32_cell, if_pos hk], agree_pre ha⟩

/-- An instruction that traps. -/
theorem reg_trap (h : Step M ⟨st, ls, S⟩ [.plain i] ⟨st', ls', S'⟩ [.trap]) (ha : Agree g (file ls S)) : rexec M st g (rinstr ls.length S.length B P Q k i) = .trap st' := by
  cases h with
  | numTrap hp hv =>
    obtain ⟨_, _, _, h4⟩ := popArgs_file hp ls
    rw [rinstr, rexec, popArgs_window hp ha, h4, hv]
  | @loadTrap _ _ vs _ op al o mm a hm hb =>
    obtain ⟨ms, e⟩ := mems_head hm
    rw [file_cons] at ha
    have e1 : g (ls.length + (Value.i32 a :: S').length - 1) = (Value.i32 a).cell := agree_at ha (by rw [file_length]; rfl)
    rw [rinstr, rexec, e]
    simp only [e1, low32_cell]
    rw [if_neg (by omega)]
  | @storeTrap _ _ vs _ op al o mm a v hm ht hb =>
    obtain ⟨ms, e⟩ := mems_head hm
    rw [file_cons, file_cons, List.append_assoc] at ha
    have e1 : g (ls.length + (v :: Value.i32 a :: S').length - 2) = (Value.i32 a).cell := agree_at (A := file ls S') (X := [v.cell]) ha (by rw [file_length]; rfl)
    rw [rinstr, rexec, e]
    simp only [e1, low32_cell]
    rw [if_neg (by omega)]
  | unreachable => rfl
  | @callOther _ _ vs _ x y tb t k a fi hy hx hk ha' ht =>
    rw [file_cons] at ha
    have e1 : g (ls.length + (Value.i32 k :: S').length - 1) = (Value.i32 k).cell := agree_at ha (by rw [file_length]; rfl)
    rw [rinstr, rexec, e1, low32_cell, getD_some hy, getD_some hk]
    simp only [Option.bind_some, ha']
    rw [if_neg]
    rw [hx]
    exact fun e => ht (Option.some.inj e)
  | @callEmpty _ _ vs _ x y tb t k hy hx hk =>
    rw [file_cons] at ha
    have e1 : g (ls.length + (Value.i32 k :: S').length - 1) = (Value.i32 k).cell := agree_at ha (by rw [file_length]; rfl)
    rw [rinstr, rexec, e1, low32_cell, getD_some hy, getD_some hk]
    rfl
  | @callOutside _ _ vs _ x y tb t k hy hx hk =>
    rw [file_cons] at ha
    have e1 : g (ls.length + (Value.i32 k :: S').length - 1) = (Value.i32 k).cell := agree_at ha (by rw [file_length]; rfl)
    rw [rinstr, rexec, e1, low32_cell, getD_some hy, getD_none hk]
    rfl

/-- An instruction that calls. -/
theorem reg_call {fi : FuncInst} (h : Step M ⟨st, ls, S⟩ [.plain i] ⟨st', ls', S'⟩ [.invoke fi]) (ha : Agree g (file ls S)) (hP : ∀ x fi, M.funcs[x]? = some fi → P x = fi.type.params.length)
    (hQ : ∀ x t, M.types[x]? = some t → Q x = t.params.length) :
    rexec M st g (rinstr ls.length S.length B P Q k i) = .call fi (ls.length + S'.length - fi.type.params.length) ∧ Agree g (file ls S') := by
  cases h with
  | call hf =>
    rw [rinstr, rexec, hf, hP _ _ hf]
    exact ⟨rfl, ha⟩
  | @callIndirect _ _ vs _ x y tb t k a fi hy hx hk ha' ht =>
    rw [file_cons] at ha
    have e1 : g (ls.length + (Value.i32 k :: S').length - 1) = (Value.i32 k).cell := agree_at ha (by rw [file_length]; rfl)
    rw [rinstr, rexec, e1, low32_cell, getD_some hy, getD_some hk, hQ _ _ hx]
    simp only [Option.bind_some, ha']
    rw [if_pos (by rw [hx, ht]), ht]
    exact ⟨rfl, agree_pre ha⟩

/-- A branch. -/
theorem reg_jump {l : Nat} (h : Jumps (some i) l S' S) (ha : Agree g (file ls S)) :
    rexec M st g (rinstr ls.length S.length B P Q k i) = .goto (B l S'.length).pc (shift g (B l S'.length)) ∧ Agree g (file ls S') := by
  cases h with
  | br => exact ⟨rfl, ha⟩
  | @brIf l k us hk =>
    rw [file_cons] at ha
    have e1 : g (ls.length + (Value.i32 k :: S').length - 1) = (Value.i32 k).cell := agree_at ha (by rw [file_length]; rfl)
    rw [rinstr, rexec, e1, low32_cell, if_neg hk]
    exact ⟨rfl, agree_pre ha⟩
  | @brTable tb l k x us hx =>
    rw [file_cons] at ha
    have e1 : g (ls.length + (Value.i32 k :: S').length - 1) = (Value.i32 k).cell := agree_at ha (by rw [file_length]; rfl)
    rw [rinstr, rexec, e1, low32_cell, getD_some (x := B x.toNat S'.length) (by rw [List.getElem?_map, hx]; rfl)]
    exact ⟨rfl, agree_pre ha⟩
  | @brTableElse tb l k us hx =>
    rw [file_cons] at ha
    have e1 : g (ls.length + (Value.i32 k :: S').length - 1) = (Value.i32 k).cell := agree_at ha (by rw [file_length]; rfl)
    rw [rinstr, rexec, e1, low32_cell, getD_none (by rw [List.length_map]; exact hx)]
    exact ⟨rfl, agree_pre ha⟩

/-- What a branch leaves. -/
theorem agree_shift {c n pc : Nat} (ha : Agree g (file ls S)) (h : c + n ≤ S.length) : Agree (shift g ⟨pc, ls.length + S.length - c, ls.length + n, c⟩) (file ls (S.take c ++ lowest n S)) := by
  have e1 : file ls S = file ls (S.drop c) ++ (S.take c).reverse.map Value.cell := by
    rw [← file_append, List.reverse_reverse, List.take_append_drop]
  have e2 : file ls (S.take c ++ lowest n S) = file ls (lowest n S) ++ (S.take c).reverse.map Value.cell := by
    rw [← file_append, List.reverse_reverse]
  have e3 : ∃ z, file ls S = file ls (lowest n S) ++ z := by
    refine ⟨(S.take (S.length - n)).reverse.map Value.cell, ?_⟩
    rw [← file_append, List.reverse_reverse, lowest, List.take_append_drop]
  obtain ⟨z, e3⟩ := e3
  have hw : window g (ls.length + S.length - c) c = (S.take c).reverse.map Value.cell :=
    window_at (A := file ls (S.drop c)) (X := []) (by rw [List.append_nil, ← e1]; exact ha) (by rw [file_length, List.length_drop]; omega)
      (by rw [List.length_map, List.length_reverse, List.length_take]; omega)
  rw [shift, hw, e2]
  rw [e3] at ha
  exact agree_putAll ha (by show ls.length + n = _; rw [file_length, lowest, List.length_drop]; omega)

/-! ## States -/

section
variable (K : Codes)

/-- A call, and the same on registers. -/
def Kept (a : Act) (r : RAct) : Prop :=
  ∃ u v g b, Splits a.place a.func.body u v ∧ K a.func = u ++ v ++ [.endOp] ∧ Agree g (file a.locals a.stack) ∧ r = ⟨a.type, a.func, u.length, g, b⟩

/-- The place is one of an instruction that is an opcode; results are left above the operands. -/
def Parked (a : Act) (r : RAct) : Prop := Kept K a r ∧ r.base = a.locals.length + a.stack.length ∧ ∃ i, a.place.instr a.func.body = some i ∧ lineI i = [.instr i]

/-- A state, and the same on registers. -/
inductive RRel : FState → RState → Prop
  | running {st : Store} {a : Act} {as : List Act} {r : RAct} {rs : List RAct} (h : Kept K a r) (hs : Related (Parked K) as rs) : RRel (.running st a as) (.running st r rs)
  | finished {st : Store} {vs : List Value} : RRel (.finished st vs) (.finished st vs)
  | trapped {st : Store} : RRel (.trapped st) (.trapped st)

end

/-- At the place after. -/
theorem kept_at {K : Codes} {t : FuncTy} {f : Func} {p : Place} {w w' : List Op} {n b : Nat} (h : Splits p f.body w w') (hk : K f = w ++ w' ++ [.endOp]) (hn : n = w.length)
    (ha : Agree g (file ls S)) : Kept K ⟨t, f, p, ls, S⟩ ⟨t, f, n, g, b⟩ := by
  subst hn
  exact ⟨w, w', g, b, h, hk, ha, rfl⟩

/-- What is known of a call from validation: its type, and how many local variables and operands it has at its place. -/
structure Known (m : Module) (K : Codes) (T : Landings) (a : Act) : Prop where
  type : m.types[a.func.ty.toNat]? = some a.type
  locals : a.locals.length = a.type.params.length + a.func.locals.length
  height : ∀ {u v}, Splits a.place a.func.body u v → K a.func = u ++ v ++ [.endOp] → (a.place.instr a.func.body ≠ none ∨ a.place.outer = none) → heightAt m K a.func u.length = a.stack.length
  table : ∀ {u v}, Splits a.place a.func.body u v → K a.func = u ++ v ++ [.endOp] → a.place.instr a.func.body ≠ none → ∀ l, passTable m K a.func u.length l = T a.func a.place l

section
variable {m : Module} {K : Codes} {t : FuncTy} {f : Func} {as : List RAct} {b : Nat} {u v : List Op}

/-- The step at a place of the code. -/
theorem rstep_at (ht : m.types[f.ty.toNat]? = some t) (hk : K f = u ++ v ++ [.endOp]) : rstep M (compile m K) (.running st ⟨t, f, u.length, g, b⟩ as) =
      match rexec M st g (compileAt m K f t u.length) with
      | .next st' g => .running st' ⟨t, f, u.length + 1, g, b⟩ as
      | .trap st' => .trapped st'
      | .goto pc g => .running st ⟨t, f, pc, g, b⟩ as
      | .call fi d => rinvoke M st ⟨t, f, u.length, g, b⟩ as d fi
      | .leave s => rleave st t (window g s t.results.length) as := by
  have hl : u.length < (K f).length := by rw [hk]; simp only [List.length_append, List.length_cons, List.length_nil]; omega
  have e : (compile m K f)[u.length]? = some (compileAt m K f t u.length) := by
    rw [compile, ht]
    dsimp only
    rw [List.getElem?_map, List.getElem?_range hl]
    rfl
  rw [rstep]
  dsimp only
  rw [e]
  rfl

/-- The instruction for an opcode that is an instruction. -/
theorem compileAt_instr {w : List Op} (hk : (K f).drop u.length = .instr i :: w) : compileAt m K f t u.length =
    rinstr (t.params.length + f.locals.length) (heightAt m K f u.length) (moveAt m K f (t.params.length + f.locals.length) u.length)
      (fun x => ((funcSpace m)[x]?.map fun t => t.params.length).getD 0) (fun x => (m.types[x]?.map fun t => t.params.length).getD 0) t.results.length i := by
  rw [compileAt, hk]

end

theorem leave_kept {K : Codes} {a a' : Act} {r : RAct} {rs : List RAct} {as : List Act} {us rest : List Value} (hp : popArgs a.type.results a.stack = some (us, rest))
    (ha : Agree g (file a.locals a.stack)) (hw : Parked K a' r) (hs : Related (Parked K) as rs) :
    RRel K (.running st { a' with place := a'.place.next, stack := us.reverse ++ a'.stack } as)
      (rleave st a.type (window g (a.locals.length + a.stack.length - a.type.results.length) a.type.results.length) (r :: rs)) := by
  obtain ⟨⟨u, v, g', b, h4, hk, h5, rfl⟩, hb, i, hi, ho⟩ := hw
  obtain ⟨w, rfl, h6⟩ := splits_op h4 hi ho
  rw [popArgs_window hp ha]
  refine .running (kept_at h6 (by rw [hk]; simp only [List.append_assoc, List.cons_append, List.nil_append]) (by rw [List.length_append]; rfl) ?_) hs
  rw [file_append]
  exact agree_putAll (X := []) (by rw [List.append_nil]; exact h5) (hb.trans (file_length _ _).symm)

/-- A step of the machine of `Spec/Flat.lean` is a step on registers. -/
theorem rstep_low {m : Module} {K : Codes} {T : Landings} {s s' : FState} {r : RState} (h : FStep M T s s') (hg : s'.store.globals.map Value.type = s.store.globals.map Value.type)
    (hr : RRel K s r) (hk : ∀ {st a as}, s = .running st a as → Known m K T a) (hK : ∀ {st a as}, s' = .running st a as → ∃ ops, K a.func = ops ++ [.endOp] ∧ FlatL ops a.func.body)
    (hP : ∀ (x : Nat) (fi : FuncInst), M.funcs[x]? = some fi → (funcSpace m)[x]? = some fi.type) (hQ : M.types = m.types) : RRel K s' (rstep M (compile m K) r) := by
  have ap : ∀ {u w y : List Op} {o : Op}, u ++ o :: w ++ y = u ++ [o] ++ w ++ y := fun {u w y o} => by simp only [List.append_assoc, List.cons_append, List.nil_append]
  have hP' : ∀ (x : Nat) (fi : FuncInst), M.funcs[x]? = some fi → ((funcSpace m)[x]?.map fun t => t.params.length).getD 0 = fi.type.params.length := fun x fi e => by rw [hP x fi e]; rfl
  have hQ' : ∀ (x : Nat) (t : FuncTy), M.types[x]? = some t → (m.types[x]?.map fun t => t.params.length).getD 0 = t.params.length := fun x t e => by rw [← hQ, e]; rfl
  cases h with
  | @instr st a as i st' ls' S' hi h =>
    obtain ⟨⟨u, v, g, b, hs, hk', ha, rfl⟩, hb⟩ := hr
    have kn := hk rfl
    have hh := kn.height hs hk' (.inl (by rw [hi]; exact Option.some_ne_none i))
    obtain ⟨w, rfl, hs'⟩ := splits_op hs hi (op_of_next h)
    obtain ⟨_, g', h1, h2⟩ := reg_next (B := moveAt m K a.func a.locals.length u.length) (P := fun x => ((funcSpace m)[x]?.map fun t => t.params.length).getD 0)
      (Q := fun x => (m.types[x]?.map fun t => t.params.length).getD 0) (k := a.type.results.length) h hg ha
    rw [rstep_at kn.type hk', compileAt_instr (w := w ++ [.endOp]) (drop_at hk'), hh, ← kn.locals, h1]
    exact .running (kept_at hs' (hk'.trans ap) (by rw [List.length_append]; rfl) h2) hb
  | @trap st a as i st' ls' S' hi h =>
    obtain ⟨⟨u, v, g, b, hs, hk', ha, rfl⟩, hb⟩ := hr
    have kn := hk rfl
    have hh := kn.height hs hk' (.inl (by rw [hi]; exact Option.some_ne_none i))
    obtain ⟨w, rfl, hs'⟩ := splits_op hs hi (op_of_trap h)
    rw [rstep_at kn.type hk', compileAt_instr (w := w ++ [.endOp]) (drop_at hk'), hh, ← kn.locals, reg_trap h ha]
    exact .trapped
  | block hi =>
    obtain ⟨⟨u, v, g, b, hs, hk', ha, rfl⟩, hb⟩ := hr
    obtain ⟨w, rfl, hs'⟩ := splits_block hs hi
    rw [rstep_at (hk rfl).type hk', compileAt, drop_at hk']
    exact .running (kept_at hs' (hk'.trans ap) (by rw [List.length_append]; rfl) ha) hb
  | loop hi =>
    obtain ⟨⟨u, v, g, b, hs, hk', ha, rfl⟩, hb⟩ := hr
    obtain ⟨w, rfl, hs'⟩ := splits_loop hs hi
    rw [rstep_at (hk rfl).type hk', compileAt, drop_at hk']
    exact .running (kept_at hs' (hk'.trans ap) (by rw [List.length_append]; rfl) ha) hb
  | @ifThen st a as r b0 b' k S hi hv hc =>
    obtain ⟨⟨u, v, g, b, hs, hk', ha, rfl⟩, hb⟩ := hr
    have kn := hk rfl
    have hh := kn.height hs hk' (.inl (by rw [hi]; exact Option.some_ne_none _))
    obtain ⟨w, rfl, hs'⟩ := splits_then hs hi
    rw [hv, file_cons] at ha
    have e : g (a.type.params.length + a.func.locals.length + heightAt m K a.func u.length - 1) = (Value.i32 k).cell := agree_at ha (by rw [hh, hv, ← kn.locals, file_length]; rfl)
    rw [rstep_at kn.type hk', compileAt, drop_at hk']
    simp only [List.cons_append, rexec, e, low32_cell, if_neg hc]
    exact .running (kept_at hs' (hk'.trans ap) (by rw [List.length_append]; rfl) (agree_pre ha)) hb
  | @ifElse st a as r b0 b' k S hi hv hc =>
    obtain ⟨⟨u, v, g, b, hs, hk', ha, rfl⟩, hb⟩ := hr
    have kn := hk rfl
    have hh := kn.height hs hk' (.inl (by rw [hi]; exact Option.some_ne_none _))
    rw [hv, file_cons] at ha
    have e : g (a.type.params.length + a.func.locals.length + heightAt m K a.func u.length - 1) = (Value.i32 k).cell := agree_at ha (by rw [hh, hv, ← kn.locals, file_length]; rfl)
    rcases splits_else hs hi with ⟨z, w, hz, ⟨rfl, hs'⟩ | ⟨rfl, hs'⟩⟩
    · rw [rstep_at kn.type hk', compileAt, drop_at hk']
      simp only [List.cons_append, List.append_assoc, rexec, e, low32_cell, if_pos hc, scanElse_flatL hz, scanElse]
      exact .running (kept_at hs' (by rw [hk']; simp only [List.append_assoc, List.cons_append, List.nil_append])
        (by simp only [List.length_append, List.length_cons, List.length_nil]; omega) (agree_pre ha)) hb
    · rw [rstep_at kn.type hk', compileAt, drop_at hk']
      simp only [List.cons_append, List.append_assoc, rexec, e, low32_cell, if_pos hc, scanElse_flatL hz, scanElse]
      exact .running (kept_at hs' (by rw [hk']; simp only [List.append_assoc, List.cons_append])
        (by simp only [List.length_append, List.length_cons]; omega) (agree_pre ha)) hb
  | fall hi hq =>
    obtain ⟨⟨u, v, g, b, hs, hk', ha, rfl⟩, hb⟩ := hr
    rcases splits_fall hs hi hq with ⟨w, rfl, hs'⟩ | ⟨b, z, w, hz, rfl, hs'⟩
    · rw [rstep_at (hk rfl).type hk', compileAt, drop_at hk']
      have hl := fun st t b => RRel.running (st := st) (kept_at (t := t) (b := b) (n := u.length + 1) hs' (hk'.trans ap) (by rw [List.length_append]; rfl) ha) hb
      cases w <;> exact hl _ _ _
    · rw [rstep_at (hk rfl).type hk', compileAt, drop_at hk']
      simp only [List.cons_append, List.append_assoc, rexec, scan_flatL hz, scan]
      exact .running (kept_at hs' (by rw [hk']; simp only [List.append_assoc, List.cons_append, List.nil_append])
        (by simp only [List.length_append, List.length_cons, List.length_nil]; omega) ha) hb
  | @branch st a as l S k n q hj ht hq hen =>
    obtain ⟨⟨u, v, g, b, hs, hk', ha, rfl⟩, hb⟩ := hr
    cases hi : a.place.instr a.func.body with
    | none =>
      rw [hi] at hj
      cases hj
    | some i =>
      rw [hi] at hj
      have kn := hk rfl
      have hh := kn.height hs hk' (.inl (by rw [hi]; exact Option.some_ne_none i))
      have hd := kn.table hs hk' (by rw [hi]; exact Option.some_ne_none i) l
      obtain ⟨w, w', hs', he, hgo⟩ := goal_land hs hq [.endOp]
      obtain ⟨r, rfl, _⟩ := splits_op hs hi (op_of_jump hj)
      obtain ⟨h1, h2⟩ := reg_jump (M := M) (st := st) (B := moveAt m K a.func a.locals.length u.length) (P := fun x => ((funcSpace m)[x]?.map fun t => t.params.length).getD 0)
        (Q := fun x => (m.types[x]?.map fun t => t.params.length).getD 0) (k := a.type.results.length) hj ha
      rw [rstep_at kn.type hk', compileAt_instr (w := r ++ [.endOp]) (drop_at hk'), hh, ← kn.locals, h1]
      simp only [moveAt, hd, ht, Option.getD_some]
      rw [hk', hgo]
      exact .running (kept_at hs' (by rw [hk', he]) rfl (agree_shift h2 hen)) hb
  | @call st a as i ls' S t f args rest hi h hp =>
    obtain ⟨⟨u, v, g, b, hs, hk', ha, rfl⟩, hb⟩ := hr
    have kn := hk rfl
    have hh := kn.height hs hk' (.inl (by rw [hi]; exact Option.some_ne_none i))
    obtain ⟨ops, hk2, hf⟩ := hK rfl
    obtain ⟨w, rfl, _⟩ := splits_op hs hi (op_of_call h)
    obtain ⟨h1, h2⟩ := reg_call (B := moveAt m K a.func a.locals.length u.length) (k := a.type.results.length) h ha hP' hQ'
    obtain ⟨h3, h4, h5, _⟩ := popArgs_file hp a.locals
    rw [rstep_at kn.type hk', compileAt_instr (w := w ++ [.endOp]) (drop_at hk'), hh, ← kn.locals, h1]
    simp only [rinvoke, FuncInst.type]
    rw [popArgs_window hp h2]
    rw [h3] at h2
    refine .running (kept_at (splits_start hf) hk2 rfl ?_) (.cons ⟨kept_at hs hk' rfl (agree_pre h2), ?_, i, hi, op_of_call h⟩ hb)
    · rw [file_nil, List.map_append, cells_zero]
      exact agree_fresh _ _
    · exact h5.trans (file_length _ _)
  | @host st a as i ls' S t id args rest st' us hi h hp hh' =>
    obtain ⟨⟨u, v, g, b, hs, hk', ha, rfl⟩, hb⟩ := hr
    have kn := hk rfl
    have hh := kn.height hs hk' (.inl (by rw [hi]; exact Option.some_ne_none i))
    obtain ⟨w, rfl, hs'⟩ := splits_op hs hi (op_of_call h)
    obtain ⟨h1, h2⟩ := reg_call (B := moveAt m K a.func a.locals.length u.length) (k := a.type.results.length) h ha hP' hQ'
    obtain ⟨h3, h4, h5, h6⟩ := popArgs_file hp a.locals
    rw [rstep_at kn.type hk', compileAt_instr (w := w ++ [.endOp]) (drop_at hk'), hh, ← kn.locals, h1]
    simp only [rinvoke, FuncInst.type]
    rw [popArgs_window hp h2, h6, hh']
    rw [h3] at h2
    refine .running (kept_at hs' (hk'.trans ap) (by rw [List.length_append]; rfl) ?_) hb
    rw [file_append]
    exact agree_putAll h2 h5
  | @hostTrap st a as i ls' S t id args rest st' hi h hp hh' =>
    obtain ⟨⟨u, v, g, b, hs, hk', ha, rfl⟩, hb⟩ := hr
    have kn := hk rfl
    have hh := kn.height hs hk' (.inl (by rw [hi]; exact Option.some_ne_none i))
    obtain ⟨w, rfl, hs'⟩ := splits_op hs hi (op_of_call h)
    obtain ⟨h1, h2⟩ := reg_call (B := moveAt m K a.func a.locals.length u.length) (k := a.type.results.length) h ha hP' hQ'
    obtain ⟨h3, h4, h5, h6⟩ := popArgs_file hp a.locals
    rw [rstep_at kn.type hk', compileAt_instr (w := w ++ [.endOp]) (drop_at hk'), hh, ← kn.locals, h1]
    simp only [rinvoke, FuncInst.type]
    rw [popArgs_window hp h2, h6, hh']
    exact .trapped
  | @back st a a' as us rest hi hp =>
    obtain ⟨⟨u, v, g, b, hs, hk', ha, rfl⟩, hb⟩ := hr
    have kn := hk rfl
    have hh := kn.height hs hk' (hi.imp (fun hi => by rw [hi]; exact Option.some_ne_none _) (·.2))
    cases hb with
    | cons hw hb =>
      have h1 := leave_kept (st := st) hp ha hw hb
      rcases hi with hi | ⟨hi, ho⟩
      · obtain ⟨w, rfl, _⟩ := splits_op hs hi rfl
        rw [rstep_at kn.type hk', compileAt_instr (w := w ++ [.endOp]) (drop_at hk'), hh, ← kn.locals]
        exact h1
      · cases (splits_end hs hi ho).1
        rw [rstep_at kn.type hk', compileAt, drop_at hk', hh, ← kn.locals]
        exact h1
  | @last st a us rest hi hp =>
    obtain ⟨⟨u, v, g, b, hs, hk', ha, rfl⟩, hb⟩ := hr
    have kn := hk rfl
    have hh := kn.height hs hk' (hi.imp (fun hi => by rw [hi]; exact Option.some_ne_none _) (·.2))
    cases hb
    have h1 : rleave st a.type (window g (a.locals.length + a.stack.length - a.type.results.length) a.type.results.length) [] = .finished st us := by
      rw [popArgs_window hp ha, rleave, (popArgs_file hp a.locals).2.2.2]
    rcases hi with hi | ⟨hi, ho⟩
    · obtain ⟨w, rfl, _⟩ := splits_op hs hi rfl
      rw [rstep_at kn.type hk', compileAt_instr (w := w ++ [.endOp]) (drop_at hk'), hh, ← kn.locals]
      simp only [rinstr, rexec]
      rw [h1]
      exact .finished
    · cases (splits_end hs hi ho).1
      rw [rstep_at kn.type hk', compileAt, drop_at hk', hh, ← kn.locals]
      simp only [List.nil_append, rexec]
      rw [h1]
      exact .finished

end Whasm.Run
