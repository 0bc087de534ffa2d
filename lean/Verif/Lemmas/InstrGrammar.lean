import Verif.Lemmas.Instrs

/-!
# The parser of expressions against the grammar
-/

namespace Whasm
open Spec

/-! ## Soundness -/

section
variable {α β : Type}

/-- `p` succeeds only on the byte strings of `G`. -/
def Sound (p : P α) (G : List Byte → α → Prop) : Prop :=
  ∀ s x r, p s = (.ok x, r) → ∃ b, s = b ++ r ∧ G b x

theorem Parses.sound {p : P α} {G : List Byte → α → Prop} (h : Parses p G) : Sound p G := fun s x r => (h s x r).mp

theorem Sound.mono {p : P α} {G H : List Byte → α → Prop} (h : Sound p G) (e : ∀ b x, G b x → H b x) : Sound p H := by
  intro s x r hs
  obtain ⟨b, h1, h2⟩ := h s x r hs
  exact ⟨b, h1, e b x h2⟩

theorem Sound.bind {p : P α} {f : α → P β} {G : List Byte → α → Prop} {H : α → List Byte → β → Prop}
    (hp : Sound p G) (hf : ∀ x, Sound (f x) (H x)) :
    Sound (p >>= f) fun b y => ∃ b1 x b2, G b1 x ∧ H x b2 y ∧ b = b1 ++ b2 := by
  intro s y r h
  obtain ⟨x, s', h1, h2⟩ := bind_ok_iff.mp h
  obtain ⟨b1, rfl, hg⟩ := hp _ _ _ h1
  obtain ⟨b2, rfl, hh⟩ := hf x _ _ _ h2
  exact ⟨b1 ++ b2, by rw [List.append_assoc], b1, x, b2, hg, hh, rfl⟩

theorem Sound.map {p : P α} {G : List Byte → α → Prop} (f : α → β) (hp : Sound p G) :
    Sound (p >>= fun x => pure (f x)) fun b y => ∃ x, G b x ∧ y = f x := by
  refine (Sound.bind hp fun x => (parses_pure (f x)).sound).mono fun b y => ?_
  rintro ⟨b1, x, b2, h, ⟨rfl, rfl⟩, rfl⟩; exact ⟨x, by simpa using h, rfl⟩

end

/-- An instruction or one of the two markers. -/
def GAny (b : List Byte) (i : Instr) : Prop :=
  GInstr .code b i ∨ (b = [0x0B] ∧ i = .endMark) ∨ (b = [0x05] ∧ i = .elseMark)

/-- A sequence of instructions closed by a marker. -/
def GSub (b : List Byte) (se : SubExpr) : Prop :=
  ∃ b', GInstrs .code b' se.body ∧
    ((b = b' ++ [0x0B] ∧ se.next = .endMark) ∨ (b = b' ++ [0x05] ∧ se.next = .elseMark))

theorem ginstr_not_mark {b : List Byte} {i : Instr} {D : Dialect} (h : GInstr D b i) : i ≠ .endMark ∧ i ≠ .elseMark := by
  cases h <;> simp

theorem sound_exprOf {sub : P SubExpr} (h : Sound sub GSub) : Sound (exprOf sub) (GExpr .code) := by
  refine (Sound.bind (H := fun se b e => b = [] ∧ se.next = .endMark ∧ e = se.body) h fun se => ?_).mono fun b e => ?_
  · split
    · rename_i hn
      exact (parses_pure _).sound.mono fun b e h => ⟨h.1, hn, h.2⟩
    · exact (parses_fail _).sound.mono fun _ _ h => h.elim
    · exact (parses_fail _).sound.mono fun _ _ h => h.elim
  · rintro ⟨b1, se, b2, ⟨b', h1, h2⟩, ⟨rfl, h3, rfl⟩, rfl⟩
    rcases h2 with ⟨rfl, _⟩ | ⟨_, h2⟩
    · rw [List.append_nil]; exact .mk h1
    · rw [h3] at h2; cases h2

theorem isEnd_iff (i : Instr) : i.isEnd = true ↔ i = .endMark := by cases i <;> simp [Instr.isEnd]
theorem isElse_iff (i : Instr) : i.isElse = true ↔ i = .elseMark := by cases i <;> simp [Instr.isElse]

theorem sound_ifOf {sub : P SubExpr} (h : Sound sub GSub) :
    Sound (ifOf sub) fun b i => GInstr .code (0x04 :: b) i := by
  refine (Sound.bind parses_retVal.sound fun ret => Sound.bind h fun s1 =>
    Sound.bind (G := fun b bn => (s1.next = .elseMark ∧ GSub b ⟨bn.1, bn.2⟩) ∨ (s1.next ≠ .elseMark ∧ b = [] ∧ bn = ([], s1.next)))
      (H := fun bn b i => b = [] ∧ bn.2 = .endMark ∧ i = .ifElse ret s1.body bn.1) ?_ fun bn => ?_).mono fun b i => ?_
  · unfold elsePart
    split
    next he =>
      rw [isElse_iff] at he
      refine (Sound.map _ h).mono fun b bn => ?_
      rintro ⟨se, h1, rfl⟩; exact .inl ⟨he, h1⟩
    next he =>
      rw [isElse_iff] at he
      exact (parses_pure _).sound.mono fun b bn h => .inr ⟨he, h⟩
  · split
    next he =>
      rw [isEnd_iff] at he
      exact (parses_pure _).sound.mono fun b i h => ⟨h.1, he, h.2⟩
    next => exact (parses_fail _).sound.mono fun _ _ h => h.elim
  · rintro ⟨b1, ret, _, hr, ⟨b2, s1, _, ⟨b2', h1, h2⟩, ⟨b3, bn, _, h3, ⟨rfl, he, rfl⟩, rfl⟩, rfl⟩, rfl⟩
    rcases h3 with ⟨hs, b3', h4, h5⟩ | ⟨hs, rfl, rfl⟩
    · rcases h2 with ⟨_, h2⟩ | ⟨rfl, _⟩
      · rw [hs] at h2; cases h2
      rcases h5 with ⟨rfl, _⟩ | ⟨_, h5⟩
      · have := GInstr.ifElse (D := .code) hr h1 h4
        simpa using this
      · simp only at h5; rw [he] at h5; cases h5
    · rcases h2 with ⟨rfl, _⟩ | ⟨_, h2⟩
      · have := GInstr.ifThen (D := .code) hr h1
        simpa using this
      · exact (hs h2).elim

theorem lookup_mem {β : Type} {l : List (Nat × β)} {n : Nat} {x : β} (h : l.lookup n = some x) : (n, x) ∈ l := by
  induction l with
  | nil => cases h
  | cons e l ih =>
    obtain ⟨k, y⟩ := e
    rw [List.lookup_cons] at h
    split at h
    next hk => cases h; simp at hk; simp [hk]
    next => exact List.mem_cons_of_mem _ (ih h)

theorem loadTable_opcode {c : Byte} {op : LoadOp} (h : loadTable.lookup c.toNat = some op) : c = loadOpcode op := by
  have key : ∀ e ∈ loadTable, UInt8.ofNat e.1 = loadOpcode e.2 := by decide
  have := key _ (lookup_mem h)
  simpa using this

theorem storeTable_opcode {c : Byte} {op : StoreOp} (h : storeTable.lookup c.toNat = some op) : c = storeOpcode op := by
  have key : ∀ e ∈ storeTable, UInt8.ofNat e.1 = storeOpcode e.2 := by decide
  have := key _ (lookup_mem h)
  simpa using this

theorem numTable_opcode {c : Byte} {op : NumOp} (h : numTable.lookup c.toNat = some op) : c = numOpcode op := by
  have key : ∀ e ∈ numTable, UInt8.ofNat e.1 = numOpcode e.2 := by decide +kernel
  have := key _ (lookup_mem h)
  simpa using this

theorem sound_instrTail (c : Byte) : Sound (instrTail c) fun b i => GInstr .code (c :: b) i := by
  unfold instrTail
  split
  next op hop =>
    refine (Sound.bind parses_u32.sound fun _ => Sound.map _ parses_u32.sound).mono fun b i => ?_
    rintro ⟨b1, x, b2, h1, ⟨y, h2, rfl⟩, rfl⟩
    rw [loadTable_opcode hop]
    exact .load op h1 h2
  next =>
  split
  next op hop =>
    refine (Sound.bind parses_u32.sound fun _ => Sound.map _ parses_u32.sound).mono fun b i => ?_
    rintro ⟨b1, x, b2, h1, ⟨y, h2, rfl⟩, rfl⟩
    rw [storeTable_opcode hop]
    exact .store op h1 h2
  next =>
  split
  next op hop =>
    refine (parses_pure _).sound.mono fun b i => ?_
    rintro ⟨rfl, rfl⟩
    rw [numTable_opcode hop]
    exact .num op
  next => exact (parses_fail _).sound.mono fun _ _ h => h.elim

theorem parses_idx : Parses parseIdx Dialect.code.u32 := parses_u32

theorem sound_simple {α : Type} {p : P α} {G : List Byte → α → Prop} (hp : Parses p G) (f : α → Instr) {c : Byte}
    (h : ∀ b x, G b x → GInstr .code (c :: b) (f x)) : Sound (p >>= fun x => pure (f x)) fun b i => GAny (c :: b) i := by
  refine (Sound.map f hp.sound).mono fun b i => ?_
  rintro ⟨x, h1, rfl⟩; exact .inl (h b x h1)

theorem sound_const {c : Byte} {i : Instr} (h : GAny [c] i) : Sound (pure i : P Instr) fun b i => GAny (c :: b) i := by
  refine (parses_pure i).sound.mono fun b j => ?_
  rintro ⟨rfl, rfl⟩; exact h

theorem sound_instrAt {sub : P SubExpr} (h : Sound sub GSub) (c : Byte) :
    Sound (instrAt sub c) fun b i => GAny (c :: b) i := by
  have he := sound_exprOf h
  have hi := sound_ifOf h
  unfold instrAt
  split
  case h_27 => exact (sound_instrTail c).mono fun b i h => .inl h
  all_goals
    rename_i hc
    obtain rfl := byte_of_toNat hc
  · exact sound_const (.inl .unreachable)
  · exact sound_const (.inl .nop)
  · refine (Sound.bind parses_retVal.sound fun _ => Sound.map _ he).mono fun b i => ?_
    rintro ⟨b1, ret, _, h1, ⟨e, ⟨h2⟩, rfl⟩, rfl⟩
    refine .inl ?_
    have := GInstr.block (D := .code) h1 h2
    simpa using this
  · refine (Sound.bind parses_retVal.sound fun _ => Sound.map _ he).mono fun b i => ?_
    rintro ⟨b1, ret, _, h1, ⟨e, ⟨h2⟩, rfl⟩, rfl⟩
    refine .inl ?_
    have := GInstr.loop (D := .code) h1 h2
    simpa using this
  · exact hi.mono fun b i h => .inl h
  · exact sound_const (.inr (.inr ⟨rfl, rfl⟩))
  · exact sound_const (.inr (.inl ⟨rfl, rfl⟩))
  · exact sound_simple parses_idx _ fun _ _ h => .br h
  · exact sound_simple parses_idx _ fun _ _ h => .brIf h
  · refine (Sound.bind (parses_vec parses_idx).sound fun _ => Sound.map _ parses_idx.sound).mono fun b i => ?_
    rintro ⟨b1, ls, b2, h1, ⟨l, h2, rfl⟩, rfl⟩; exact .inl (.brTable h1 h2)
  · exact sound_const (.inl .ret)
  · exact sound_simple parses_idx _ fun _ _ h => .call h
  · refine (Sound.bind parses_idx.sound fun _ => Sound.map _ parses_idx.sound).mono fun b i => ?_
    rintro ⟨b1, ls, b2, h1, ⟨l, h2, rfl⟩, rfl⟩; exact .inl (.callIndirect h1 h2)
  · exact sound_const (.inl .drop)
  · exact sound_const (.inl .select)
  · exact sound_simple parses_idx _ fun _ _ h => .localGet h
  · exact sound_simple parses_idx _ fun _ _ h => .localSet h
  · exact sound_simple parses_idx _ fun _ _ h => .localTee h
  · exact sound_simple parses_idx _ fun _ _ h => .globalGet h
  · exact sound_simple parses_idx _ fun _ _ h => .globalSet h
  · exact sound_simple parses_idx _ fun _ _ h => .memSize h
  · exact sound_simple parses_idx _ fun _ _ h => .memGrow h
  · exact sound_simple parses_s32 _ fun _ _ h => .constI32 h
  · exact sound_simple parses_s64 _ fun _ _ h => .constI64 h
  · exact sound_simple (parses_float 4) _ fun _ _ h => .constF32 h
  · exact sound_simple (parses_float 8) _ fun _ _ h => .constF64 h

theorem sound_instrOf {sub : P SubExpr} (h : Sound sub GSub) : Sound (instrOf sub) GAny := by
  refine (Sound.bind parses_byte.sound fun c => sound_instrAt h c).mono fun b i => ?_
  rintro ⟨_, c, b2, ⟨⟩, h, rfl⟩; exact h

theorem sound_subStep {sub : P SubExpr} (h : Sound sub GSub) (next : Instr) :
    Sound (subStep sub next) fun b se =>
      (next = .endMark ∧ b = [] ∧ se = ⟨[], .endMark⟩) ∨ (next = .elseMark ∧ b = [] ∧ se = ⟨[], .elseMark⟩) ∨
      (next ≠ .endMark ∧ next ≠ .elseMark ∧ ∃ se', GSub b se' ∧ se = ⟨next :: se'.body, se'.next⟩) := by
  unfold subStep
  split
  · exact (parses_pure _).sound.mono fun b se h => .inl ⟨rfl, h⟩
  · exact (parses_pure _).sound.mono fun b se h => .inr (.inl ⟨rfl, h⟩)
  · rename_i h1 h2
    refine (Sound.map _ h).mono fun b se => ?_
    rintro ⟨se', h3, rfl⟩; exact .inr (.inr ⟨h1, h2, se', h3, rfl⟩)

theorem sound_subExpr (fuel : Nat) : Sound (parseSubExpr fuel) GSub := by
  induction fuel with
  | zero => exact (parses_fail _).sound.mono fun _ _ h => h.elim
  | succ fuel ih =>
    rw [parseSubExpr_succ]
    refine (Sound.bind (sound_instrOf ih) (sound_subStep ih)).mono fun b se => ?_
    rintro ⟨b1, next, b2, h1, h2, rfl⟩
    rcases h2 with ⟨rfl, rfl, rfl⟩ | ⟨rfl, rfl, rfl⟩ | ⟨hn1, hn2, se', ⟨b', h3, h4⟩, rfl⟩
    · rcases h1 with h1 | ⟨rfl, _⟩ | ⟨_, h1⟩
      · exact ((ginstr_not_mark h1).1 rfl).elim
      · exact ⟨[], .nil, .inl ⟨rfl, rfl⟩⟩
      · cases h1
    · rcases h1 with h1 | ⟨_, h1⟩ | ⟨rfl, _⟩
      · exact ((ginstr_not_mark h1).2 rfl).elim
      · cases h1
      · exact ⟨[], .nil, .inr ⟨rfl, rfl⟩⟩
    · rcases h1 with h1 | ⟨_, h1⟩ | ⟨_, h1⟩
      · refine ⟨b1 ++ b', .cons h1 h3, ?_⟩
        rcases h4 with ⟨rfl, h4⟩ | ⟨rfl, h4⟩
        · exact .inl ⟨by simp, h4⟩
        · exact .inr ⟨by simp, h4⟩
      · exact (hn1 h1).elim
      · exact (hn2 h1).elim

/-! ## Completeness -/

theorem retVal_complete {b : List Byte} {t : RetVal} (h : GRetVal b t) (r : List Byte) : parseRetVal (b ++ r) = (.ok t, r) :=
  parses_retVal.complete h r

theorem instrOf_cons (sub : P SubExpr) (c : Byte) (s : List Byte) : instrOf sub (c :: s) = instrAt sub c s := rfl

theorem map_complete {α β : Type} {p : P α} {s r : List Byte} {x : α} (h : p s = (.ok x, r)) (f : α → β) :
    (p >>= fun x => pure (f x)) s = (.ok (f x), r) := by rw [bind_of_ok h]; rfl

theorem instrAt_load (sub : P SubExpr) (op : LoadOp) : instrAt sub (loadOpcode op) = (do
    let a ← parseU32
    let b ← parseU32
    pure (.load op a b)) := by cases op <;> rfl

theorem instrAt_store (sub : P SubExpr) (op : StoreOp) : instrAt sub (storeOpcode op) = (do
    let a ← parseU32
    let b ← parseU32
    pure (.store op a b)) := by cases op <;> rfl

theorem instrAt_num (sub : P SubExpr) (op : NumOp) : instrAt sub (numOpcode op) = pure (.num op) := by cases op <;> rfl

/-- A marker that closes a sequence of instructions. -/
inductive IsMark : Byte → Instr → Prop
  | fin : IsMark 0x0B .endMark
  | els : IsMark 0x05 .elseMark

theorem subStep_other {sub : P SubExpr} {i : Instr} (h : i ≠ .endMark ∧ i ≠ .elseMark) :
    subStep sub i = (do
      let rest ← sub
      pure { body := i :: rest.body, next := rest.next }) := by
  cases i <;> first | rfl | simp at h

theorem ginstr_ne_nil {D : Dialect} {b : List Byte} {i : Instr} (h : GInstr D b i) : b ≠ [] := by
  cases h <;> simp

theorem instr_complete {b : List Byte} {i : Instr} (h : GInstr .code b i) :
    ∀ fuel, b.length ≤ fuel → ∀ r, instrOf (parseSubExpr fuel) (b ++ r) = (.ok i, r) := by
  refine GInstr.rec (D := .code)
    (motive_1 := fun b i _ => ∀ fuel, b.length ≤ fuel → ∀ r, instrOf (parseSubExpr fuel) (b ++ r) = (.ok i, r))
    (motive_2 := fun b is _ => ∀ fuel, b.length < fuel → ∀ c m, IsMark c m → ∀ r,
      parseSubExpr fuel (b ++ (c :: r)) = (.ok ⟨is, m⟩, r))
    ?_ ?_ ?_ ?_ ?_ ?_ ?_ ?_ ?_ ?_ ?_ ?_ ?_ ?_ ?_ ?_ ?_ ?_ ?_ ?_ ?_ ?_ ?_ ?_ ?_ ?_ ?_ ?_ ?_ ?_ h
  · intros; rfl
  · intros; rfl
  · intro b1 b2 t is ht _ ih fuel hf r
    simp only [List.length_append, List.length_cons] at hf
    simp only [List.cons_append, List.append_assoc, List.nil_append]
    rw [instrOf_cons]
    show (parseRetVal >>= _) _ = _
    rw [bind_of_ok (retVal_complete ht _)]
    have : exprOf (parseSubExpr fuel) (b2 ++ 0x0B :: r) = (.ok is, r) := by
      unfold exprOf; rw [bind_of_ok (ih fuel (by omega) 0x0B _ .fin r)]; rfl
    exact map_complete this _
  · intro b1 b2 t is ht _ ih fuel hf r
    simp only [List.length_append, List.length_cons] at hf
    simp only [List.cons_append, List.append_assoc, List.nil_append]
    rw [instrOf_cons]
    show (parseRetVal >>= _) _ = _
    rw [bind_of_ok (retVal_complete ht _)]
    have : exprOf (parseSubExpr fuel) (b2 ++ 0x0B :: r) = (.ok is, r) := by
      unfold exprOf; rw [bind_of_ok (ih fuel (by omega) 0x0B _ .fin r)]; rfl
    exact map_complete this _
  · intro b1 b2 t is ht _ ih fuel hf r
    simp only [List.length_append, List.length_cons] at hf
    simp only [List.cons_append, List.append_assoc, List.nil_append]
    rw [instrOf_cons]
    show ifOf _ _ = _
    unfold ifOf
    rw [bind_of_ok (retVal_complete ht _), bind_of_ok (ih fuel (by omega) 0x0B _ .fin r)]
    rfl
  · intro b1 b2 b3 t is js ht _ _ ih1 ih2 fuel hf r
    simp only [List.length_append, List.length_cons] at hf
    simp only [List.cons_append, List.append_assoc, List.nil_append]
    rw [instrOf_cons]
    show ifOf _ _ = _
    unfold ifOf
    rw [bind_of_ok (retVal_complete ht _), bind_of_ok (ih1 fuel (by omega) 0x05 _ .els _)]
    have : elsePart (parseSubExpr fuel) ⟨is, .elseMark⟩ (b3 ++ 0x0B :: r) = (.ok (js, .endMark), r) := by
      unfold elsePart
      exact map_complete (ih2 fuel (by omega) 0x0B _ .fin r) _
    rw [bind_of_ok this]
    rfl
  · intro b l h fuel _ r; exact map_complete (parses_idx.complete h r) _
  · intro b l h fuel _ r; exact map_complete (parses_idx.complete h r) _
  · intro b1 b2 ls l h1 h2 fuel _ r
    rw [List.cons_append, List.cons_append, List.append_assoc, instrOf_cons]
    show (parseVec parseIdx >>= _) _ = _
    rw [bind_of_ok ((parses_vec parses_idx).complete h1 _)]
    exact map_complete (parses_idx.complete h2 r) _
  · intros; rfl
  · intro b l h fuel _ r; exact map_complete (parses_idx.complete h r) _
  · intro b1 b2 x y h1 h2 fuel _ r
    rw [List.cons_append, List.cons_append, List.append_assoc, instrOf_cons]
    show (parseIdx >>= _) _ = _
    rw [bind_of_ok (parses_idx.complete h1 _)]
    exact map_complete (parses_idx.complete h2 r) _
  · intros; rfl
  · intros; rfl
  · intro b l h fuel _ r; exact map_complete (parses_idx.complete h r) _
  · intro b l h fuel _ r; exact map_complete (parses_idx.complete h r) _
  · intro b l h fuel _ r; exact map_complete (parses_idx.complete h r) _
  · intro b l h fuel _ r; exact map_complete (parses_idx.complete h r) _
  · intro b l h fuel _ r; exact map_complete (parses_idx.complete h r) _
  · intro b1 b2 x y op h1 h2 fuel _ r
    rw [List.cons_append, List.cons_append, List.append_assoc, instrOf_cons, instrAt_load]
    rw [bind_of_ok (parses_u32.complete h1 _)]
    exact map_complete (parses_u32.complete h2 r) _
  · intro b1 b2 x y op h1 h2 fuel _ r
    rw [List.cons_append, List.cons_append, List.append_assoc, instrOf_cons, instrAt_store]
    rw [bind_of_ok (parses_u32.complete h1 _)]
    exact map_complete (parses_u32.complete h2 r) _
  · intro b l h fuel _ r; exact map_complete (parses_idx.complete h r) _
  · intro b l h fuel _ r; exact map_complete (parses_idx.complete h r) _
  · intro b l h fuel _ r; exact map_complete (parses_s32.complete h r) _
  · intro b l h fuel _ r; exact map_complete (parses_s64.complete h r) _
  · intro b l h fuel _ r; exact map_complete ((parses_float 4).complete h r) _
  · intro b l h fuel _ r; exact map_complete ((parses_float 8).complete h r) _
  · intro op fuel _ r
    rw [List.cons_append, instrOf_cons, instrAt_num]; rfl
  · intro fuel hf c m hm r
    obtain ⟨fuel, rfl⟩ : ∃ n, fuel = n + 1 := ⟨fuel - 1, by omega⟩
    cases hm <;> rfl
  · intro b bs i is hi _ ih1 ih2 fuel hf c m hm r
    obtain ⟨fuel, rfl⟩ : ∃ n, fuel = n + 1 := ⟨fuel - 1, by omega⟩
    have hb : 0 < b.length := List.length_pos_iff.mpr (ginstr_ne_nil hi)
    simp only [List.length_append] at hf
    rw [parseSubExpr_succ, List.append_assoc, bind_of_ok (ih1 fuel (by omega) _), subStep_other (ginstr_not_mark hi)]
    rw [bind_of_ok (ih2 fuel (by omega) c m hm r)]
    rfl

theorem instrs_complete {b : List Byte} {is : List Instr} (h : GInstrs .code b is) :
    ∀ fuel, b.length < fuel → ∀ c m, IsMark c m → ∀ r, parseSubExpr fuel (b ++ (c :: r)) = (.ok ⟨is, m⟩, r) := by
  intro fuel
  induction fuel generalizing b is with
  | zero => intro hf; omega
  | succ fuel ih =>
    intro hf c m hm r
    cases h with
    | nil => cases hm <;> rfl
    | @cons b bs i is h1 h2 =>
      have hb : 0 < b.length := List.length_pos_iff.mpr (ginstr_ne_nil h1)
      simp only [List.length_append] at hf
      rw [parseSubExpr_succ, List.append_assoc, bind_of_ok (instr_complete h1 fuel (by omega) _),
        subStep_other (ginstr_not_mark h1), bind_of_ok (ih h2 (by omega) c m hm r)]
      rfl

theorem parses_expr : Parses parseExpr (GExpr .code) := by
  intro s e r
  constructor
  · exact sound_exprOf (sound_subExpr (s.length + 1)) s e r
  · rintro ⟨b, rfl, ⟨h⟩⟩
    unfold parseExpr exprOf
    rw [List.append_assoc, List.singleton_append, bind_of_ok (instrs_complete h _ (by simp; omega) _ _ .fin r)]
    rfl

theorem parses_instr : Parses parseInstr GAny := by
  intro s e r
  constructor
  · exact sound_instrOf (sound_subExpr (s.length + 1)) s e r
  · rintro ⟨b, rfl, h | ⟨rfl, rfl⟩ | ⟨rfl, rfl⟩⟩
    · exact instr_complete h _ (by simp; omega) r
    · rfl
    · rfl

end Whasm
