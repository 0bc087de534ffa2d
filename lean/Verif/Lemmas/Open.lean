import Verif.Lemmas.Native
import Verif.Lemmas.Fault
import Verif.Spec.Open

/-!
# Where a bounded native stack is exhausted
-/

namespace Whasm
open Spec

section
variable {α β : Type}

/-- The parser `q` aborts or does the same as `p`. -/
def Weak (q p : P α) : Prop := ∀ s, (q s).1 = .error .panic ∨ q s = p s

theorem Lim.weak {q p : P α} {A : α → Prop} (h : Lim q p A) : Weak q p := fun s => (h s).imp (·.1) (·.1)

theorem weak_refl (p : P α) : Weak p p := fun _ => .inr rfl

theorem panic_bind {q : P α} {g : α → P β} {s : List Byte} (h : (q s).1 = .error .panic) : ((q >>= g) s).1 = .error .panic := by
  rcases hq : q s with ⟨e, r⟩
  rw [hq] at h
  cases h
  rw [bind_of_error hq]

theorem Weak.bind {q p : P α} {g f : α → P β} (h : Weak q p) (h1 : ∀ x, Weak (g x) (f x)) : Weak (q >>= g) (p >>= f) := fun s => by
  rcases h s with h | h
  · exact .inl (panic_bind h)
  · rcases hp : p s with ⟨e | x, r⟩
    · exact .inr (by rw [bind_of_error (h.trans hp), bind_of_error hp])
    · rw [bind_of_ok (h.trans hp), bind_of_ok hp]; exact h1 x r

/-- Results under `Weak` are those of `p`. -/
theorem Weak.sound {q p : P α} {G : List Byte → α → Prop} (h : Weak q p) (hp : Sound p G) : Sound q G := fun s x r hs => by
  rcases h s with k | k
  · rw [hs] at k; cases k
  · exact hp s x r (k ▸ hs)

/-- An abort of `q` is after bytes `A`. -/
def Exhausts (q : P α) (A : List Byte → Prop) : Prop := ∀ s, (q s).1 = .error .panic → ∃ read rest, s = read ++ rest ∧ A read

/-- After the bytes `A`, the parser `q` aborts. -/
def ExhaustsAt (q : P α) (A : List Byte → Prop) : Prop := ∀ read rest, A read → (q (read ++ rest)).1 = .error .panic

theorem exhausts_good {p : P α} {A : List Byte → Prop} (h : Good p) : Exhausts p A := fun s hs => (h.noPanic s hs).elim

theorem Exhausts.mono {q : P α} {A B : List Byte → Prop} (h : Exhausts q A) (k : ∀ read, A read → B read) : Exhausts q B := fun s hs => by
  obtain ⟨read, rest, h1, h2⟩ := h s hs
  exact ⟨read, rest, h1, k _ h2⟩

theorem Exhausts.bind {q : P α} {g : α → P β} {A C : List Byte → Prop} {G : List Byte → α → Prop} (h : Exhausts q A) (hG : Sound q G) (hA : ∀ read, A read → C read)
    (hg : ∀ b x, G b x → Exhausts (g x) fun read => C (b ++ read)) : Exhausts (q >>= g) C := fun s hs => by
  rcases bind_cases q g s with ⟨x, s', k1, k2⟩ | ⟨e, s', k1, k2⟩
  · obtain ⟨b, rfl, hb⟩ := hG _ _ _ k1
    obtain ⟨read, rest, rfl, k3⟩ := hg b x hb s' (k2 ▸ hs)
    exact ⟨b ++ read, rest, by simp, k3⟩
  · rw [k2] at hs
    exact (h.mono hA) s (by rw [k1]; cases hs; rfl)

theorem Exhausts.map {q : P α} {A : List Byte → Prop} {f : α → β} (h : Exhausts q A) : Exhausts (q >>= fun x => pure (f x)) A := fun s hs => by
  rcases bind_cases q (fun x => (pure (f x) : P β)) s with ⟨x, s', k1, k2⟩ | ⟨e, s', k1, k2⟩
  · rw [k2] at hs; cases hs
  · rw [k2] at hs; exact h s (by rw [k1]; cases hs; rfl)

theorem ExhaustsAt.first {q : P α} {g : α → P β} {A : List Byte → Prop} (h : ExhaustsAt q A) : ExhaustsAt (q >>= g) A := fun read rest hr => panic_bind (h read rest hr)

theorem ExhaustsAt.behind {q p : P α} {g : α → P β} {A : List Byte → Prop} {G : List Byte → α → Prop} (hw : Weak q p) (hG : Parses p G) (h : ∀ x, ExhaustsAt (g x) A) :
    ExhaustsAt (q >>= g) (Behind G A) := by
  rintro _ rest ⟨hb, hr⟩
  rw [List.append_assoc]
  rcases hw (_ ++ (_ ++ rest)) with k | k
  · exact panic_bind k
  · rw [bind_of_ok (k.trans (hG.complete hb _))]
    exact h _ _ _ hr

/-! ## Vectors and sizes -/

theorem exhausts_parseN {q : P α} {A : List Byte → Prop} {G : List Byte → α → Prop} (h : Exhausts q A) (hG : Sound q G) : ∀ n, Exhausts (parseN n q) fun read =>
    ∃ bs xs c, read = bs ++ c ∧ GSeq G bs xs ∧ xs.length < n ∧ A c
  | 0 => fun s hs => by cases hs
  | n + 1 => by
    refine Exhausts.bind (G := G) h hG (fun read hr => ⟨[], [], read, rfl, .nil, by simp, hr⟩) fun b x hb => ?_
    refine (exhausts_parseN h hG n).map.mono ?_
    rintro _ ⟨bs, xs, c, rfl, h1, h2, h3⟩
    exact ⟨b ++ bs, x :: xs, c, by simp, .cons hb h1, by simpa using h2, h3⟩

theorem exhaustsAt_parseN {q p : P α} {A : List Byte → Prop} {G : List Byte → α → Prop} (hw : Weak q p) (hG : Parses p G) (h : ExhaustsAt q A) : ∀ n, ExhaustsAt (parseN n q) fun read =>
    ∃ bs xs c, read = bs ++ c ∧ GSeq G bs xs ∧ xs.length < n ∧ A c
  | 0 => by rintro _ rest ⟨bs, xs, c, _, _, h, _⟩; omega
  | n + 1 => by
    rintro _ rest ⟨bs, xs, c, rfl, h1, h2, h3⟩
    cases h1 with
    | nil => exact panic_bind (h c rest h3)
    | @cons b bs x xs hb h1 =>
      refine ExhaustsAt.behind hw hG (fun x => (exhaustsAt_parseN hw hG h n).first) (b ++ bs ++ c) rest ?_
      rw [List.append_assoc]
      exact .mk hb ⟨bs, xs, c, rfl, h1, by simpa using h2, h3⟩

theorem exhausts_vec {q : P α} {A : List Byte → Prop} {G : List Byte → α → Prop} (h : Exhausts q A) (hG : Sound q G) : Exhausts (parseVec q) (InVec G A) := by
  refine Exhausts.bind (exhausts_good (A := fun _ => False) good_u32) parses_u32.sound (fun _ h => h.elim) fun b n hb => (exhausts_parseN h hG n.toNat).mono ?_
  rintro _ ⟨bs, xs, c, rfl, h1, h2, h3⟩
  rw [← List.append_assoc]
  exact .mk hb h1 h2 h3

theorem exhaustsAt_vec {q p : P α} {A : List Byte → Prop} {G : List Byte → α → Prop} (hw : Weak q p) (hG : Parses p G) (h : ExhaustsAt q A) : ExhaustsAt (parseVec q) (InVec G A) := by
  rintro _ rest ⟨hn, h1, h2, h3⟩
  rw [List.append_assoc, List.append_assoc]
  show ((parseU32 >>= fun n => parseN n.toNat q) _).1 = _
  rw [bind_of_ok (parses_u32.complete hn _), ← List.append_assoc]
  exact exhaustsAt_parseN hw hG h _ _ rest ⟨_, _, _, rfl, h1, h2, h3⟩

theorem exhausts_sized {q : P α} {A : List Byte → Prop} (h : Exhausts q A) : Exhausts (parseSized q) (InSized A) := by
  rw [parseSized_eq]
  refine Exhausts.bind (exhausts_good (A := fun _ => False) good_u32) parses_u32.sound (fun _ h => h.elim) fun b n hb => fun s hs => ?_
  unfold sizedBody at hs
  rcases hq : q (s.take n.toNat) with ⟨e | x, r⟩ <;> rw [hq] at hs
  · obtain ⟨read, rest, h1, h2⟩ := h (s.take n.toNat) (by rw [hq]; exact hs)
    refine ⟨read, rest ++ s.drop n.toNat, by rw [← List.append_assoc, ← h1, List.take_append_drop], .mk hb ?_ h2⟩
    have := congrArg List.length h1
    rw [List.length_take, List.length_append] at this
    omega
  · simp only at hs
    split at hs <;> cases hs

theorem exhaustsAt_sized {q : P α} {A : List Byte → Prop} (h : ExhaustsAt q A) : ExhaustsAt (parseSized q) (InSized A) := by
  rintro _ rest ⟨hn, hl, hr⟩
  rename_i n part len
  rw [parseSized_eq, List.append_assoc, bind_of_ok (parses_u32.complete hn _)]
  have : (part ++ rest).take len.toNat = part ++ rest.take (len.toNat - part.length) := by
    rw [List.take_append, List.take_of_length_le hl]
  have h1 := h part (rest.take (len.toNat - part.length)) hr
  rw [← this] at h1
  rcases hq : q ((part ++ rest).take len.toNat) with ⟨e, r⟩
  rw [hq] at h1
  cases h1
  unfold sizedBody
  rw [hq]

end

/-! ## Instructions -/

/-- A block that begins with the first byte. -/
inductive InBlock (k : Nat) : List Byte → Prop
  | block {b1 read : List Byte} {c : Byte} {t : RetVal} : c ∈ blockOpcodes → GRetVal b1 t → Opens k read → InBlock k (c :: (b1 ++ read))
  | second {b1 b2 read : List Byte} {js : List Instr} {t : RetVal} : GRetVal b1 t → GInstrs .code b2 js → Opens k read → InBlock k (0x04 :: (b1 ++ (b2 ++ 0x05 :: read)))

theorem opens_succ {k : Nat} {read : List Byte} : Opens (k + 1) read ↔ ∃ b is r, read = b ++ r ∧ GInstrs .code b is ∧ InBlock k r := by
  constructor
  · intro h
    cases h with
    | block h1 h2 h3 h4 => exact ⟨_, _, _, by simp, h1, .block h2 h3 h4⟩
    | second h1 h2 h3 h4 => exact ⟨_, _, _, by simp, h1, .second h2 h3 h4⟩
  · rintro ⟨b, is, r, rfl, h1, h2⟩
    cases h2 with
    | block h2 h3 h4 => simpa using Opens.block h1 h2 h3 h4
    | second h2 h3 h4 => simpa using Opens.second h1 h2 h3 h4

variable {q : P SubExpr}

theorem exhausts_exprOf {A : List Byte → Prop} (h : Exhausts q A) (hs : Sound q GSub) : Exhausts (exprOf q) A := by
  refine h.bind hs (fun _ h => h) fun b x _ => ?_
  obtain ⟨body, next⟩ := x
  cases next <;> first | exact exhausts_good (good_pure _) | exact exhausts_good (good_fail (by simp))

theorem exhausts_ifOf {k : Nat} (h : Exhausts q (Opens k)) (hs : Sound q GSub) : Exhausts (ifOf q) fun read => InBlock k (0x04 :: read) := by
  refine Exhausts.bind (exhausts_good (A := fun _ => False) good_retVal) parses_retVal.sound (fun _ h => h.elim) fun b1 t h1 => ?_
  refine h.bind hs (fun _ h2 => .block (by decide) h1 h2) fun b2 x h2 => ?_
  obtain ⟨c2, hi, hc⟩ := h2
  refine Exhausts.bind (A := fun read => InBlock k (0x04 :: (b1 ++ (b2 ++ read)))) (G := fun _ _ => True) ?_ ?_ (fun _ h => h) fun b3 bn _ => ?_
  · unfold elsePart
    split
    · rename_i he
      rw [isElse_iff] at he
      rcases hc with ⟨_, hn⟩ | ⟨rfl, _⟩
      · rw [hn] at he; cases he
      · refine h.map.mono fun read hr => ?_
        simpa using InBlock.second h1 hi hr
    · exact exhausts_good (good_pure _)
  · unfold elsePart
    split
    · intro s y r hy
      obtain ⟨z, r', k1, k2⟩ := bind_ok_iff.mp hy
      cases k2
      obtain ⟨b, rfl, _⟩ := hs _ _ _ k1
      exact ⟨b, rfl, trivial⟩
    · intro s y r hy; cases hy; exact ⟨[], rfl, trivial⟩
  · split
    · exact exhausts_good (good_pure _)
    · exact exhausts_good (good_fail (by simp))

theorem exhausts_instrOf {k : Nat} (h : Exhausts q (Opens k)) (hs : Sound q GSub) : Exhausts (instrOf q) (InBlock k) := by
  refine Exhausts.bind (exhausts_good (A := fun _ => False) good_byte) parses_byte.sound (fun _ h => h.elim) fun b c hb => ?_
  cases hb
  have he : c ∈ blockOpcodes → ∀ f : RetVal → Expr → Instr, Exhausts (parseRetVal >>= fun r => exprOf q >>= fun b => pure (f r b)) fun read => InBlock k ([c] ++ read) := fun hc f => by
    refine Exhausts.bind (exhausts_good (A := fun _ => False) good_retVal) parses_retVal.sound (fun _ h => h.elim) fun b1 t h1 => ?_
    refine (exhausts_exprOf h hs).map.mono fun read hr => ?_
    rw [List.singleton_append]
    exact .block hc h1 hr
  by_cases h2 : c.toNat = 2
  · obtain rfl := byte_of_toNat h2
    exact he (by decide) .block
  by_cases h3 : c.toNat = 3
  · obtain rfl := byte_of_toNat h3
    exact he (by decide) .loop
  by_cases h4 : c.toNat = 4
  · obtain rfl := byte_of_toNat h4
    exact exhausts_ifOf h hs
  rw [(instrAt_leaf h2 h3 h4 q).1, ← (instrAt_leaf h2 h3 h4 (parseSubExpr 0)).1]
  exact exhausts_good (good_instrAt (good_subExpr 0) c)

theorem lim_nested (fuel stack : Nat) : Lim (nestedOn stack (parseSubExprOn fuel)) (parseSubExpr fuel) fun x => depthL x.body + 1 ≤ stack := by
  cases stack with
  | zero => exact fun s => .inl ⟨rfl, fun x r _ => by omega⟩
  | succ n => exact (lim_sub fuel n).congr fun x => by omega

theorem exhausts_sub : ∀ fuel k, Exhausts (parseSubExprOn fuel k) (Opens (k + 1))
  | 0, _ => fun s hs => by cases hs
  | fuel + 1, k => by
    have hn : Exhausts (nestedOn k (parseSubExprOn fuel)) (Opens k) := by
      cases k with
      | zero => exact fun s _ => ⟨[], s, rfl, .none⟩
      | succ k => exact exhausts_sub fuel k
    have hs := (lim_nested fuel k).weak.sound (sound_subExpr fuel)
    refine (exhausts_instrOf hn hs).bind (sound_instrOf hs) (fun read h => opens_succ.mpr ⟨[], [], read, rfl, .nil, h⟩) fun b i hb => ?_
    unfold subStep
    split
    · exact exhausts_good (good_pure _)
    · exact exhausts_good (good_pure _)
    · rename_i h1 h2
      refine (exhausts_sub fuel k).map.mono fun read hr => ?_
      obtain ⟨b', is, r, rfl, k1, k2⟩ := opens_succ.mp hr
      rcases hb with hb | ⟨_, hb⟩ | ⟨_, hb⟩
      · exact opens_succ.mpr ⟨b ++ b', i :: is, r, by simp, .cons hb k1, k2⟩
      · exact (h1 hb).elim
      · exact (h2 hb).elim

theorem abort_instrs {k : Nat} {b read rest : List Byte} {is : List Instr} (h : GInstrs .code b is)
    (hi : ∀ fuel, read.length ≤ fuel → (instrOf (nestedOn k (parseSubExprOn fuel)) (read ++ rest)).1 = .error .panic) :
    ∀ fuel, (b ++ read).length < fuel → (parseSubExprOn fuel k (b ++ (read ++ rest))).1 = .error .panic := by
  intro fuel
  induction fuel generalizing b is with
  | zero => intro hf; omega
  | succ fuel ih =>
    intro hf
    rw [List.length_append] at hf
    cases h with
    | nil => exact panic_bind (hi fuel (by simp at hf; omega))
    | @cons b bs i is h1 h2 =>
      have hb : 0 < b.length := List.length_pos_iff.mpr (ginstr_ne_nil h1)
      simp only [List.length_append] at hf
      show ((instrOf (nestedOn k (parseSubExprOn fuel)) >>= fun next => subStep (parseSubExprOn fuel k) next) _).1 = _
      rw [List.append_assoc]
      rcases (lim_instrOf (lim_nested fuel k)).weak (b ++ (bs ++ (read ++ rest))) with k1 | k1
      · exact panic_bind k1
      · rw [bind_of_ok (k1.trans (instr_complete h1 fuel (by omega) _)), subStep_other (ginstr_not_mark h1)]
        exact panic_bind (ih h2 (by simp; omega))

theorem abort_opens {j : Nat} {read : List Byte} (h : Opens j read) (rest : List Byte) : ∀ k, j = k + 1 → ∀ fuel, read.length < fuel →
    (parseSubExprOn fuel k (read ++ rest)).1 = .error .panic := by
  induction h with
  | none => intro k hk; cases hk
  | @block j b b1 read c is t h1 hc h2 _ ih =>
    rintro k hk fuel hf
    cases hk
    have e1 : b ++ c :: b1 ++ read ++ rest = b ++ ((c :: (b1 ++ read)) ++ rest) := by simp
    rw [e1]
    refine abort_instrs h1 (fun fuel hf => ?_) fuel (by simpa using hf)
    have hn : (nestedOn j (parseSubExprOn fuel) (read ++ rest)).1 = .error .panic := by
      cases j with
      | zero => rfl
      | succ j => exact ih j rfl fuel (by simp at hf; omega)
    rw [List.cons_append, instrOf_cons, List.append_assoc]
    simp only [blockOpcodes, List.mem_cons, List.not_mem_nil, or_false] at hc
    rcases hc with rfl | rfl | rfl
    · change ((parseRetVal >>= fun r => exprOf (nestedOn j (parseSubExprOn fuel)) >>= fun b => pure (Instr.block r b)) _).1 = _
      rw [bind_of_ok (retVal_complete h2 _)]; exact panic_bind (panic_bind hn)
    · change ((parseRetVal >>= fun r => exprOf (nestedOn j (parseSubExprOn fuel)) >>= fun b => pure (Instr.loop r b)) _).1 = _
      rw [bind_of_ok (retVal_complete h2 _)]; exact panic_bind (panic_bind hn)
    · change (ifOf _ _).1 = _
      unfold ifOf
      rw [bind_of_ok (retVal_complete h2 _)]; exact panic_bind hn
  | @second j b b1 b2 read is js t h1 h2 h3 _ ih =>
    rintro k hk fuel hf
    cases hk
    have e1 : b ++ 0x04 :: b1 ++ b2 ++ [0x05] ++ read ++ rest = b ++ ((0x04 :: (b1 ++ (b2 ++ 0x05 :: read))) ++ rest) := by simp
    rw [e1]
    refine abort_instrs h1 (fun fuel hf => ?_) fuel (by simpa using hf)
    simp only [List.length_cons, List.length_append] at hf
    have hn : (nestedOn j (parseSubExprOn fuel) (read ++ rest)).1 = .error .panic := by
      cases j with
      | zero => rfl
      | succ j => exact ih j rfl fuel (by omega)
    rw [List.cons_append, instrOf_cons, List.append_assoc]
    change (ifOf _ _).1 = _
    unfold ifOf
    rw [bind_of_ok (retVal_complete h2 _), List.append_assoc]
    rcases (lim_nested fuel j).weak (b2 ++ ((0x05 :: read) ++ rest)) with k1 | k1
    · exact panic_bind k1
    · rw [bind_of_ok (k1.trans (instrs_complete h3 fuel (by omega) _ _ .els _))]
      exact panic_bind (panic_bind hn)

theorem exhausts_expr (k : Nat) : Exhausts (parseExprOn k) (Opens (k + 1)) := fun s hs =>
  exhausts_exprOf (exhausts_sub (s.length + 1) k) ((lim_sub _ k).weak.sound (sound_subExpr _)) s hs

theorem exhaustsAt_expr (k : Nat) : ExhaustsAt (parseExprOn k) (Opens (k + 1)) := fun read rest h =>
  panic_bind (abort_opens h rest k rfl _ (by simp; omega))

/-! ## The parts of a module -/

theorem exhausts_global (k : Nat) : Exhausts (parseGlobalOn k) (Behind GGlobalTy (Opens (k + 1))) :=
  Exhausts.bind (exhausts_good (A := fun _ => False) good_globalTy) parses_globalTy.sound (fun _ h => h.elim) fun _ _ hb =>
    (exhausts_expr k).map.mono fun _ hr => .mk hb hr

theorem exhaustsAt_global (k : Nat) : ExhaustsAt (parseGlobalOn k) (Behind GGlobalTy (Opens (k + 1))) :=
  ExhaustsAt.behind (weak_refl _) parses_globalTy fun _ => ExhaustsAt.first (q := parseExprOn k) (exhaustsAt_expr k)

theorem exhausts_elem (k : Nat) : Exhausts (parseElemOn k) (Behind Dialect.code.u32 (Opens (k + 1))) := by
  refine Exhausts.bind (exhausts_good (A := fun _ => False) good_idx) parses_idx.sound (fun _ h => h.elim) fun b x hb => ?_
  refine Exhausts.bind (A := Opens (k + 1)) (exhausts_expr k) ((lim_const k).weak.sound parses_constExpr.sound) (fun _ hr => .mk hb hr) fun _ _ _ => ?_
  exact exhausts_good ((good_vec good_idx).bind fun _ => good_pure _)

theorem exhausts_data (k : Nat) : Exhausts (parseDataOn k) (Behind Dialect.code.u32 (Opens (k + 1))) := by
  refine Exhausts.bind (exhausts_good (A := fun _ => False) good_idx) parses_idx.sound (fun _ h => h.elim) fun b x hb => ?_
  refine Exhausts.bind (A := Opens (k + 1)) (exhausts_expr k) ((lim_const k).weak.sound parses_constExpr.sound) (fun _ hr => .mk hb hr) fun _ _ _ => ?_
  rw [unwrappingVec_id]
  exact exhausts_good ((good_vec good_byte).bind fun _ => good_pure _)

theorem exhaustsAt_elem (k : Nat) : ExhaustsAt (parseElemOn k) (Behind Dialect.code.u32 (Opens (k + 1))) :=
  ExhaustsAt.behind (weak_refl _) parses_idx fun _ => ExhaustsAt.first (q := parseExprOn k) (exhaustsAt_expr k)

theorem exhaustsAt_data (k : Nat) : ExhaustsAt (parseDataOn k) (Behind Dialect.code.u32 (Opens (k + 1))) :=
  ExhaustsAt.behind (weak_refl _) parses_idx fun _ => ExhaustsAt.first (q := parseExprOn k) (exhaustsAt_expr k)

theorem parses_locals : Parses (parseCompactVec parseVal) fun b xs => ∃ runs, GVec .code (GLocals .code) b runs ∧ xs = expandRuns runs := by
  have e : GRun GVal = GLocals .code := by funext b x; exact propext (glocals_grun b x)
  have g := parses_compactVec parses_val
  rwa [e] at g

theorem exhausts_func (k : Nat) : Exhausts (parseFuncOn k) (Behind (GVec .code (GLocals .code)) (Opens (k + 1))) := by
  refine Exhausts.bind (exhausts_good (A := fun _ => False) (good_compactVec good_val)) parses_locals.sound (fun _ h => h.elim) fun _ _ hb => ?_
  obtain ⟨runs, hb, _⟩ := hb
  exact (exhausts_expr k).map.mono fun _ hr => .mk hb hr

theorem exhaustsAt_func (k : Nat) : ExhaustsAt (parseFuncOn k) (Behind (GVec .code (GLocals .code)) (Opens (k + 1))) := by
  rintro _ rest ⟨hb, hr⟩
  exact ExhaustsAt.behind (weak_refl _) parses_locals (fun _ => ExhaustsAt.first (exhaustsAt_expr k)) _ rest (.mk ⟨_, hb, rfl⟩ hr)

theorem inVec_map {α β : Type} {G : List Byte → α → Prop} (f : α → β) {A : List Byte → Prop} {read : List Byte} :
    InVec (fun b y => ∃ x, G b x ∧ y = f x) A read ↔ InVec G A read := by
  constructor
  · rintro ⟨h1, h2, h3, h4⟩
    obtain ⟨xs, h5, rfl⟩ := (gseq_map f).mp h2
    exact .mk h1 h5 (by simpa using h3) h4
  · rintro ⟨h1, h2, h3, h4⟩
    exact .mk h1 ((gseq_map f).mpr ⟨_, h2, rfl⟩) (by simpa using h3) h4

theorem sizedFunc_eq : GSized Dialect.code (fun b f => ∃ c, GFunc .code b c ∧ f = { ty := 0, locals := c.1, body := c.2 }) =
    fun b y => ∃ x, GSized .code (GFunc .code) b x ∧ y = preFunc x := by
  funext b x; exact propext (gsized_map preFunc)

theorem exhausts_bodies (k : Nat) : Exhausts (parseVec (parseSized (parseFuncOn k))) (InContent (k + 1) 10) := by
  have h := exhausts_vec (exhausts_sized (exhausts_func k)) ((lim_sized (lim_func k)).weak.sound (parses_sized good_func parses_func).sound)
  rw [sizedFunc_eq] at h
  exact h.mono fun read => (inVec_map preFunc).mp

theorem exhaustsAt_bodies (k : Nat) : ExhaustsAt (parseVec (parseSized (parseFuncOn k))) (InContent (k + 1) 10) := by
  have h := exhaustsAt_vec (lim_sized (lim_func k)).weak (parses_sized good_func parses_func) (exhaustsAt_sized (exhaustsAt_func k))
  rw [sizedFunc_eq] at h
  exact fun read rest hr => h read rest ((inVec_map preFunc).mpr hr)

/-! ## Sections -/

theorem bodies_noPanic (st : LoopState) (x : List Func) (s : List Byte) : (withBodies st x s).1 ≠ .error .panic := by
  unfold withBodies
  simp only
  split
  · intro h; cases h
  · rename_i hne
    rw [assignTys_eq _ _ (Decidable.not_not.mp hne).symm]
    intro h; cases h

theorem sectionOn_other {k : Nat} {id : Byte} (h6 : id.toNat ≠ 6) (h9 : id.toNat ≠ 9) (h10 : id.toNat ≠ 10) (h11 : id.toNat ≠ 11) (st : LoopState) :
    parseSectionOn k id st = parseSection id st := by
  unfold parseSectionOn
  generalize id.toNat = n at *
  split <;> first | contradiction | rfl

theorem exhausts_section (k : Nat) (id : Byte) (st : LoopState) : Exhausts (parseSectionOn k id st) (InSized (InContent (k + 1) id.toNat)) := by
  by_cases h6 : id.toNat = 6
  · obtain rfl := byte_of_toNat h6
    exact (exhausts_sized (exhausts_vec (exhausts_global k) ((lim_global k).weak.sound parses_global.sound))).map
  by_cases h9 : id.toNat = 9
  · obtain rfl := byte_of_toNat h9
    exact (exhausts_sized (exhausts_vec (exhausts_elem k) ((lim_elem k).weak.sound parses_elem.sound))).map
  by_cases h10 : id.toNat = 10
  · obtain rfl := byte_of_toNat h10
    change Exhausts (parseSized (parseUnwrappingVec (fun f : Func => f) (parseSized (parseFuncOn k))) >>= withBodies st) (InSized (InContent (k + 1) 10))
    refine Exhausts.bind (A := InSized (InContent (k + 1) 10)) (G := _) ?_ ((lim_sized (lim_unwrapping (lim_sized (lim_func k)))).weak.sound parses_codeContent.sound) (fun _ h => h) fun _ x _ s hs => ?_
    · rw [unwrappingVec_id]; exact exhausts_sized (exhausts_bodies k)
    · exact (bodies_noPanic st x s hs).elim
  by_cases h11 : id.toNat = 11
  · obtain rfl := byte_of_toNat h11
    exact (exhausts_sized (exhausts_vec (exhausts_data k) ((lim_data k).weak.sound parses_data.sound))).map
  rw [sectionOn_other h6 h9 h10 h11]
  exact fun s hs => ((safe_section id st).noPanic s hs).elim

theorem exhaustsAt_section (k : Nat) (id : Byte) (st : LoopState) : ExhaustsAt (parseSectionOn k id st) (InSized (InContent (k + 1) id.toNat)) := by
  by_cases h6 : id.toNat = 6
  · obtain rfl := byte_of_toNat h6
    exact (exhaustsAt_sized (exhaustsAt_vec (lim_global k).weak parses_global (exhaustsAt_global k))).first
  by_cases h9 : id.toNat = 9
  · obtain rfl := byte_of_toNat h9
    exact (exhaustsAt_sized (exhaustsAt_vec (lim_elem k).weak parses_elem (exhaustsAt_elem k))).first
  by_cases h10 : id.toNat = 10
  · obtain rfl := byte_of_toNat h10
    change ExhaustsAt (parseSized (parseUnwrappingVec (fun f : Func => f) (parseSized (parseFuncOn k))) >>= withBodies st) (InSized (InContent (k + 1) 10))
    rw [unwrappingVec_id]
    exact (exhaustsAt_sized (exhaustsAt_bodies k)).first
  by_cases h11 : id.toNat = 11
  · obtain rfl := byte_of_toNat h11
    exact (exhaustsAt_sized (exhaustsAt_vec (lim_data k).weak parses_data (exhaustsAt_data k))).first
  rintro _ rest ⟨_, _, hr⟩
  have e : InContent (k + 1) id.toNat = fun _ => False := by
    unfold InContent
    generalize id.toNat = n at *
    split <;> first | contradiction | rfl
  rw [e] at hr
  exact hr.elim

theorem weak_section (k : Nat) (id : Byte) (st : LoopState) : Weak (parseSectionOn k id st) (parseSection id st) := by
  by_cases h6 : id.toNat = 6
  · unfold parseSectionOn parseSection
    simp only [h6]
    exact (lim_sized (lim_vec (lim_global k))).weak.bind fun _ => weak_refl _
  by_cases h9 : id.toNat = 9
  · unfold parseSectionOn parseSection
    simp only [h9]
    exact (lim_sized (lim_vec (lim_elem k))).weak.bind fun _ => weak_refl _
  by_cases h10 : id.toNat = 10
  · unfold parseSectionOn parseSection
    simp only [h10]
    exact (lim_sized (lim_unwrapping (lim_sized (lim_func k)))).weak.bind fun _ => weak_refl _
  by_cases h11 : id.toNat = 11
  · unfold parseSectionOn parseSection
    simp only [h11]
    exact (lim_sized (lim_vec (lim_data k))).weak.bind fun _ => weak_refl _
  rw [sectionOn_other h6 h9 h10 h11]
  exact weak_refl _

theorem weak_iteration (k : Nat) (st : LoopState) : Weak (parseIterationOn k st) (parseIteration st) := by
  refine (weak_refl _).bind fun id => ?_
  split
  · split
    · exact weak_refl _
    · exact weak_section k id _
  · exact weak_section k id _

/-! ## The loop -/

/-- By complete iterations, the loop gets from a state to another one. -/
inductive Gets : LoopState → List Byte → LoopState → List Byte → Prop
  | here {st : LoopState} {s : List Byte} : Gets st s st s
  | step {st st1 st' : LoopState} {s s1 t : List Byte} : parseIteration st s = (.ok st1, s1) → Gets st1 s1 st' t → Gets st s st' t

theorem gets_knows {st st' : LoopState} {s t : List Byte} (h : Gets st s st' t) : ∃ b secs, s = b ++ t ∧ RawSecs b secs ∧
    Loop st.lastId.toNat (st.funcTypes, st.result) b st'.result ∧ Knows st st' secs := by
  induction h with
  | here => exact ⟨[], [], rfl, .nil, .done, ⟨by simp [secIds], by simp, .inl ⟨rfl, by simp⟩⟩⟩
  | step k1 _ ih =>
    obtain ⟨b, secs, rfl, h1, h2, h3⟩ := ih
    exact knows_step k1 h1 h2 h3

theorem loop_gets {b : List Byte} {secs : List (Byte × List Byte)} (hb : RawSecs b secs) : ∀ {st : LoopState} {m : Module},
    Loop st.lastId.toNat (st.funcTypes, st.result) b m → ∀ t, ∃ st', Gets st (b ++ t) st' t ∧ st'.lastId.toNat ∈ st.lastId.toNat :: secIds secs := by
  induction hb with
  | nil => intro st m h t; exact ⟨st, .here, by simp⟩
  | @cons id g c bs secs hg hu _ ih =>
    intro st m h t
    have e : id :: (g ++ (c ++ bs)) ++ t = id :: (g ++ c) ++ (bs ++ t) := by simp
    rw [e]
    rcases (loop_cons_iff hg hu).mp h with ⟨rfl, h1, h2⟩ | ⟨s', h0, h1, h2⟩
    · obtain ⟨st', k1, k2⟩ := ih h2 t
      refine ⟨st', .step ((parses_iteration st _ st (bs ++ t)).mpr ⟨0 :: (g ++ c), rfl, .inl ⟨_, rfl, h1, rfl⟩⟩) k1, ?_⟩
      have he : secIds ((0, c) :: secs) = secIds secs := by simp [secIds]
      rwa [he]
    · obtain ⟨st', k1, k2⟩ := ih (st := ⟨s'.1, s'.2, id⟩) h2 t
      refine ⟨st', .step ((parses_iteration st _ ⟨s'.1, s'.2, id⟩ (bs ++ t)).mpr ⟨id :: (g ++ c), rfl, .inr ⟨id, _, s', rfl, h0, h1, rfl⟩⟩) k1, ?_⟩
      have hid : id.toNat ≠ 0 := by omega
      have he : secIds ((id, c) :: secs) = id.toNat :: secIds secs := by simp [secIds, hid]
      rw [he]
      exact List.mem_cons_of_mem _ k2

theorem loopOn_panic {k : Nat} : ∀ fuel {st : LoopState} {s : List Byte}, (sectionLoopOn k fuel st s).1 = .error .panic →
    ∃ st' t, Gets st s st' t ∧ (parseIterationOn k st' t).1 = .error .panic
  | 0, _, _, h => by cases h
  | fuel + 1, st, s, h => by
    cases s with
    | nil => cases h
    | cons a s =>
      change ((parseIterationOn k st >>= fun st' => sectionLoopOn k fuel st') (a :: s)).1 = _ at h
      rcases weak_iteration k st (a :: s) with k1 | k1
      · exact ⟨st, _, .here, k1⟩
      · rcases hp : parseIteration st (a :: s) with ⟨e | st1, s1⟩
        · rw [bind_of_error (k1.trans hp)] at h
          exact ⟨st, _, .here, by rw [k1, hp]; cases h; rfl⟩
        · rw [bind_of_ok (k1.trans hp)] at h
          obtain ⟨st', t, h1, h2⟩ := loopOn_panic fuel h
          exact ⟨st', t, .step hp h1, h2⟩

theorem panic_loopOn {k : Nat} {st st' : LoopState} {s t : List Byte} (h : Gets st s st' t) (hp : (parseIterationOn k st' t).1 = .error .panic) :
    ∀ fuel, s.length < fuel → (sectionLoopOn k fuel st s).1 = .error .panic := by
  induction h with
  | @here st s =>
    intro fuel hf
    obtain ⟨fuel, rfl⟩ : ∃ n, fuel = n + 1 := ⟨fuel - 1, by omega⟩
    cases s with
    | nil => cases hp
    | cons a s => exact panic_bind hp
  | @step st st1 st' s s1 t k1 _ ih =>
    intro fuel hf
    obtain ⟨fuel, rfl⟩ : ∃ n, fuel = n + 1 := ⟨fuel - 1, by omega⟩
    cases s with
    | nil => cases k1
    | cons a s =>
      change ((parseIterationOn k st >>= fun st' => sectionLoopOn k fuel st') (a :: s)).1 = _
      rcases weak_iteration k st (a :: s) with k2 | k2
      · exact panic_bind k2
      · rw [bind_of_ok (k2.trans k1)]
        refine ih hp fuel ?_
        obtain ⟨b, hb, hc⟩ := (parses_iteration _ _ _ _).mp k1
        have hl := congrArg List.length hb
        have : 0 < b.length := by rcases hc with ⟨_, rfl, _⟩ | ⟨_, _, _, rfl, _⟩ <;> simp
        simp only [List.length_append, List.length_cons] at hl hf
        omega

theorem moduleOn_preamble (k : Nat) (b : List Byte) : parseModuleOn k (preamble ++ b) = parseSectionsOn k b := by
  unfold parseModuleOn
  rw [bind_of_ok ((parses4 _ _ _).mpr ⟨[0x00, 0x61, 0x73, 0x6D], rfl, rfl, rfl⟩ :
    parseN 4 parseByte (preamble ++ b) = (.ok [0x00, 0x61, 0x73, 0x6D], [0x01, 0x00, 0x00, 0x00] ++ b))]
  rw [if_neg (by rw [Decidable.not_not, magic_iff])]
  rw [bind_of_ok ((parses4 _ _ _).mpr ⟨[0x01, 0x00, 0x00, 0x00], rfl, rfl, rfl⟩ :
    parseN 4 parseByte ([0x01, 0x00, 0x00, 0x00] ++ b) = (.ok [0x01, 0x00, 0x00, 0x00], b))]
  rw [if_neg (by rw [Decidable.not_not])]

theorem iterationOn_cons (k : Nat) (st : LoopState) (id : Byte) (t : List Byte) : parseIterationOn k st (id :: t) =
    (if id ≠ 0x00 then if id ≤ st.lastId then P.fail (.unexpectedSectionId id) else parseSectionOn k id { st with lastId := id }
      else parseSectionOn k id st) t := rfl

theorem not_inContent_zero {k : Nat} {b : List Byte} : ¬ InSized (InContent k 0) b := by rintro ⟨_, _, h⟩; exact h

theorem sectionsOn_panic {k : Nat} {s : List Byte} (h : (parseSectionsOn k s).1 = .error .panic) : ∃ read rest, s = read ++ rest ∧ InModule (k + 1) (preamble ++ read) := by
  obtain ⟨st, t, h1, h2⟩ := loopOn_panic _ h
  obtain ⟨b, secs, rfl, hraw, hloop, hk⟩ := gets_knows h1
  have hcomp : Complete b secs := by
    have := (parseModule_loop b st.result []).mpr ⟨rfl, hloop⟩
    exact ⟨hraw, _, ((parseModule_iff _ _ _).mp this).2⟩
  cases t with
  | nil => cases h2
  | cons id t =>
    rw [iterationOn_cons] at h2
    by_cases hid : id = 0x00
    · rw [if_neg (by simpa using hid)] at h2
      obtain ⟨read, rest, rfl, hr⟩ := exhausts_section k id st t h2
      rw [hid] at hr
      exact (not_inContent_zero hr).elim
    · rw [if_pos hid] at h2
      by_cases hle : id ≤ st.lastId
      · rw [if_pos hle] at h2; cases h2
      · rw [if_neg hle] at h2
        obtain ⟨read, rest, rfl, hr⟩ := exhausts_section k id _ t h2
        refine ⟨b ++ id :: read, rest, by simp, ?_⟩
        rw [← List.append_assoc]
        refine .mk hcomp (fun j hj => ?_) hr
        have := hk.above j (List.mem_cons_of_mem _ hj)
        have := mt UInt8.le_iff_toNat_le.mpr hle
        omega

theorem exhausts_module (k : Nat) : Exhausts (parseModuleOn k) (InModule (k + 1)) := by
  intro s h
  unfold parseModuleOn at h
  have h4 := good_parseN good_byte 4
  rcases bind_cases (parseN 4 parseByte) _ s with ⟨m, s1, k1, k2⟩ | ⟨e', s1, k1, k2⟩
  · rw [k2] at h
    obtain ⟨m, rfl, hl, rfl⟩ := (parses4 _ _ _).mp k1
    clear k1 k2
    by_cases hm : m = [0x00, 0x61, 0x73, 0x6D]
    · rw [if_neg (by rw [Decidable.not_not, magic_iff]; exact hm)] at h
      subst hm
      rcases bind_cases (parseN 4 parseByte) _ s1 with ⟨v, s2, k1, k2⟩ | ⟨e', s2, k1, k2⟩
      · rw [k2] at h
        obtain ⟨v, rfl, hv, rfl⟩ := (parses4 _ _ _).mp k1
        by_cases h1000 : v = [1, 0, 0, 0]
        · rw [if_neg (by rw [Decidable.not_not]; exact h1000)] at h
          subst h1000
          obtain ⟨read, rest, rfl, hb⟩ := sectionsOn_panic h
          exact ⟨preamble ++ read, rest, by simp [preamble], hb⟩
        · rw [if_pos h1000] at h; cases h
      · rw [k2] at h
        exact (h4.noPanic s1 (by rw [k1]; cases h; rfl)).elim
    · rw [if_pos (by rw [ne_eq, magic_iff]; exact hm)] at h; cases h
  · rw [k2] at h
    exact (h4.noPanic s (by rw [k1]; cases h; rfl)).elim

theorem exhaustsAt_module (k : Nat) : ExhaustsAt (parseModuleOn k) (InModule (k + 1)) := by
  rintro _ rest ⟨⟨hraw, m, hm⟩, hlt, hr⟩
  rename_i b read secs id
  obtain ⟨_, hl⟩ := (parseModule_loop b m []).mp ((parseModule_iff _ _ _).mpr ⟨rfl, hm⟩)
  obtain ⟨st, h1, h2⟩ := loop_gets (st := {}) hraw hl (id :: read ++ rest)
  have e : preamble ++ b ++ id :: read ++ rest = preamble ++ (b ++ (id :: read ++ rest)) := by simp
  rw [e, moduleOn_preamble]
  refine panic_loopOn h1 ?_ _ (Nat.lt_succ_self _)
  have hid : id ≠ 0x00 := by rintro rfl; exact not_inContent_zero hr
  rw [List.cons_append, iterationOn_cons, if_pos hid, if_neg (last_lt hid hlt h2)]
  exact exhaustsAt_section k id _ _ _ hr

/-- A block takes two bytes at least. -/
theorem opens_length {k : Nat} {read : List Byte} (h : Opens k read) : 2 * k ≤ read.length := by
  have hr : ∀ {b : List Byte} {t : RetVal}, GRetVal b t → 1 ≤ b.length := fun h => by
    cases h with
    | empty => simp
    | val h => cases h <;> simp
  induction h with
  | none => simp
  | block _ _ h _ ih => have := hr h; simp only [List.length_append, List.length_cons]; omega
  | second _ h _ _ ih => have := hr h; simp only [List.length_append, List.length_cons]; omega

end Whasm
