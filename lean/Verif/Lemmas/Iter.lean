import Verif.Model.Iter
import Verif.Spec.Iterator
import Verif.Lemmas.Modules

/-!
# The parsers on iterators and the parsers on lists agree
-/

namespace Whasm.Iter

section
variable {σ α β : Type}

theorem Yields.append {next : Next σ} {a b c : σ} {l k : List Byte} (h : Yields next a l b) (h' : Yields next b k c) :
    Yields next a (l ++ k) c := by
  induction h with
  | nil => exact h'
  | cons e _ ih => exact .cons e (ih h')

theorem Yields.split {next : Next σ} : ∀ {l k : List Byte} {a c : σ}, Yields next a (l ++ k) c →
    ∃ b, Yields next a l b ∧ Yields next b k c
  | [], _, _, _, h => ⟨_, .nil _, h⟩
  | _ :: l, k, _, _, h => by
    cases h with
    | cons e h =>
      obtain ⟨b, h1, h2⟩ := Yields.split (l := l) h
      exact ⟨b, .cons e h1, h2⟩

/-- The run ended before the end of the input was noticed: the bytes consumed have been asked for, one by one, and nothing
else. -/
def Live (q : IP α) (p : P α) (next : Next σ) (st st' : σ) (l : List Byte) (fuel : Nat) : Prop :=
  ∃ c mid, l = c ++ (p l).2 ∧ Yields next st c mid ∧ Yields next mid (p l).2 st' ∧ q σ next fuel st = ((p l).1, mid)

/-- The run read everything and then called `next` exactly once at the end. -/
def Dead (q : IP α) (p : P α) (next : Next σ) (st st' : σ) (l : List Byte) (fuel : Nat) : Prop :=
  (p l).2 = [] ∧ ∀ dead, next st' = (none, dead) → q σ next fuel st = ((p l).1, dead)

/-- On an iterator that starts with the bytes `l`, `q` does what `p` does on the list `l`. If `strict`, `q` succeeds only
without asking for a byte after the last one. -/
def Fwd (strict : Bool) (q : IP α) (p : P α) : Prop :=
  ∀ (σ : Type) (next : Next σ) (st st' : σ) (l : List Byte) (fuel : Nat), Yields next st l st' → l.length < fuel →
    Live q p next st st' l fuel ∨ Dead q p next st st' l fuel ∧ (strict = true → ∃ e, (p l).1 = .error e)

/-- Everything that a run of `q` can do, on whatever iterator: it is stopped by the bound after reading some bytes; or it
reads some bytes and `p` has the same result on these bytes, whatever follows; or it reads all the bytes of the iterator,
asks once more, and `p` has the same result on the list of these bytes. -/
def Outcome (strict : Bool) (p : P α) (next : Next σ) (st : σ) (x : Except Error α) (st2 : σ) : Prop :=
  (x = .error .fuel ∧ ∃ c, Yields next st c st2) ∨
  (∃ c, Yields next st c st2 ∧ ∀ t, p (c ++ t) = (x, t)) ∨
  (∃ c e, Yields next st c e ∧ next e = (none, st2) ∧ p c = (x, []) ∧ x ≠ .error .fuel ∧ (strict = true → ∃ err, x = .error err))

/-- Every run of `q` is explained by `p`. -/
def Rev (strict : Bool) (q : IP α) (p : P α) : Prop :=
  ∀ (σ : Type) (next : Next σ) (st st2 : σ) (fuel : Nat) (x : Except Error α), q σ next fuel st = (x, st2) →
    Outcome strict p next st x st2

/-- `q` and `p` are the same parser on iterators and on lists. -/
structure Sim (strict : Bool) (q : IP α) (p : P α) : Prop where
  fwd : Fwd strict q p
  rev : Rev strict q p

theorem Sim.weak {b : Bool} {q : IP α} {p : P α} (h : Sim true q p) : Sim b q p where
  fwd := by
    intro σ next st st' l fuel hy hf
    rcases h.fwd σ next st st' l fuel hy hf with h | h
    · exact .inl h
    · exact .inr ⟨h.1, fun _ => h.2 rfl⟩
  rev := by
    intro σ next st st2 fuel x hq
    rcases h.rev σ next st st2 fuel x hq with h | h | ⟨c, e, h1, h2, h3, h4, h5⟩
    · exact .inl h
    · exact .inr (.inl h)
    · exact .inr (.inr ⟨c, e, h1, h2, h3, h4, fun _ => h5 rfl⟩)

theorem sim_pure {b : Bool} (x : α) : Sim b (pure x) (pure x) where
  fwd := fun _ _ st _ _ _ hy _ => .inl ⟨[], st, rfl, .nil _, hy, rfl⟩
  rev := fun _ _ _ _ _ _ hq => by cases hq; exact .inr (.inl ⟨[], .nil _, fun _ => rfl⟩)

theorem sim_fail {b : Bool} (e : Error) : Sim b (IP.fail e : IP α) (P.fail e) where
  fwd := fun _ _ st _ _ _ hy _ => .inl ⟨[], st, rfl, .nil _, hy, rfl⟩
  rev := fun _ _ _ _ _ _ hq => by cases hq; exact .inr (.inl ⟨[], .nil _, fun _ => rfl⟩)

theorem ipBind_ok {p : IP α} {f : α → IP β} {next : Next σ} {fuel : Nat} {st st' : σ} {x : α}
    (h : p σ next fuel st = (.ok x, st')) : (p >>= f) σ next fuel st = f x σ next fuel st' := by
  show IP.bind p f σ next fuel st = _
  rw [IP.bind, h]

theorem ipBind_error {p : IP α} {f : α → IP β} {next : Next σ} {fuel : Nat} {st st' : σ} {e : Error}
    (h : p σ next fuel st = (.error e, st')) : (p >>= f) σ next fuel st = (.error e, st') := by
  show IP.bind p f σ next fuel st = _
  rw [IP.bind, h]

theorem Fwd.bind {b : Bool} {q : IP α} {p : P α} {f : α → IP β} {g : α → P β} (h : Fwd true q p)
    (hf : ∀ x, Fwd b (f x) (g x)) : Fwd b (q >>= f) (p >>= g) := by
  intro σ next st st' l fuel hy hl
  rcases h σ next st st' l fuel hy hl with ⟨c, mid, h1, h2, h3, h4⟩ | ⟨⟨h1, h2⟩, h3⟩
  · rcases bind_cases p g l with ⟨x, s', hx, hr⟩ | ⟨e, s', hx, hr⟩
    · rw [hx] at h1 h3 h4
      have hlen : s'.length < fuel := by
        have := congrArg List.length h1
        rw [List.length_append] at this
        simp only at this
        omega
      have hq := ipBind_ok (f := f) h4
      rcases hf x σ next mid st' s' fuel h3 hlen with ⟨c2, m2, g1, g2, g3, g4⟩ | ⟨⟨g1, g2⟩, g3⟩
      · left
        refine ⟨c ++ c2, m2, ?_, h2.append g2, ?_, ?_⟩
        · rw [hr, List.append_assoc, ← g1]; exact h1
        · rw [hr]; exact g3
        · rw [hr, hq, g4]
      · right
        refine ⟨⟨by rw [hr]; exact g1, fun dead hd => ?_⟩, by rw [hr]; exact g3⟩
        rw [hr, hq, g2 dead hd]
    · rw [hx] at h1 h3 h4
      left
      refine ⟨c, mid, ?_, h2, ?_, ?_⟩
      · rw [hr]; exact h1
      · rw [hr]; exact h3
      · rw [hr, ipBind_error h4]
  · obtain ⟨e, he⟩ := h3 rfl
    have hp : p l = (.error e, []) := Prod.ext he h1
    have hb := bind_of_error (f := g) hp
    right
    refine ⟨⟨by rw [hb], fun dead hd => ?_⟩, fun _ => ⟨e, by rw [hb]⟩⟩
    rw [hb]
    have := h2 dead hd
    rw [hp] at this
    exact ipBind_error this

theorem Rev.bind {b : Bool} {q : IP α} {p : P α} {f : α → IP β} {g : α → P β} (h : Rev true q p)
    (hf : ∀ x, Rev b (f x) (g x)) : Rev b (q >>= f) (p >>= g) := by
  intro σ next st st2 fuel y hq
  generalize hr : q σ next fuel st = r
  obtain ⟨x, st1⟩ := r
  have h1 := h σ next st st1 fuel x hr
  cases x with
  | error e =>
    rw [ipBind_error hr] at hq
    cases hq
    rcases h1 with ⟨hx, h1⟩ | ⟨c, h1, h2⟩ | ⟨c, e', h1, h2, h3, h4, -⟩
    · cases hx; exact .inl ⟨rfl, h1⟩
    · exact .inr (.inl ⟨c, h1, fun t => bind_of_error (h2 t)⟩)
    · exact .inr (.inr ⟨c, e', h1, h2, bind_of_error h3, fun h => by cases h; exact h4 rfl, fun _ => ⟨e, rfl⟩⟩)
  | ok x =>
    rw [ipBind_ok hr] at hq
    have g1 := hf x σ next st1 st2 fuel y hq
    rcases h1 with ⟨hx, -⟩ | ⟨c, h1, h2⟩ | ⟨c, e', h1, h2, h3, -, h4⟩
    · cases hx
    · rcases g1 with ⟨hy, c', g1⟩ | ⟨c', g1, g2⟩ | ⟨c', e', g1, g2, g3, g4⟩
      · exact .inl ⟨hy, _, h1.append g1⟩
      · refine .inr (.inl ⟨c ++ c', h1.append g1, fun t => ?_⟩)
        rw [List.append_assoc, bind_of_ok (h2 _), g2]
      · refine .inr (.inr ⟨c ++ c', e', h1.append g1, g2, ?_, g4⟩)
        rw [bind_of_ok (h2 _), g3]
    · obtain ⟨err, he⟩ := h4 rfl
      cases he

theorem Sim.bind {b : Bool} {q : IP α} {p : P α} {f : α → IP β} {g : α → P β} (h : Sim true q p)
    (hf : ∀ x, Sim b (f x) (g x)) : Sim b (q >>= f) (p >>= g) where
  fwd := h.fwd.bind fun x => (hf x).fwd
  rev := h.rev.bind fun x => (hf x).rev

theorem parseByte_some {next : Next σ} {fuel : Nat} {st st1 : σ} {b : Byte} (h : next st = (some b, st1)) :
    parseByte σ next fuel st = (.ok b, st1) := by
  have h1 : nextByte σ next fuel st = (.ok (some b), st1) := by rw [nextByte, h]
  exact ipBind_ok h1

theorem parseByte_none {next : Next σ} {fuel : Nat} {st st1 : σ} (h : next st = (none, st1)) :
    parseByte σ next fuel st = (.error .unexpectedEndOfFile, st1) := by
  have h1 : nextByte σ next fuel st = (.ok none, st1) := by rw [nextByte, h]
  exact ipBind_ok h1

theorem sim_byte : Sim true parseByte Whasm.parseByte where
  fwd := by
    intro σ next st st' l fuel hy _
    cases hy with
    | nil => exact .inr ⟨⟨rfl, fun dead hd => parseByte_none hd⟩, fun _ => ⟨_, rfl⟩⟩
    | cons e hy => exact .inl ⟨[_], _, rfl, .cons e (.nil _), hy, parseByte_some e⟩
  rev := by
    intro σ next st st2 fuel x hq
    generalize hr : next st = r
    obtain ⟨o, st1⟩ := r
    cases o with
    | none =>
      rw [parseByte_none hr] at hq
      cases hq
      exact .inr (.inr ⟨[], st, .nil _, hr, rfl, by simp, fun _ => ⟨_, rfl⟩⟩)
    | some b =>
      rw [parseByte_some hr] at hq
      cases hq
      exact .inr (.inl ⟨[b], .cons hr (.nil _), fun _ => rfl⟩)

theorem sim_n {q : IP α} {p : P α} (h : Sim true q p) : ∀ n, Sim true (parseN n q) (Whasm.parseN n p)
  | 0 => sim_pure _
  | n + 1 => h.bind fun _ => (sim_n h n).bind fun _ => sim_pure _

/-- One more byte in front. -/
theorem live_cons {q q' : IP α} {p p' : P α} {next : Next σ} {st st1 st' : σ} {b : Byte} {l : List Byte} {fuel : Nat}
    (e : next st = (some b, st1)) (hp : p' (b :: l) = p l) (hq : q' σ next fuel st = q σ next fuel st1)
    (h : Live q p next st1 st' l fuel) : Live q' p' next st st' (b :: l) fuel := by
  obtain ⟨c, mid, h1, h2, h3, h4⟩ := h
  refine ⟨b :: c, mid, ?_, .cons e h2, by rw [hp]; exact h3, by rw [hp, hq, h4]⟩
  rw [hp, List.cons_append, ← h1]

theorem dead_cons {q q' : IP α} {p p' : P α} {next : Next σ} {st st1 st' : σ} {b : Byte} {l : List Byte} {fuel : Nat}
    (hp : p' (b :: l) = p l) (hq : q' σ next fuel st = q σ next fuel st1)
    (h : Dead q p next st1 st' l fuel) : Dead q' p' next st st' (b :: l) fuel := by
  obtain ⟨h1, h2⟩ := h
  refine ⟨by rw [hp]; exact h1, fun dead hd => by rw [hp, hq, h2 dead hd]⟩


/-! ## LEB-128 -/

/-- The run stops after one byte. -/
theorem live_one {q : IP α} {p : P α} {next : Next σ} {st st1 st' : σ} {b : Byte} {l : List Byte} {fuel : Nat} {x : Except Error α}
    (e : next st = (some b, st1)) (hy : Yields next st1 l st') (hp : p (b :: l) = (x, l))
    (hq : q σ next fuel st = (x, st1)) : Live q p next st st' (b :: l) fuel :=
  ⟨[b], st1, by rw [hp]; rfl, .cons e (.nil _), by rw [hp]; exact hy, by rw [hp, hq]⟩

/-- A loop with state `τ` that reads a byte per iteration; `step` says whether it stops. -/
structure ByteLoop (τ α : Type) where
  step : τ → Byte → Except Error (α ⊕ τ)
  onP : τ → P α
  onI : Nat → τ → IP α
  nilP : ∀ t, onP t [] = (.error .unexpectedEndOfFile, [])
  consP : ∀ t b l, onP t (b :: l) = match step t b with
    | .error e => (.error e, l)
    | .ok (.inl x) => (.ok x, l)
    | .ok (.inr t) => onP t l
  zeroI : ∀ t, onI 0 t = IP.fail .fuel
  succI : ∀ k t, onI (k + 1) t = parseByte >>= fun b => match step t b with
    | .error e => IP.fail e
    | .ok (.inl x) => pure x
    | .ok (.inr t) => onI k t

theorem ByteLoop.sim {τ : Type} (L : ByteLoop τ α) (next : Next σ) (fuel : Nat) : ∀ (l : List Byte) (k : Nat) (t : τ) (st st' : σ),
    Yields next st l st' → l.length < k →
    Live (L.onI k t) (L.onP t) next st st' l fuel ∨
      Dead (L.onI k t) (L.onP t) next st st' l fuel ∧ ∃ e, (L.onP t l).1 = .error e := by
  intro l
  induction l with
  | nil =>
    intro k t st st' hy hk
    obtain ⟨k, rfl⟩ : ∃ j, k = j + 1 := ⟨k - 1, by simp at hk; omega⟩
    cases hy
    refine .inr ⟨⟨by rw [L.nilP], fun dead hd => ?_⟩, _, by rw [L.nilP]⟩
    rw [L.nilP, L.succI]
    exact ipBind_error (parseByte_none hd)
  | cons b l ih =>
    intro k t st st' hy hk
    obtain ⟨k, rfl⟩ : ∃ j, k = j + 1 := ⟨k - 1, by simp at hk; omega⟩
    have hk' : l.length < k := by simp at hk; omega
    cases hy with
    | cons e hy =>
      have hp := L.consP t b l
      have hq := (congrFun (congrFun (congrFun (congrFun (L.succI k t) σ) next) fuel) st).trans
        (ipBind_ok (parseByte_some (fuel := fuel) e))
      generalize hs : L.step t b = s at hp hq
      rcases s with e' | x | t'
      · exact .inl (live_one e hy hp hq)
      · exact .inl (live_one e hy hp hq)
      · rcases ih k t' _ _ hy hk' with h | ⟨h, h'⟩
        · exact .inl (live_cons e hp hq h)
        · exact .inr ⟨dead_cons hp hq h, by rw [hp]; exact h'⟩

theorem ByteLoop.rev {τ : Type} (L : ByteLoop τ α) : ∀ (k : Nat) (t : τ), Rev true (L.onI k t) (L.onP t) := by
  intro k
  induction k with
  | zero =>
    intro t σ next st st2 fuel x hq
    rw [L.zeroI] at hq
    cases hq
    exact .inl ⟨rfl, [], .nil _⟩
  | succ k ih =>
    intro t σ next st st2 fuel x hq
    generalize hr : next st = r
    obtain ⟨o, st1⟩ := r
    cases o with
    | none =>
      rw [L.succI, ipBind_error (parseByte_none hr)] at hq
      cases hq
      exact .inr (.inr ⟨[], st, .nil _, hr, L.nilP t, by simp, fun _ => ⟨_, rfl⟩⟩)
    | some b =>
      rw [L.succI, ipBind_ok (parseByte_some hr)] at hq
      have hp := L.consP t b
      generalize hs : L.step t b = s at hp hq
      rcases s with e' | y | t'
      · cases hq
        exact .inr (.inl ⟨[b], .cons hr (.nil _), hp⟩)
      · cases hq
        exact .inr (.inl ⟨[b], .cons hr (.nil _), hp⟩)
      · rcases ih t' σ next st1 st2 fuel x hq with ⟨hx, c, h⟩ | ⟨c, h1, h2⟩ | ⟨c, e, h1, h2, h3, h4⟩
        · exact .inl ⟨hx, b :: c, .cons hr h⟩
        · exact .inr (.inl ⟨b :: c, .cons hr h1, fun t => (hp (c ++ t)).trans (h2 t)⟩)
        · exact .inr (.inr ⟨b :: c, e, .cons hr h1, h2, (hp c).trans h3, h4⟩)

theorem ByteLoop.sim_loop {τ : Type} (L : ByteLoop τ α) (t : τ) : Sim true (IP.withFuel fun fuel => L.onI fuel t) (L.onP t) where
  fwd := by
    intro σ next st st' l fuel hy hl
    rcases L.sim next fuel l fuel t st st' hy hl with ⟨c, m, h1, h2, h3, h4⟩ | ⟨⟨h1, h2⟩, h3⟩
    · exact .inl ⟨c, m, h1, h2, h3, h4⟩
    · exact .inr ⟨⟨h1, h2⟩, fun _ => h3⟩
  rev := fun σ next st st2 fuel x hq => L.rev fuel t σ next st st2 fuel x hq

/-- The loop of `parse_unsigned_leb_128`. -/
def unsignedByteLoop (N : Nat) : ByteLoop (Nat × BitVec N) (BitVec N) where
  step t byte :=
    if t.1 ≥ N then
      if byte &&& 0x7F ≠ 0 then .error .outOfRangeUnsignedInteger
      else if byte &&& 0x80 = 0 then .ok (.inl t.2)
      else .ok (.inr t)
    else
      match shl? (BitVec.ofNat N (byte &&& 0x7F).toNat) t.1 with
      | none => .error .panic
      | some shifted =>
        match ushr? shifted t.1 with
        | none => .error .panic
        | some back =>
          if back &&& BitVec.ofNat N 0x7F ≠ BitVec.ofNat N (byte &&& 0x7F).toNat then .error .outOfRangeUnsignedInteger
          else if byte &&& 0x80 = 0 then .ok (.inl (t.2 ||| shifted))
          else .ok (.inr (t.1 + 7, t.2 ||| shifted))
  onP t := Whasm.unsignedLoop t.1 t.2
  onI k t := unsignedLoop k t.1 t.2
  nilP t := rfl
  consP t b l := by
    rw [Whasm.unsignedLoop]
    dsimp only
    by_cases h1 : t.1 ≥ N
    · rw [if_pos h1, if_pos h1]
      split
      · rfl
      split <;> rfl
    · rw [if_neg h1, if_neg h1]
      generalize shl? (BitVec.ofNat N (b &&& 0x7F).toNat) t.1 = o
      cases o with
      | none => rfl
      | some shifted =>
        dsimp only
        generalize ushr? shifted t.1 = o
        cases o with
        | none => rfl
        | some back =>
          dsimp only
          split
          · rfl
          split <;> rfl
  zeroI t := rfl
  succI k t := by
    rw [unsignedLoop]
    congr 1
    funext b
    dsimp only
    by_cases h1 : t.1 ≥ N
    · rw [if_pos h1, if_pos h1]
      split
      · rfl
      split <;> rfl
    · rw [if_neg h1, if_neg h1]
      generalize shl? (BitVec.ofNat N (b &&& 0x7F).toNat) t.1 = o
      cases o with
      | none => rfl
      | some shifted =>
        dsimp only
        generalize ushr? shifted t.1 = o
        cases o with
        | none => rfl
        | some back =>
          dsimp only
          split
          · rfl
          split <;> rfl

theorem sim_unsigned (N : Nat) : Sim true (parseUnsigned N) (Whasm.parseUnsigned N) :=
  (unsignedByteLoop N).sim_loop (0, 0#N)

/-- The loop of `parse_signed_leb_128`. -/
def signedByteLoop (N : Nat) : ByteLoop (Nat × BitVec N × Bool) (BitVec N) where
  step t byte :=
    if t.1 ≥ N then
      if (byte &&& 0x7F = 0x00 ∧ t.2.2 = true) ∨ (byte &&& 0x7F = 0x7F ∧ t.2.2 = false) then
        if byte &&& 0x80 = 0 then .ok (.inl t.2.1)
        else .ok (.inr t)
      else .error .outOfRangeSignedInteger
    else
      match shl? (BitVec.ofNat N (byte &&& 0x7F).toNat) t.1 with
      | none => .error .panic
      | some shifted =>
        match sshr? shifted t.1 with
        | none => .error .panic
        | some back =>
          if back &&& BitVec.ofNat N 0x7F ≠ BitVec.ofNat N (byte &&& 0x7F).toNat then .error .outOfRangeSignedInteger
          else if byte &&& 0x80 = 0 then
            if t.1 + 7 < N ∧ decide (byte &&& 0x40 = 0) = false then
              match shl? (~~~ 0#N) (t.1 + 7) with
              | none => .error .panic
              | some ext => .ok (.inl (t.2.1 ||| shifted ||| ext))
            else .ok (.inl (t.2.1 ||| shifted))
          else .ok (.inr (t.1 + 7, t.2.1 ||| shifted, decide (byte &&& 0x40 = 0)))
  onP t := Whasm.signedLoop t.1 t.2.1 t.2.2
  onI k t := signedLoop k t.1 t.2.1 t.2.2
  nilP t := rfl
  consP t b l := by
    rw [Whasm.signedLoop]
    dsimp only
    by_cases h1 : t.1 ≥ N
    · rw [if_pos h1, if_pos h1]
      split
      · split <;> rfl
      · rfl
    · rw [if_neg h1, if_neg h1]
      generalize shl? (BitVec.ofNat N (b &&& 0x7F).toNat) t.1 = o
      cases o with
      | none => rfl
      | some shifted =>
        dsimp only
        generalize sshr? shifted t.1 = o
        cases o with
        | none => rfl
        | some back =>
          dsimp only
          split
          · rfl
          split
          · split
            · generalize shl? (~~~ 0#N) (t.1 + 7) = o
              cases o <;> rfl
            · rfl
          · rfl
  zeroI t := rfl
  succI k t := by
    rw [signedLoop]
    congr 1
    funext b
    dsimp only
    by_cases h1 : t.1 ≥ N
    · rw [if_pos h1, if_pos h1]
      split
      · split <;> rfl
      · rfl
    · rw [if_neg h1, if_neg h1]
      generalize shl? (BitVec.ofNat N (b &&& 0x7F).toNat) t.1 = o
      cases o with
      | none => rfl
      | some shifted =>
        dsimp only
        generalize sshr? shifted t.1 = o
        cases o with
        | none => rfl
        | some back =>
          dsimp only
          split
          · rfl
          split
          · split
            · generalize shl? (~~~ 0#N) (t.1 + 7) = o
              cases o <;> rfl
            · rfl
          · rfl

theorem sim_signed (N : Nat) : Sim true (parseSigned N) (Whasm.parseSigned N) :=
  (signedByteLoop N).sim_loop (0, 0#N, true)


/-! ## Vectors, strings -/

theorem sim_u32 : Sim true parseU32 Whasm.parseU32 := sim_unsigned 32

theorem sim_idx : Sim true parseIdx Whasm.parseIdx := sim_unsigned 32

theorem sim_float (n : Nat) : Sim true (parseFloat n) (Whasm.parseFloat n) :=
  (sim_n sim_byte n).bind fun _ => sim_pure _

theorem sim_vec {q : IP α} {p : P α} (h : Sim true q p) : Sim true (parseVec q) (Whasm.parseVec p) :=
  sim_u32.bind fun n => sim_n h n.toNat

theorem sim_unwrappingVec {q : IP α} {p : P α} (f : α → β) (h : Sim true q p) :
    Sim true (parseUnwrappingVec f q) (Whasm.parseUnwrappingVec f p) :=
  sim_u32.bind fun n => sim_n (h.bind fun _ => sim_pure _) n.toNat

theorem sim_runs {q : IP α} {p : P α} (h : Sim true q p) : ∀ k, Sim true (parseRuns k q) (Whasm.parseRuns k p)
  | 0 => sim_pure _
  | k + 1 => sim_u32.bind fun _ => h.bind fun _ => (sim_runs h k).bind fun _ => sim_pure _

theorem sim_compactVec {q : IP α} {p : P α} (h : Sim true q p) : Sim true (parseCompactVec q) (Whasm.parseCompactVec p) :=
  sim_u32.bind fun k => sim_runs h k.toNat

theorem sim_string : Sim true parseString Whasm.parseString := by
  refine (sim_unwrappingVec _ sim_byte).bind fun raw => ?_
  split
  · exact sim_pure _
  · exact sim_fail _

/-! ## Sized elements -/

theorem yields_window {next : Next σ} {st st' : σ} {l : List Byte} (h : Yields next st l st') : ∀ n count, l.length ≤ n →
    Yields (takeInspect next) (st, n, count) l (st', n - l.length, count + l.length) := by
  induction h with
  | nil => intro n count _; exact .nil _
  | @cons st st1 st2 b l e h ih =>
    intro n count hn
    obtain ⟨n, rfl⟩ : ∃ j, n = j + 1 := ⟨n - 1, by simp at hn; omega⟩
    have hn' : l.length ≤ n := by simp at hn; omega
    have := ih n (count + 1) hn'
    have e1 : n - l.length = n + 1 - (b :: l).length := by simp
    have e2 : count + 1 + l.length = count + (b :: l).length := by simp; omega
    rw [e1, e2] at this
    exact .cons (by rw [takeInspect, e]) this

/-- The state of the window is determined by the bytes it has yielded. -/
theorem window_state {next : Next σ} : ∀ {l : List Byte} {st : σ} {n count : Nat} {w : σ × Nat × Nat},
    Yields (takeInspect next) (st, n, count) l w →
      ∃ m, w = (m, n - l.length, count + l.length) ∧ Yields next st l m ∧ l.length ≤ n
  | [], st, n, count, w, h => by cases h; exact ⟨st, rfl, .nil _, by simp⟩
  | b :: l, st, n, count, w, h => by
    cases h with
    | cons e h =>
      cases n with
      | zero => rw [takeInspect] at e; cases e
      | succ n =>
        rw [takeInspect] at e
        generalize hr : next st = r at e
        obtain ⟨o, st1⟩ := r
        cases o with
        | none => cases e
        | some b' =>
          cases e
          obtain ⟨m, h1, h2, h3⟩ := window_state (l := l) h
          refine ⟨m, ?_, .cons hr h2, by simp; omega⟩
          rw [h1]
          have e1 : n - l.length = n + 1 - (b :: l).length := by simp
          have e2 : count + 1 + l.length = count + (b :: l).length := by simp; omega
          rw [e1, e2]

/-- The part of `Sized::parse` after the size, on lists. -/
def windowP (size : Nat) (p : P α) : P α := fun s =>
  match p (s.take size) with
  | (.error e, r) => (.error e, r ++ s.drop size)
  | (.ok x, r) =>
    if size ≠ (s.take size).length - r.length then (.error .sizeMissmatch, r ++ s.drop size)
    else (.ok x, r ++ s.drop size)

/-- The part of `Sized::parse` after the size, on iterators. -/
def windowI (size : Nat) (p : IP α) : IP α := fun σ next fuel st =>
  match p (σ × Nat × Nat) (takeInspect next) fuel (st, size, 0) with
  | (.error e, (st, _, _)) => (.error e, st)
  | (.ok x, (st, _, count)) => if size ≠ count then (.error .sizeMissmatch, st) else (.ok x, st)

theorem fwd_window (size : Nat) {q : IP α} {p : P α} (h : Fwd false q p) : Fwd true (windowI size q) (windowP size p) := by
  intro σ next st st' l fuel hy hl
  obtain ⟨mid, h1, h2⟩ : ∃ mid, Yields next st (l.take size) mid ∧ Yields next mid (l.drop size) st' := by
    have := hy
    rw [← List.take_append_drop size l] at this
    exact this.split
  have hw := yields_window h1 size 0 (by rw [List.length_take]; omega)
  have hlen : (l.take size).length < fuel := by rw [List.length_take]; omega
  rcases h (σ × Nat × Nat) (takeInspect next) _ _ _ fuel hw hlen with ⟨c, w, g1, g2, g3, g4⟩ | ⟨⟨g1, g2⟩, -⟩
  · obtain ⟨m, rfl, k2, -⟩ := window_state g2
    obtain ⟨m', k3, k4, -⟩ := window_state g3
    have hm : m' = mid := (congrArg Prod.fst k3).symm
    subst hm
    left
    have hc : 0 + c.length = (l.take size).length - (p (l.take size)).2.length := by
      have := congrArg List.length g1
      rw [List.length_append] at this
      omega
    have hr : (windowP size p l).2 = (p (l.take size)).2 ++ l.drop size := by
      simp only [windowP]
      rcases p (l.take size) with ⟨x | x, r⟩
      · rfl
      · dsimp only
        split <;> rfl
    refine ⟨c, m, ?_, k2, ?_, ?_⟩
    · rw [hr, ← List.append_assoc, ← g1, List.take_append_drop]
    · rw [hr]; exact k4.append h2
    · rw [windowI, g4]
      simp only [windowP]
      rw [hc]
      rcases p (l.take size) with ⟨x | x, r⟩
      · rfl
      · dsimp only
        split <;> rfl
  · rcases Nat.lt_or_ge l.length size with hs | hs
    · -- the window is longer than the input
      right
      have ht : l.take size = l := List.take_of_length_le (by omega)
      have hd : l.drop size = [] := List.drop_of_length_le (by omega)
      rw [ht] at g1 g2 h1
      rw [hd] at h2
      cases h2
      have hr : windowP size p l = match (p l).1 with
          | .error e => (.error e, [])
          | .ok _ => (.error .sizeMissmatch, []) := by
        simp only [windowP, ht, hd]
        generalize p l = r at g1
        obtain ⟨x, r⟩ := r
        simp only at g1
        subst g1
        cases x with
        | error e => rfl
        | ok x =>
          dsimp only
          rw [if_pos (by simp; omega)]
          rfl
      have hend : ∀ dead, next st' = (none, dead) →
          q (σ × Nat × Nat) (takeInspect next) fuel (st, size, 0) = ((p l).1, (dead, size - l.length - 1, 0 + l.length)) := by
        intro dead hd
        refine g2 _ ?_
        obtain ⟨j, hj⟩ : ∃ j, size - l.length = j + 1 := ⟨size - l.length - 1, by omega⟩
        rw [hj, takeInspect, hd]
        rfl
      refine ⟨⟨?_, fun dead hd => ?_⟩, fun _ => ?_⟩
      · rw [hr]; cases (p l).1 <;> rfl
      · rw [windowI, hend dead hd, hr]
        cases (p l).1 with
        | error e => rfl
        | ok x =>
          dsimp only
          rw [if_pos (by omega)]
      · rw [hr]
        cases (p l).1 with
        | error e => exact ⟨e, rfl⟩
        | ok x => exact ⟨_, rfl⟩
    · -- the window ends before the input does
      left
      have hlt : (l.take size).length = size := by rw [List.length_take]; omega
      have g3 := g2 (mid, size - (l.take size).length, 0 + (l.take size).length) (by rw [hlt, Nat.sub_self, takeInspect])
      have hr : (windowP size p l).2 = l.drop size := by
        simp only [windowP]
        generalize p (l.take size) = r at g1
        obtain ⟨x, r⟩ := r
        simp only at g1
        subst g1
        cases x with
        | error e => rfl
        | ok x =>
          dsimp only
          split <;> rfl
      refine ⟨l.take size, mid, ?_, h1, ?_, ?_⟩
      · rw [hr, List.take_append_drop]
      · rw [hr]; exact h2
      · rw [windowI, g3]
        simp only [windowP]
        generalize p (l.take size) = r at g1
        obtain ⟨x, r⟩ := r
        simp only at g1
        subst g1
        cases x with
        | error e => rfl
        | ok x =>
          dsimp only
          have : 0 + (l.take size).length = (l.take size).length - ([] : List Byte).length := by simp
          rw [this]
          split <;> rfl

theorem rev_window (size : Nat) {q : IP α} {p : P α} (h : Rev false q p) : Rev true (windowI size q) (windowP size p) := by
  intro σ next st st2 fuel y hq
  generalize hr : q (σ × Nat × Nat) (takeInspect next) fuel (st, size, 0) = r
  obtain ⟨x, w⟩ := r
  rw [windowI, hr] at hq
  rcases h _ (takeInspect next) (st, size, 0) w fuel x hr with ⟨hx, c, h1⟩ | ⟨c, h1, h2⟩ | ⟨c, e, h1, h2, h3, h5, -⟩
  · obtain ⟨m, rfl, k2, -⟩ := window_state h1
    subst hx
    cases hq
    exact .inl ⟨rfl, c, k2⟩
  · obtain ⟨m, rfl, k2, hc⟩ := window_state h1
    have hw : ∀ t, windowP size p (c ++ t) = ((windowI size q σ next fuel st).1, t) := by
      intro t
      have e1 : (c ++ t).take size = c ++ t.take (size - c.length) := by
        rw [List.take_append, List.take_of_length_le hc]
      have e2 : (c ++ t).drop size = t.drop (size - c.length) := by
        rw [List.drop_append, List.drop_of_length_le hc, List.nil_append]
      have e3 : (c ++ t.take (size - c.length)).length - (t.take (size - c.length)).length = 0 + c.length := by
        rw [List.length_append]; omega
      rw [windowI, hr]
      simp only [windowP, e1, e2, h2]
      cases x with
      | error e => dsimp only; rw [List.take_append_drop]
      | ok x =>
        dsimp only
        rw [e3, List.take_append_drop]
        split <;> rfl
    have hq' : windowI size q σ next fuel st = (y, st2) := by rw [windowI, hr]; exact hq
    right; left
    refine ⟨c, ?_, fun t => by rw [hw, hq']⟩
    cases x with
    | error e => cases hq; exact k2
    | ok x =>
      dsimp only at hq
      split at hq <;> (cases hq; exact k2)
  · obtain ⟨m, rfl, k2, hc⟩ := window_state h1
    rcases Nat.lt_or_ge c.length size with hs | hs
    · obtain ⟨j, hj⟩ : ∃ j, size - c.length = j + 1 := ⟨size - c.length - 1, by omega⟩
      rw [hj, takeInspect] at h2
      generalize hn : next m = r at h2
      obtain ⟨o, dead⟩ := r
      cases o with
      | some b => cases h2
      | none =>
        cases h2
        have ht : c.take size = c := List.take_of_length_le hc
        have hd : c.drop size = [] := List.drop_of_length_le hc
        have hw : windowP size p c = match x with
            | .error e => (.error e, [])
            | .ok _ => (.error .sizeMissmatch, []) := by
          simp only [windowP, ht, hd, h3]
          cases x with
          | error e => rfl
          | ok x =>
            dsimp only
            rw [if_pos (by simp; omega)]
            rfl
        right; right
        cases x with
        | error e =>
          cases hq
          exact ⟨c, m, k2, hn, hw, fun h => by cases h; exact h5 rfl, fun _ => ⟨_, rfl⟩⟩
        | ok x =>
          dsimp only at hq
          rw [if_pos (by omega)] at hq
          cases hq
          exact ⟨c, m, k2, hn, hw, by simp, fun _ => ⟨_, rfl⟩⟩
    · have hs' : c.length = size := by omega
      have hz : size - c.length = 0 := by omega
      rw [hz, takeInspect] at h2
      cases h2
      have hw : ∀ t, windowP size p (c ++ t) = (x, t) := by
        intro t
        have e1 : (c ++ t).take size = c := by rw [← hs', List.take_left]
        have e2 : (c ++ t).drop size = t := by rw [← hs', List.drop_left]
        simp only [windowP, e1, e2, h3]
        cases x with
        | error e => rfl
        | ok x =>
          dsimp only
          rw [if_neg (by simp; omega)]
          rfl
      right; left
      cases x with
      | error e => cases hq; exact ⟨c, k2, hw⟩
      | ok x =>
        dsimp only at hq
        rw [if_neg (by omega)] at hq
        cases hq
        exact ⟨c, k2, hw⟩

theorem sim_window (size : Nat) {q : IP α} {p : P α} (h : Sim false q p) : Sim true (windowI size q) (windowP size p) :=
  ⟨fwd_window size h.fwd, rev_window size h.rev⟩

theorem sim_sized {q : IP α} {p : P α} (h : Sim false q p) : Sim true (parseSized q) (Whasm.parseSized p) :=
  sim_u32.bind fun size => sim_window size.toNat h

theorem countLoop_sim {next : Next σ} {st st' : σ} {l : List Byte} (fuel : Nat) (h : Yields next st l st') : ∀ k n, l.length < k →
    ∀ dead, next st' = (none, dead) → countLoop k n σ next fuel st = (.ok (n + l.length), dead) := by
  induction h with
  | nil st =>
    intro k n hk dead hd
    obtain ⟨k, rfl⟩ : ∃ j, k = j + 1 := ⟨k - 1, by simp at hk; omega⟩
    have h1 : nextByte σ next fuel st = (.ok none, dead) := by rw [nextByte, hd]
    exact ipBind_ok h1
  | @cons st st1 st2 b l e h ih =>
    intro k n hk dead hd
    obtain ⟨k, rfl⟩ : ∃ j, k = j + 1 := ⟨k - 1, by simp at hk; omega⟩
    have h1 : nextByte σ next fuel st = (.ok (some b), st1) := by rw [nextByte, e]
    refine (ipBind_ok h1).trans ?_
    have := ih k (n + 1) (by simp at hk; omega) dead hd
    have e2 : n + 1 + l.length = n + (b :: l).length := by simp; omega
    rw [e2] at this
    exact this

theorem countLoop_rev {next : Next σ} (fuel : Nat) : ∀ (k n : Nat) (st st2 : σ) (x : Except Error Nat),
    countLoop k n σ next fuel st = (x, st2) →
      (x = .error .fuel ∧ ∃ c, Yields next st c st2) ∨
        ∃ c e, Yields next st c e ∧ next e = (none, st2) ∧ x = .ok (n + c.length) := by
  intro k
  induction k with
  | zero => intro n st st2 x hq; cases hq; exact .inl ⟨rfl, [], .nil _⟩
  | succ k ih =>
    intro n st st2 x hq
    generalize hr : next st = r
    obtain ⟨o, st1⟩ := r
    have h1 : nextByte σ next fuel st = (.ok o, st1) := by rw [nextByte, hr]
    have hq' := hq.symm.trans (ipBind_ok h1)
    cases o with
    | none => cases hq'; exact .inr ⟨[], st, .nil _, hr, rfl⟩
    | some b =>
      rcases ih (n + 1) st1 st2 x hq'.symm with ⟨hx, c, h⟩ | ⟨c, e, h1, h2, h3⟩
      · exact .inl ⟨hx, b :: c, .cons hr h⟩
      · refine .inr ⟨b :: c, e, .cons hr h1, h2, ?_⟩
        rw [h3, List.length_cons, Nat.add_assoc, Nat.add_comm 1]

theorem sim_consume : Sim false parseConsume Whasm.parseConsume where
  fwd := by
    intro σ next st st' l fuel hy hl
    refine .inr ⟨⟨rfl, fun dead hd => ?_⟩, fun h => by cases h⟩
    have := countLoop_sim fuel hy fuel 0 hl dead hd
    rw [Nat.zero_add] at this
    exact this
  rev := by
    intro σ next st st2 fuel x hq
    rcases countLoop_rev fuel fuel 0 st st2 x hq with h | ⟨c, e, h1, h2, h3⟩
    · exact .inl h
    · refine .inr (.inr ⟨c, e, h1, h2, ?_, by rw [h3]; simp, fun h => by cases h⟩)
      rw [h3, Nat.zero_add]
      rfl

/-! ## Types -/

theorem sim_limits : Sim true parseLimits Whasm.parseLimits := by
  refine sim_byte.bind fun b => ?_
  generalize b.toNat = n
  split
  · exact sim_u32.bind fun _ => sim_pure _
  · exact sim_u32.bind fun _ => sim_u32.bind fun _ => sim_pure _
  · split <;> first | contradiction | exact sim_fail _

theorem sim_val : Sim true parseVal Whasm.parseVal := by
  refine sim_byte.bind fun b => ?_
  generalize b.toNat = n
  split
  · exact sim_pure _
  · exact sim_pure _
  · exact sim_pure _
  · exact sim_pure _
  · split <;> first | contradiction | exact sim_fail _

theorem sim_elemTy : Sim true parseElemTy Whasm.parseElemTy := by
  refine sim_byte.bind fun b => ?_
  generalize b.toNat = n
  split
  · exact sim_pure _
  · split <;> first | contradiction | exact sim_fail _

theorem yields_list : ∀ l : List Byte, Yields listNext l l []
  | [] => .nil _
  | _ :: l => .cons rfl (yields_list l)

/-- On the iterator over an array every parser does what it does on the list. -/
theorem Sim.onList {b : Bool} {q : IP α} {p : P α} (h : Sim b q p) (l : List Byte) (fuel : Nat) (hf : l.length < fuel) :
    q (List Byte) listNext fuel l = p l := by
  rcases h.fwd _ listNext l [] l fuel (yields_list l) hf with ⟨c, m, h1, h2, h3, h4⟩ | ⟨⟨h1, h2⟩, -⟩
  · have key : ∀ {a : List Byte} {k : List Byte} {z : List Byte}, Yields listNext a k z → a = k ++ z := by
      intro a k z hy
      induction hy with
      | nil => rfl
      | @cons st st1 st2 b l e _ ih =>
        cases st with
        | nil => cases e
        | cons c s =>
          cases e
          rw [ih]; rfl
    have := key h3
    rw [List.append_nil] at this
    rw [h4, this]
  · rw [h2 [] rfl]
    exact Prod.ext rfl h1.symm

theorem val_short (b : Byte) (fuel : Nat) :
    (parseVal (List Byte) listNext fuel [b]).1 = (Whasm.parseVal [b]).1 := by
  have h1 : parseVal (List Byte) listNext fuel [b] = parseVal (List Byte) listNext 2 [b] := by
    have e : listNext [b] = (some b, []) := rfl
    unfold parseVal
    rw [ipBind_ok (parseByte_some e), ipBind_ok (parseByte_some e)]
    generalize b.toNat = n
    split <;> rfl
  rw [h1, sim_val.onList [b] 2 (by simp)]

theorem sim_retVal : Sim true parseRetVal Whasm.parseRetVal := by
  refine sim_byte.bind fun b => ?_
  have tail : Sim true (fun _ _ fuel st =>
      match parseVal (List Byte) listNext fuel [b] with
      | (.ok v, _) => (.ok [v], st)
      | (.error e, _) => (.error e, st) : IP RetVal)
    (match Whasm.parseVal [b] with
      | (.ok v, _) => pure [v]
      | (.error e, _) => P.fail e) := by
    have h := val_short b
    generalize Whasm.parseVal [b] = y at h
    obtain ⟨y, r⟩ := y
    simp only at h
    have e0 : (fun _ _ fuel st =>
        match parseVal (List Byte) listNext fuel [b] with
        | (.ok v, _) => (.ok [v], st)
        | (.error e, _) => (.error e, st) : IP RetVal) =
        (match (generalizing := false) y with
        | .ok v => pure [v]
        | .error e => IP.fail e : IP RetVal) := by
      funext σ next fuel st
      have h := h fuel
      generalize parseVal (List Byte) listNext fuel [b] = z at h
      obtain ⟨z, r'⟩ := z
      simp only at h
      subst h
      cases z <;> rfl
    rw [e0]
    cases y with
    | error e => exact sim_fail e
    | ok v => exact sim_pure [v]
  suffices ∀ (n : Nat) (q0 : IP RetVal) (p0 : P RetVal), Sim true q0 p0 →
      Sim true (match n with | 0x40 => pure [] | _ => q0) (match n with | 0x40 => pure [] | _ => p0) from this _ _ _ tail
  intro n q0 p0 h
  split
  · exact sim_pure _
  · exact h

theorem sim_funcTy : Sim true parseFuncTy Whasm.parseFuncTy := by
  refine sim_byte.bind fun b => ?_
  generalize b.toNat = n
  split
  · exact (sim_vec sim_val).bind fun _ => (sim_vec sim_val).bind fun _ => sim_pure _
  · split <;> first | contradiction | exact sim_fail _

theorem sim_tableTy : Sim true parseTableTy Whasm.parseTableTy :=
  sim_elemTy.bind fun _ => sim_limits.bind fun _ => sim_pure _

theorem sim_memTy : Sim true parseMemTy Whasm.parseMemTy := sim_limits.bind fun _ => sim_pure _

theorem sim_mut : Sim true parseMut Whasm.parseMut := by
  refine sim_byte.bind fun b => ?_
  generalize b.toNat = n
  split
  · exact sim_pure _
  · exact sim_pure _
  · split <;> first | contradiction | exact sim_fail _

theorem sim_globalTy : Sim true parseGlobalTy Whasm.parseGlobalTy :=
  sim_val.bind fun _ => sim_mut.bind fun _ => sim_pure _

/-! ## Instructions -/

theorem sim_exprOf {q : IP SubExpr} {p : P SubExpr} (h : Sim true q p) : Sim true (exprOf q) (Whasm.exprOf p) := by
  refine h.bind fun se => ?_
  cases se.next <;> first | exact sim_pure _ | exact sim_fail _

theorem sim_elsePart {q : IP SubExpr} {p : P SubExpr} (h : Sim true q p) (s1 : SubExpr) :
    Sim true (elsePart q s1) (Whasm.elsePart p s1) := by
  unfold elsePart Whasm.elsePart
  split
  · exact h.bind fun _ => sim_pure _
  · exact sim_pure _

theorem sim_ifOf {q : IP SubExpr} {p : P SubExpr} (h : Sim true q p) : Sim true (ifOf q) (Whasm.ifOf p) := by
  refine sim_retVal.bind fun _ => h.bind fun s1 => (sim_elsePart h s1).bind fun bn => ?_
  split
  · exact sim_pure _
  · exact sim_fail _

theorem sim_instrTail (b : Byte) : Sim true (instrTail b) (Whasm.instrTail b) := by
  unfold instrTail Whasm.instrTail
  generalize loadTable.lookup b.toNat = o
  cases o with
  | some op => exact sim_u32.bind fun _ => sim_u32.bind fun _ => sim_pure _
  | none =>
    dsimp only
    generalize storeTable.lookup b.toNat = o
    cases o with
    | some op => exact sim_u32.bind fun _ => sim_u32.bind fun _ => sim_pure _
    | none =>
      dsimp only
      generalize numTable.lookup b.toNat = o
      cases o with
      | some op => exact sim_pure _
      | none => exact sim_fail _

theorem sim_instrAt {q : IP SubExpr} {p : P SubExpr} (h : Sim true q p) (b : Byte) : Sim true (instrAt q b) (Whasm.instrAt p b) := by
  have he := sim_exprOf h
  have hi := sim_ifOf h
  have ht := sim_instrTail b
  have h32 := sim_signed 32
  have h64 := sim_signed 64
  unfold instrAt Whasm.instrAt
  generalize b.toNat = n
  split
  · exact sim_pure _
  · exact sim_pure _
  · exact sim_retVal.bind fun _ => he.bind fun _ => sim_pure _
  · exact sim_retVal.bind fun _ => he.bind fun _ => sim_pure _
  · exact hi
  · exact sim_pure _
  · exact sim_pure _
  · exact sim_idx.bind fun _ => sim_pure _
  · exact sim_idx.bind fun _ => sim_pure _
  · exact (sim_vec sim_idx).bind fun _ => sim_idx.bind fun _ => sim_pure _
  · exact sim_pure _
  · exact sim_idx.bind fun _ => sim_pure _
  · exact sim_idx.bind fun _ => sim_idx.bind fun _ => sim_pure _
  · exact sim_pure _
  · exact sim_pure _
  · exact sim_idx.bind fun _ => sim_pure _
  · exact sim_idx.bind fun _ => sim_pure _
  · exact sim_idx.bind fun _ => sim_pure _
  · exact sim_idx.bind fun _ => sim_pure _
  · exact sim_idx.bind fun _ => sim_pure _
  · exact sim_idx.bind fun _ => sim_pure _
  · exact sim_idx.bind fun _ => sim_pure _
  · exact h32.bind fun _ => sim_pure _
  · exact h64.bind fun _ => sim_pure _
  · exact (sim_float 4).bind fun _ => sim_pure _
  · exact (sim_float 8).bind fun _ => sim_pure _
  · split <;> first | contradiction | exact ht

theorem sim_instrOf {q : IP SubExpr} {p : P SubExpr} (h : Sim true q p) : Sim true (instrOf q) (Whasm.instrOf p) :=
  sim_byte.bind fun b => sim_instrAt h b

theorem sim_subStep {q : IP SubExpr} {p : P SubExpr} (h : Sim true q p) (i : Instr) : Sim true (subStep q i) (Whasm.subStep p i) := by
  cases i <;> first | exact sim_pure _ | exact h.bind fun _ => sim_pure _

theorem sim_subExpr : ∀ fuel, Sim true (parseSubExpr fuel) (Whasm.parseSubExpr fuel)
  | 0 => sim_fail _
  | fuel + 1 => (sim_instrOf (sim_subExpr fuel)).bind fun i => sim_subStep (sim_subExpr fuel) i

/-- A parser on lists that uses the length of the input as a bound, on iterators the bound given. -/
theorem sim_withFuel {b : Bool} {q : Nat → IP α} {p : Nat → P α} (h : ∀ n, Sim b (q n) (p n))
    (hle : ∀ n m, n ≤ m → FuelLe (p n) (p m)) (hok : ∀ n, FuelOk n (p (n + 1))) :
    Sim b (IP.withFuel q) (fun s => p (s.length + 1) s) where
  fwd := by
    intro σ next st st' l fuel hy hl
    have e : p fuel l = p (l.length + 1) l := hle _ _ (by omega) l (hok _ l (Nat.le_refl _))
    rcases (h fuel).fwd σ next st st' l fuel hy hl with ⟨c, m, h1, h2, h3, h4⟩ | ⟨⟨h1, h2⟩, h3⟩
    · rw [e] at h1 h3 h4
      exact .inl ⟨c, m, h1, h2, h3, h4⟩
    · rw [e] at h1 h2 h3
      exact .inr ⟨⟨h1, h2⟩, h3⟩
  rev := by
    intro σ next st st2 fuel x hq
    have key : ∀ s r, p fuel s = (x, r) → x ≠ .error .fuel → p (s.length + 1) s = (x, r) := by
      intro s r hs hx
      rcases Nat.le_total fuel (s.length + 1) with hf | hf
      · rw [hle _ _ hf s (by rw [hs]; exact hx), hs]
      · rw [← hs, hle _ _ hf s (hok _ s (Nat.le_refl _))]
    by_cases hx : x = .error .fuel
    · rcases (h fuel).rev σ next st st2 fuel x hq with h1 | ⟨c, h1, h2⟩ | ⟨c, e, h1, h2, h3, h4, -⟩
      · exact .inl h1
      · exact .inl ⟨hx, c, h1⟩
      · exact absurd hx h4
    · rcases (h fuel).rev σ next st st2 fuel x hq with ⟨h1, -⟩ | ⟨c, h1, h2⟩ | ⟨c, e, h1, h2, h3, h4⟩
      · exact absurd h1 hx
      · exact .inr (.inl ⟨c, h1, fun t => key _ _ (h2 t) hx⟩)
      · exact .inr (.inr ⟨c, e, h1, h2, key _ _ h3 hx, h4⟩)

theorem sim_expr : Sim true parseExpr Whasm.parseExpr :=
  sim_withFuel (p := fun n => Whasm.exprOf (Whasm.parseSubExpr n)) (fun n => sim_exprOf (sim_subExpr n))
    (fun _ _ h => fuelLe_exprOf (fuelLe_subExpr h)) (fun n => fuelOk_exprOf (good_subExpr _) (fuelOk_subExpr n))

theorem sim_instr : Sim true parseInstr Whasm.parseInstr :=
  sim_withFuel (p := fun n => Whasm.instrOf (Whasm.parseSubExpr n)) (fun n => sim_instrOf (sim_subExpr n))
    (fun _ _ h => fuelLe_instrOf (fuelLe_subExpr h))
    (fun n => fuelOk_instrOf (good_subExpr _) (fuelOk_mono (fuelOk_subExpr n) (by omega)))

theorem sim_constExpr : Sim true parseConstExpr Whasm.parseConstExpr := sim_expr

/-! ## Modules -/

theorem sim_func : Sim true parseFunc Whasm.parseFunc :=
  (sim_compactVec sim_val).bind fun _ => sim_expr.bind fun _ => sim_pure _

theorem sim_table : Sim true parseTable Whasm.parseTable := sim_tableTy.bind fun _ => sim_pure _

theorem sim_mem : Sim true parseMem Whasm.parseMem := sim_memTy.bind fun _ => sim_pure _

theorem sim_global : Sim true parseGlobal Whasm.parseGlobal :=
  sim_globalTy.bind fun _ => sim_constExpr.bind fun _ => sim_pure _

theorem sim_elem : Sim true parseElem Whasm.parseElem :=
  sim_idx.bind fun _ => sim_constExpr.bind fun _ => (sim_vec sim_idx).bind fun _ => sim_pure _

theorem sim_data : Sim true parseData Whasm.parseData :=
  sim_idx.bind fun _ => sim_constExpr.bind fun _ => (sim_unwrappingVec _ sim_byte).bind fun _ => sim_pure _

theorem sim_start : Sim true parseStart Whasm.parseStart := sim_idx.bind fun _ => sim_pure _

theorem sim_importDesc : Sim true parseImportDesc Whasm.parseImportDesc := by
  refine sim_byte.bind fun b => ?_
  generalize b.toNat = n
  split
  · exact sim_idx.bind fun _ => sim_pure _
  · exact sim_tableTy.bind fun _ => sim_pure _
  · exact sim_memTy.bind fun _ => sim_pure _
  · exact sim_globalTy.bind fun _ => sim_pure _
  · split <;> first | contradiction | exact sim_fail _

theorem sim_exportDesc : Sim true parseExportDesc Whasm.parseExportDesc := by
  refine sim_byte.bind fun b => ?_
  generalize b.toNat = n
  split
  · exact sim_idx.bind fun _ => sim_pure _
  · exact sim_idx.bind fun _ => sim_pure _
  · exact sim_idx.bind fun _ => sim_pure _
  · exact sim_idx.bind fun _ => sim_pure _
  · split <;> first | contradiction | exact sim_fail _

theorem sim_import : Sim true parseImport Whasm.parseImport :=
  sim_string.bind fun _ => sim_string.bind fun _ => sim_importDesc.bind fun _ => sim_pure _

theorem sim_export : Sim true parseExport Whasm.parseExport :=
  sim_string.bind fun _ => sim_exportDesc.bind fun _ => sim_pure _

/-- `Consume` with something done with the number. -/
theorem sim_consume_map (f : Nat → α) : Sim false (parseConsume >>= fun n => pure (f n)) (Whasm.parseConsume >>= fun n => pure (f n)) where
  fwd := by
    intro σ next st st' l fuel hy hl
    rcases sim_consume.fwd σ next st st' l fuel hy hl with ⟨c, m, h1, h2, h3, h4⟩ | ⟨⟨h1, h2⟩, -⟩
    · exact .inl ⟨c, m, h1, h2, h3, ipBind_ok h4⟩
    · exact .inr ⟨⟨rfl, fun dead hd => ipBind_ok (h2 dead hd)⟩, fun h => by cases h⟩
  rev := by
    intro σ next st st2 fuel y hq
    generalize hr : parseConsume σ next fuel st = r
    obtain ⟨x, st1⟩ := r
    have h1 := countLoop_rev fuel fuel 0 st st1 x hr
    cases x with
    | error e =>
      rw [ipBind_error hr] at hq
      cases hq
      rcases h1 with ⟨hx, h1⟩ | ⟨c, e, h1, h2, h3⟩
      · cases hx; exact .inl ⟨rfl, h1⟩
      · cases h3
    | ok x =>
      rw [ipBind_ok hr] at hq
      cases hq
      rcases h1 with ⟨hx, h1⟩ | ⟨c, e, h1, h2, h3⟩
      · cases hx
      · cases h3
        refine .inr (.inr ⟨c, e, h1, h2, ?_, by simp, fun h => by cases h⟩)
        rw [Nat.zero_add]
        rfl

theorem sim_custom : Sim false parseCustom Whasm.parseCustom := sim_string.bind fun name => sim_consume_map fun n => (name, n)

theorem sim_section (id : Byte) (st : LoopState) : Sim true (parseSection id st) (Whasm.parseSection id st) := by
  unfold parseSection Whasm.parseSection
  generalize id.toNat = n
  split
  · exact (sim_sized sim_custom).bind fun _ => sim_pure _
  · exact (sim_sized (sim_vec sim_funcTy).weak).bind fun _ => sim_pure _
  · exact (sim_sized (sim_vec sim_import).weak).bind fun _ => sim_pure _
  · exact (sim_sized (sim_vec sim_idx).weak).bind fun _ => sim_pure _
  · exact (sim_sized (sim_vec sim_table).weak).bind fun _ => sim_pure _
  · exact (sim_sized (sim_vec sim_mem).weak).bind fun _ => sim_pure _
  · exact (sim_sized (sim_vec sim_global).weak).bind fun _ => sim_pure _
  · exact (sim_sized (sim_vec sim_export).weak).bind fun _ => sim_pure _
  · exact (sim_sized sim_start.weak).bind fun _ => sim_pure _
  · exact (sim_sized (sim_vec sim_elem).weak).bind fun _ => sim_pure _
  · refine (sim_sized (sim_unwrappingVec _ (sim_sized sim_func.weak)).weak).bind fun x => ?_
    dsimp only
    split
    · exact sim_fail _
    · cases assignTys st.funcTypes st.funcTypes.length x with
      | none => exact sim_fail _
      | some funcs => exact sim_pure _
  · exact (sim_sized (sim_vec sim_data).weak).bind fun _ => sim_pure _
  · split <;> first | contradiction | exact sim_fail _

theorem sim_iterationAt (st : LoopState) (id : Byte) : Sim true (iterationAt st id)
    (if id ≠ 0x00 then
      if id ≤ st.lastId then P.fail (.unexpectedSectionId id)
      else Whasm.parseSection id { st with lastId := id }
    else Whasm.parseSection id st) := by
  unfold iterationAt
  split
  · split
    · exact sim_fail _
    · exact sim_section _ _
  · exact sim_section _ _

theorem sim_iteration (st : LoopState) : Sim true (parseIteration st) (Whasm.parseIteration st) :=
  sim_byte.bind fun id => sim_iterationAt st id


theorem yields_peek {next : Next σ} {st st' : σ} {l : List Byte} (h : Yields next st l st') :
    Yields (peekNext next) (st, none) l (st', none) := by
  induction h with
  | nil => exact .nil _
  | cons e _ ih => exact .cons (by rw [peekNext, e]) ih

theorem peek_state {next : Next σ} : ∀ {l : List Byte} {st : σ} {w : σ × Option (Option Byte)},
    Yields (peekNext next) (st, none) l w → ∃ m, w = (m, none) ∧ Yields next st l m
  | [], st, w, h => by cases h; exact ⟨st, rfl, .nil _⟩
  | b :: l, st, w, h => by
    cases h with
    | cons e h =>
      rw [peekNext] at e
      generalize hr : next st = r at e
      obtain ⟨o, st1⟩ := r
      cases e
      obtain ⟨m, h1, h2⟩ := peek_state (l := l) h
      exact ⟨m, h1, .cons hr h2⟩

theorem sectionLoop_sim (next : Next σ) (inner : Nat) : ∀ (n : Nat) (l : List Byte), l.length ≤ n → l.length < inner →
    ∀ (k j : Nat) (st : LoopState) (s s' : σ), l.length < k → l.length < j → Yields next s l s' →
    (∃ c mid, l = c ++ (Whasm.sectionLoop j st l).2 ∧ Yields next s c mid ∧ Yields next mid (Whasm.sectionLoop j st l).2 s' ∧
      sectionLoop next inner k st (s, none) = ((Whasm.sectionLoop j st l).1, (mid, none))) ∨
    ((Whasm.sectionLoop j st l).2 = [] ∧ ∀ dead, next s' = (none, dead) →
      ∃ pk, sectionLoop next inner k st (s, none) = ((Whasm.sectionLoop j st l).1, (dead, pk))) := by
  intro n
  induction n with
  | zero =>
    intro l hl _ k j st s s' hk hj hy
    obtain rfl : l = [] := by simpa using hl
    obtain ⟨k, rfl⟩ : ∃ i, k = i + 1 := ⟨k - 1, by simp at hk; omega⟩
    obtain ⟨j, rfl⟩ : ∃ i, j = i + 1 := ⟨j - 1, by simp at hj; omega⟩
    cases hy
    refine .inr ⟨rfl, fun dead hd => ⟨some none, ?_⟩⟩
    rw [sectionLoop, peek, hd]
    rfl
  | succ n ih =>
    intro l hl hin k j st s s' hk hj hy
    obtain ⟨k, rfl⟩ : ∃ i, k = i + 1 := ⟨k - 1, by omega⟩
    obtain ⟨j, rfl⟩ : ∃ i, j = i + 1 := ⟨j - 1, by omega⟩
    cases hy with
    | nil =>
      refine .inr ⟨rfl, fun dead hd => ⟨some none, ?_⟩⟩
      rw [sectionLoop, peek, hd]
      rfl
    | @cons _ s1 _ b l1 e hy =>
      simp only [List.length_cons] at hl hin hk hj
      have hpeek : peek next (s, none) = (some b, (s1, some (some b))) := by rw [peek, e]
      have hq : parseIteration st (σ × Option (Option Byte)) (peekNext next) inner (s1, some (some b)) = _ :=
        ipBind_ok (parseByte_some (st := (s1, some (some b))) (st1 := (s1, none)) (b := b) rfl)
      generalize hpi : (if b ≠ 0x00 then
          if b ≤ st.lastId then P.fail (.unexpectedSectionId b)
          else Whasm.parseSection b { st with lastId := b }
        else Whasm.parseSection b st : P LoopState) = pi
      have hp : Whasm.parseIteration st (b :: l1) = pi l1 := by rw [← hpi]; rfl
      have hsim := sim_iterationAt st b
      rw [hpi] at hsim
      have hI : sectionLoop next inner (k + 1) st (s, none) =
          match iterationAt st b (σ × Option (Option Byte)) (peekNext next) inner (s1, none) with
          | (.ok st', pst) => sectionLoop next inner k st' pst
          | (.error e, pst) => (.error e, pst) := by
        rw [sectionLoop, hpeek]
        dsimp only
        rw [hq]
        generalize iterationAt st b (σ × Option (Option Byte)) (peekNext next) inner (s1, none) = r
        obtain ⟨x | x, w⟩ := r <;> rfl
      rcases hsim.fwd _ (peekNext next) (s1, none) (s', none) l1 inner (yields_peek hy) (by omega) with
        ⟨c, w, h1, h2, h3, h4⟩ | ⟨⟨h1, h2⟩, h3⟩
      · obtain ⟨m, rfl, k1⟩ := peek_state h2
        obtain ⟨m', hm, k2⟩ := peek_state h3
        cases hm
        generalize hr : pi l1 = r at h1 h3 h4 k2 hp
        obtain ⟨x, r⟩ := r
        simp only at h1 h3 k2
        cases x with
        | error e' =>
          have hP : Whasm.sectionLoop (j + 1) st (b :: l1) = (.error e', r) := bind_of_error hp
          left
          refine ⟨b :: c, m, ?_, .cons e k1, ?_, ?_⟩
          · rw [hP, h1]; rfl
          · rw [hP]; exact k2
          · rw [hI, h4, hP]
        | ok st2 =>
          have hP : Whasm.sectionLoop (j + 1) st (b :: l1) = Whasm.sectionLoop j st2 r := bind_of_ok hp
          have hI2 : sectionLoop next inner (k + 1) st (s, none) = sectionLoop next inner k st2 (m, none) := by rw [hI, h4]
          have hlen : r.length ≤ l1.length := by
            have := congrArg List.length h1
            rw [List.length_append] at this
            omega
          rw [hP, hI2]
          rcases ih r (by omega) (by omega) k j st2 m s' (by omega) (by omega) k2 with ⟨c2, m2, g1, g2, g3, g4⟩ | ⟨g1, g2⟩
          · left
            refine ⟨b :: c ++ c2, m2, ?_, ?_, g3, g4⟩
            · rw [List.append_assoc, ← g1, h1]; rfl
            · exact .cons e (k1.append g2)
          · exact .inr ⟨g1, g2⟩
      · obtain ⟨e', he⟩ := h3 rfl
        generalize hr : pi l1 = r at h1 h2 he hp
        obtain ⟨x, r⟩ := r
        simp only at h1 h2 he
        subst h1 he
        have hP : Whasm.sectionLoop (j + 1) st (b :: l1) = (.error e', []) := bind_of_error hp
        right
        refine ⟨by rw [hP], fun dead hd => ⟨none, ?_⟩⟩
        have := h2 (dead, none) (by rw [peekNext, hd])
        rw [hI, this, hP]

theorem fwd_sections : Fwd false parseSections Whasm.parseSections := by
  intro σ next st st' l fuel hy hl
  rcases sectionLoop_sim next fuel l.length l (Nat.le_refl _) hl fuel (l.length + 1) {} st st' hl (by omega) hy with
    ⟨c, m, h1, h2, h3, h4⟩ | ⟨h1, h2⟩
  · left
    refine ⟨c, m, h1, h2, h3, ?_⟩
    show (match sectionLoop next fuel fuel {} (st, none) with | (x, (st, _)) => (x, st)) = _
    rw [h4]
    rfl
  · right
    refine ⟨⟨h1, fun dead hd => ?_⟩, fun h => by cases h⟩
    obtain ⟨pk, h3⟩ := h2 dead hd
    show (match sectionLoop next fuel fuel {} (st, none) with | (x, (st, _)) => (x, st)) = _
    rw [h3]
    rfl

/-- Everything that the loop can do. -/
theorem sectionLoop_rev (next : Next σ) (inner : Nat) : ∀ (k : Nat) (st : LoopState) (s : σ) (y : Except Error Module)
    (w : σ × Option (Option Byte)), sectionLoop next inner k st (s, none) = (y, w) →
    (y = .error .fuel ∧ ∃ c, Yields next s c w.1) ∨
    (∃ c, Yields next s c w.1 ∧ ∀ t j, (c ++ t).length < j → Whasm.sectionLoop j st (c ++ t) = (y, t)) ∨
    (∃ c e, Yields next s c e ∧ next e = (none, w.1) ∧ (∀ j, c.length < j → Whasm.sectionLoop j st c = (y, [])) ∧
      y ≠ .error .fuel) := by
  intro k
  induction k with
  | zero => intro st s y w hq; cases hq; exact .inl ⟨rfl, [], .nil _⟩
  | succ k ih =>
    intro st s y w hq
    generalize hn : next s = r
    obtain ⟨o, s1⟩ := r
    cases o with
    | none =>
      rw [sectionLoop, peek, hn] at hq
      cases hq
      refine .inr (.inr ⟨[], s, .nil _, hn, fun j hj => ?_, by simp⟩)
      obtain ⟨j, rfl⟩ : ∃ i, j = i + 1 := ⟨j - 1, by simp at hj; omega⟩
      rfl
    | some b =>
      have hpeek : peek next (s, none) = (some b, (s1, some (some b))) := by rw [peek, hn]
      have hb : parseIteration st (σ × Option (Option Byte)) (peekNext next) inner (s1, some (some b)) = _ :=
        ipBind_ok (parseByte_some (st := (s1, some (some b))) (st1 := (s1, none)) (b := b) rfl)
      generalize hpi : (if b ≠ 0x00 then
          if b ≤ st.lastId then P.fail (.unexpectedSectionId b)
          else Whasm.parseSection b { st with lastId := b }
        else Whasm.parseSection b st : P LoopState) = pi
      have hp : ∀ l, Whasm.parseIteration st (b :: l) = pi l := fun l => by rw [← hpi]; rfl
      have hsim := (sim_iterationAt st b).rev
      rw [hpi] at hsim
      generalize hr : iterationAt st b (σ × Option (Option Byte)) (peekNext next) inner (s1, none) = r at hb
      obtain ⟨x, v⟩ := r
      have h1 := hsim _ (peekNext next) (s1, none) v inner x hr
      rw [sectionLoop, hpeek] at hq
      dsimp only at hq
      rw [hb] at hq
      cases x with
      | error e =>
        cases hq
        rcases h1 with ⟨hx, c, h1⟩ | ⟨c, h1, h2⟩ | ⟨c, e', h1, h2, h3, h4, -⟩
        · obtain ⟨m, rfl, k1⟩ := peek_state h1
          cases hx
          exact .inl ⟨rfl, b :: c, .cons hn k1⟩
        · obtain ⟨m, rfl, k1⟩ := peek_state h1
          refine .inr (.inl ⟨b :: c, .cons hn k1, fun t j hj => ?_⟩)
          obtain ⟨j, rfl⟩ : ∃ i, j = i + 1 := ⟨j - 1, by omega⟩
          exact bind_of_error ((hp (c ++ t)).trans (h2 t))
        · obtain ⟨m, rfl, k1⟩ := peek_state h1
          rw [peekNext] at h2
          generalize hm : next m = r at h2
          obtain ⟨o, dead⟩ := r
          cases h2
          refine .inr (.inr ⟨b :: c, m, .cons hn k1, hm, fun j hj => ?_, fun h => by cases h; exact h4 rfl⟩)
          obtain ⟨j, rfl⟩ : ∃ i, j = i + 1 := ⟨j - 1, by omega⟩
          exact bind_of_error ((hp c).trans h3)
      | ok st2 =>
        dsimp only at hq
        rcases h1 with ⟨hx, -⟩ | ⟨c, h1, h2⟩ | ⟨c, e', h1, h2, h3, h4, h5⟩
        · cases hx
        · obtain ⟨m, rfl, k1⟩ := peek_state h1
          have hP : ∀ t j, Whasm.sectionLoop (j + 1) st (b :: (c ++ t)) = Whasm.sectionLoop j st2 t := fun t j =>
            bind_of_ok ((hp (c ++ t)).trans (h2 t))
          rcases ih st2 m y w hq with ⟨hy, c', g1⟩ | ⟨c', g1, g2⟩ | ⟨c', e', g1, g2, g3, g4⟩
          · exact .inl ⟨hy, _, .cons hn (k1.append g1)⟩
          · refine .inr (.inl ⟨b :: (c ++ c'), .cons hn (k1.append g1), fun t j hj => ?_⟩)
            simp only [List.cons_append, List.length_cons, List.append_assoc, List.length_append] at hj
            obtain ⟨j, rfl⟩ : ∃ i, j = i + 1 := ⟨j - 1, by omega⟩
            rw [List.cons_append, List.append_assoc, hP]
            exact g2 t j (by rw [List.length_append]; omega)
          · refine .inr (.inr ⟨b :: (c ++ c'), e', .cons hn (k1.append g1), g2, fun j hj => ?_, g4⟩)
            simp only [List.length_cons, List.length_append] at hj
            obtain ⟨j, rfl⟩ : ∃ i, j = i + 1 := ⟨j - 1, by omega⟩
            rw [hP]
            exact g3 j (by omega)
        · obtain ⟨err, he⟩ := h5 rfl
          cases he

theorem sim_sections : Sim false parseSections Whasm.parseSections where
  fwd := fwd_sections
  rev := by
    intro σ next st st2 fuel x hq
    generalize hr : sectionLoop next fuel fuel {} (st, none) = r
    obtain ⟨y, w⟩ := r
    have hq' : (y, w.1) = (x, st2) := by
      rw [← hq]
      show _ = (match sectionLoop next fuel fuel {} (st, none) with | (x, (st, _)) => (x, st))
      rw [hr]
    cases hq'
    rcases sectionLoop_rev next fuel fuel {} st _ w hr with h | ⟨c, h1, h2⟩ | ⟨c, e, h1, h2, h3, h4⟩
    · exact .inl h
    · exact .inr (.inl ⟨c, h1, fun t => h2 t _ (Nat.lt_succ_self _)⟩)
    · exact .inr (.inr ⟨c, e, h1, h2, h3 _ (Nat.lt_succ_self _), h4, fun h => by cases h⟩)

theorem sim_module : Sim false parseModule Whasm.parseModule := by
  refine (sim_n sim_byte 4).bind fun magic => ?_
  split
  · exact sim_fail _
  · refine (sim_n sim_byte 4).bind fun version => ?_
    split
    · exact sim_fail _
    · exact sim_sections

end

end Whasm.Iter
