import Verif.Lemmas.Grant

/-!
# Parsing on a machine that may refuse anything
-/

namespace Whasm.Grant
open Spec

/-- What the parser asks for. -/
def FromParser : Ask → Prop
  | .part _ _ _ => True
  | .call w => w = .parse ∨ w = .drop
  | .back w => w = .parse ∨ w = .drop
  | _ => False

/-- At most `a` levels of parsing and `b` of dropping. -/
def dep (a b : Nat) : Work → Nat
  | .parse => a
  | .drop => b
  | _ => 0

/-- What a parser may ask for. -/
def Asked (a b : Nat) (t : List Ask) : Prop := Tidy (dep a b) t ∧ ∀ x ∈ t, FromParser x

theorem Asked.append {a b : Nat} {t u : List Ask} (ht : Asked a b t) (hu : Asked a b u) : Asked a b (t ++ u) :=
  ⟨ht.1.append hu.1, fun x hx => by
    rcases List.mem_append.mp hx with h | h
    · exact ht.2 x h
    · exact hu.2 x h⟩

theorem Asked.nil {a b : Nat} : Asked a b [] := ⟨.nil, fun _ h => by cases h⟩

theorem Asked.mono {a a' b b' : Nat} {t : List Ask} (h : Asked a b t) (ha : a ≤ a') (hb : b ≤ b') : Asked a' b' t :=
  ⟨h.1.mono fun w => by cases w <;> simp only [dep] <;> omega, h.2⟩

theorem Asked.dropping {a b : Nat} {t : List Ask} (h : Visit .drop b t) : Asked a b t :=
  ⟨h.1.mono fun w => by cases w <;> simp [dep, just], fun x hx => by rcases h.2 x hx with rfl | rfl <;> exact .inr rfl⟩

/-- All vectors have room. -/
def Roomy (room : Kind → Nat) (t : List Ask) : Prop := ∀ k len more, Ask.part k len more ∈ t → len + more ≤ room k

theorem roomy_append {room : Kind → Nat} {t u : List Ask} : Roomy room (t ++ u) ↔ Roomy room t ∧ Roomy room u := by
  refine ⟨fun h => ⟨fun k len more hx => h k len more (List.mem_append_left _ hx), fun k len more hx => h k len more (List.mem_append_right _ hx)⟩, fun ⟨ht, hu⟩ k len more hx => ?_⟩
  rcases List.mem_append.mp hx with h | h
  · exact ht k len more h
  · exact hu k len more h

theorem roomy_one {room : Kind → Nat} {k : Kind} {len more : Nat} : Roomy room [.part k len more] ↔ len + more ≤ room k := by
  refine ⟨fun h => h _ _ _ List.mem_cons_self, fun h k l m hx => ?_⟩
  cases List.mem_singleton.mp hx
  exact h

theorem Roomy.only {room : Kind → Nat} {t : List Ask} {v : Work} (h : Only v t) : Roomy room t := fun k len more hx => by
  rcases h _ hx with h | h <;> cases h

/-- The requests `t` are those of the run `m` with limited memory, which panics if and only if there is too little room for one of them. -/
def Counts {α : Type} (room : Kind → Nat) (t : List Ask) (p : Except Error α × List Byte) (m : Memory.Run α) : Prop :=
  (Roomy room t ∧ m.out = p ∧ elementsAsked t = m.slots) ∨ (¬ Roomy room t ∧ m.out.1 = .error .panic)

/-- What the requests have to do with the result: levels for dropping are needed for errors only; and `Q` relates the result to the number of levels for parsing. -/
def Reaches {α : Type} (t : List Ask) (x : α) (Q : α → Nat → Prop) : Prop := peak .drop t = 0 ∧ ∃ i : Nat, peak .parse t = i ∧ Q x i

/-- `q` is `p` on a machine, and `m` is the same with limited memory. The input is shorter than `n`. -/
def Rel {α : Type} (n a b : Nat) (q : GP α) (p : P α) (m : Memory.M α) (Q : α → Nat → Prop) : Prop := ∀ s, s.length < n →
  ∃ t, Does (q s) t (p s) ∧ Asked a b t ∧ (∀ room, Counts room t (p s) (m room s)) ∧ ∀ x r, p s = (.ok x, r) → r.length ≤ s.length ∧ Reaches t x Q

/-- There is nothing that nests. -/
def Flat {α : Type} (_ : α) (i : Nat) : Prop := i = 0

section
variable {α β : Type} {n a b : Nat}

theorem Rel.mono {q : GP α} {p : P α} {m : Memory.M α} {A B : α → Nat → Prop} {a' b' : Nat} (h : Rel n a b q p m A) (ha : a ≤ a') (hb : b ≤ b') (hA : ∀ x i, i ≤ a → A x i → B x i) : Rel n a' b' q p m B := fun s hs =>
  let ⟨t, h1, h2, h3, h4⟩ := h s hs
  ⟨t, h1, h2.mono ha hb, h3, fun x r hx => ⟨(h4 x r hx).1, (h4 x r hx).2.1, let ⟨i, e, hi⟩ := (h4 x r hx).2.2; ⟨i, e, hA x i (by have := h2.1.most .parse; simp only [dep] at this; omega) hi⟩⟩⟩

theorem Rel.imp {q : GP α} {p : P α} {m : Memory.M α} {A B : α → Nat → Prop} (h : Rel n a b q p m A) (hA : ∀ x i, i ≤ a → A x i → B x i) : Rel n a b q p m B := h.mono (Nat.le_refl _) (Nat.le_refl _) hA

theorem counts_none {p : Except Error α × List Byte} (room : Kind → Nat) : Counts room [] p ⟨p, 0⟩ := .inl ⟨(fun _ _ _ h => by cases h), rfl, rfl⟩

theorem reaches_nil {x : α} {A : α → Nat → Prop} (h : A x 0) : Reaches [] x A := ⟨rfl, 0, rfl, h⟩

theorem rel_lift {p : P α} {A : α → Nat → Prop} (h : Good p) (hA : ∀ s x r, p s = (.ok x, r) → A x 0) : Rel n a b (GP.lift p) p (Memory.lift p) A := fun s _ =>
  ⟨[], .pure _, .nil, counts_none, fun x r hx => ⟨by have := (h.forward s).length_le; rwa [hx] at this, reaches_nil (hA s x r hx)⟩⟩

theorem rel_any {p : P α} (h : Good p) : Rel n a b (GP.lift p) p (Memory.lift p) Flat := rel_lift h fun _ _ _ _ => rfl

theorem rel_pure {x : α} {A : α → Nat → Prop} (h : A x 0) : Rel n a b (pure x : GP α) (pure x) (pure x) A := fun s _ =>
  ⟨[], .pure _, .nil, counts_none, fun x r hx => by cases hx; exact ⟨Nat.le_refl _, reaches_nil h⟩⟩

theorem rel_fail (e : Error) {A : α → Nat → Prop} : Rel n a b (GP.fail e : GP α) (P.fail e) (Memory.M.fail e) A := fun s _ =>
  ⟨[], .pure _, .nil, counts_none, fun x r hx => by cases hx⟩

theorem rel_bind {q : GP α} {p : P α} {m : Memory.M α} {f : α → GP β} {g : α → P β} {k : α → Memory.M β} {A : α → Nat → Prop} {B : β → Nat → Prop} (h : Rel n a b q p m A)
    (hf : ∀ x i, i ≤ a → A x i → Rel n a b (f x) (g x) (k x) fun y j => B y (max i j)) : Rel n a b (q >>= f) (p >>= g) (m >>= k) B := by
  intro s hs
  obtain ⟨t, h1, h2, h3, h4⟩ := h s hs
  rcases hp : p s with ⟨e | x, r⟩
  · rw [bind_of_error hp]
    refine ⟨t ++ [], ?_, h2.append .nil, ?_, fun x r hx => by cases hx⟩
    · rw [hp] at h1
      exact h1.bind (.pure _)
    · rw [List.append_nil]
      intro room
      rcases h3 room with ⟨h', h, h''⟩ | ⟨h', h⟩
      · rw [hp] at h
        left
        rw [Memory.bind_err' h]
        exact ⟨h', rfl, h''⟩
      · rcases hm : (m room s).out with ⟨y, r'⟩
        rw [hm] at h
        cases h
        right
        rw [Memory.bind_err' hm]
        exact ⟨h', rfl⟩
  · rw [bind_of_ok hp]
    obtain ⟨hl, hd, i, hi, hA⟩ := h4 x r hp
    have hia : i ≤ a := by have := h2.1.most .parse; simp only [dep] at this; omega
    obtain ⟨u, g1, g2, g3, g4⟩ := hf x i hia hA r (by omega)
    refine ⟨t ++ u, ?_, h2.append g2, ?_, fun y r' hy => ?_⟩
    · rw [hp] at h1
      exact h1.bind g1
    · intro room
      rcases h3 room with ⟨h', h, h''⟩ | ⟨h', h⟩
      · rw [hp] at h
        rw [Memory.bind_ok' h]
        rcases g3 room with ⟨g', g, g''⟩ | ⟨g', g⟩
        · exact .inl ⟨roomy_append.mpr ⟨h', g'⟩, g, by rw [elementsAsked_append, h'', g'']⟩
        · exact .inr ⟨fun hr => g' (roomy_append.mp hr).2, g⟩
      · rcases hm : (m room s).out with ⟨y, r'⟩
        rw [hm] at h
        cases h
        right
        rw [Memory.bind_err' hm]
        exact ⟨fun hr => h' (roomy_append.mp hr).1, rfl⟩
    · obtain ⟨gl, gd, j, gj, hB⟩ := g4 y r' hy
      refine ⟨by omega, ?_, max i j, ?_, hB⟩
      · rw [peak_append, h2.1.done, hd, gd]; rfl
      · rw [peak_append, h2.1.done, hi, gj]; omega

/-- After something that does not nest. -/
theorem rel_then {q : GP α} {p : P α} {m : Memory.M α} {f : α → GP β} {g : α → P β} {k : α → Memory.M β} {B : β → Nat → Prop} (h : Rel n a b q p m Flat)
    (hf : ∀ x, Rel n a b (f x) (g x) (k x) B) : Rel n a b (q >>= f) (p >>= g) (m >>= k) B :=
  rel_bind h fun x i _ hi => (hf x).imp fun y j _ hj => by
    have hi : i = 0 := hi
    rwa [hi, Nat.zero_max]

theorem rel_map {q : GP α} {p : P α} {m : Memory.M α} {f : α → β} {A : α → Nat → Prop} {B : β → Nat → Prop} (h : Rel n a b q p m A) (hf : ∀ x i, i ≤ a → A x i → B (f x) i) :
    Rel n a b (q >>= fun x => pure (f x)) (p >>= fun x => pure (f x)) (m >>= fun x => pure (f x)) B := rel_bind h fun x i hi hx => rel_pure (by rw [Nat.max_zero]; exact hf x i hi hx)

theorem rel_request {f : Unit → GP β} {g : P β} {k : Unit → Memory.M β} {B : β → Nat → Prop} {kd : Kind} {len more : Nat} (h : Rel n a b (f ()) g (k ()) B) :
    Rel n a b (GP.request kd len more >>= f) g (Memory.request kd len more >>= k) B := by
  intro s hs
  obtain ⟨t, h1, h2, h3, h4⟩ := h s hs
  refine ⟨[.part kd len more] ++ t, ?_, Asked.append ⟨.one fun w => rfl, fun x hx => ?_⟩ h2, ?_, fun x r hx => ?_⟩
  · exact Does.bind (x := GP.request kd len more s) (r := (.ok (), s)) ((Does.ask (.part kd len more)).map fun _ => ((Except.ok (), s) : Except Error Unit × List Byte)) h1
  · rw [List.mem_singleton.mp hx]; trivial
  · intro room
    unfold Counts
    rw [roomy_append, roomy_one]
    by_cases hr : len + more ≤ room kd
    · rw [Memory.bind_ok' (p := Memory.request kd len more) (x := ()) (t := s) (by rw [Memory.request_ok hr]), Memory.request_ok hr]
      rcases h3 room with ⟨h', h, h''⟩ | ⟨h', h⟩
      · refine .inl ⟨⟨hr, h'⟩, h, ?_⟩
        show more + elementsAsked t = _
        rw [h'']
      · exact .inr ⟨fun h => h' h.2, h⟩
    · right
      rw [Memory.bind_err' (p := Memory.request kd len more) (e := .panic) (t := s) (by rw [Memory.request_panic hr])]
      exact ⟨fun h => hr h.1, rfl⟩
  · obtain ⟨hl, hd, i, hi, hA⟩ := h4 x r hx
    refine ⟨hl, ?_, i, ?_, hA⟩
    · show max 0 (0 + peak .drop t) = 0
      rw [hd]; rfl
    · show max 0 (0 + peak .parse t) = i
      omega

theorem rel_scope {q : GP α} {p : P α} {m : Memory.M α} {A : α → Nat → Prop} {owned : List Ask} (h : Rel n a b q p m A) (ho : Visit .drop b owned) : Rel n a b (GP.scope owned q) p m A := by
  intro s hs
  obtain ⟨t, h1, h2, h3, h4⟩ := h s hs
  rcases hp : p s with ⟨e | x, r⟩
  · rw [hp] at h1 h3
    refine ⟨t ++ (owned ++ []), h1.bind ((Does.askAll owned).bind (.pure _)), h2.append (.append (.dropping ho) .nil), ?_, fun x r hx => by cases hx⟩
    rw [List.append_nil]
    intro room
    rcases h3 room with ⟨h', h, h''⟩ | ⟨h', h⟩
    · exact .inl ⟨roomy_append.mpr ⟨h', .only ho.2⟩, h, by rw [elementsAsked_append, ho.2.parts, h'']; rfl⟩
    · exact .inr ⟨fun hr => h' (roomy_append.mp hr).1, h⟩
  · rw [hp] at h1 h3 h4
    refine ⟨t ++ [], h1.bind (.pure _), h2.append .nil, ?_⟩
    rw [List.append_nil]
    exact ⟨h3, h4⟩

theorem rel_nested {q : GP α} {p : P α} {m : Memory.M α} {A B : α → Nat → Prop} (h : Rel n a b q p m A) (hB : ∀ x i, i ≤ a → A x i → B x (i + 1)) : Rel n (a + 1) b (GP.nested q) p m B := by
  intro s hs
  obtain ⟨t, h1, h2, h3, h4⟩ := h s hs
  have hd : Does (GP.nested q s) (Ask.call .parse :: (t ++ [Ask.back .parse])) (p s) := Does.level .parse h1
  refine ⟨_, hd, ⟨h2.1.level fun w => by cases w <;> simp [dep], fun x hx => ?_⟩, fun room => ?_, fun x r hx => ?_⟩
  · rcases List.mem_cons.mp hx with rfl | hx
    · exact .inl rfl
    · rcases List.mem_append.mp hx with hx | hx
      · exact h2.2 x hx
      · rw [List.mem_singleton.mp hx]; exact .inl rfl
  · have hr : Roomy room (Ask.call .parse :: (t ++ [Ask.back .parse])) ↔ Roomy room t := by
      refine ⟨fun h k l m hx => h k l m (List.mem_cons_of_mem _ (List.mem_append_left _ hx)), fun h' k l m hx => ?_⟩
      rcases List.mem_cons.mp hx with hx | hx
      · cases hx
      · rcases List.mem_append.mp hx with hx | hx
        · exact h' k l m hx
        · cases List.mem_singleton.mp hx
    unfold Counts
    rw [hr]
    rcases h3 room with ⟨h', h, h''⟩ | h
    · refine .inl ⟨h', h, ?_⟩
      show elementsAsked (t ++ [.back .parse]) = _
      rw [elementsAsked_append, h'']
      rfl
    · exact .inr h
  · obtain ⟨hl, hd, i, hi, hA⟩ := h4 x r hx
    have hia : i ≤ a := by have := h2.1.most .parse; simp only [dep] at this; omega
    refine ⟨hl, ?_, i + 1, ?_, hB x i hia hA⟩
    · simp only [peak, peak_append, h2.1.done, hd, change]; decide
    · simp only [peak, peak_append, h2.1.done, hi, change, if_true]; omega

theorem M_assoc {γ : Type} (p : Memory.M α) (f : α → Memory.M β) (g : β → Memory.M γ) : (p >>= f) >>= g = p >>= fun x => f x >>= g := by
  funext room s
  rcases h : (p room s).out with ⟨e | x, r⟩
  · rw [Memory.bind_err' h, Memory.bind_err' (e := e) (t := r) (by rw [Memory.bind_err' h]), Memory.bind_err' h]
  · rw [Memory.bind_ok' h]
    rcases h' : (f x room r).out with ⟨e | y, r'⟩
    · rw [Memory.bind_err' h', Memory.bind_err' (e := e) (t := r') (by rw [Memory.bind_ok' h]; exact h'), Memory.bind_ok' h]
    · rw [Memory.bind_ok' h', Memory.bind_ok' (x := y) (t := r') (by rw [Memory.bind_ok' h]; exact h'), Memory.bind_ok' h]
      simp only [Nat.add_assoc]

theorem M_pure_bind (x : α) (f : α → Memory.M β) : ((pure x : Memory.M α) >>= f) = f x := by
  funext room s
  show (⟨(f x room s).out, 0 + (f x room s).slots⟩ : Memory.Run β) = f x room s
  rw [Nat.zero_add]

theorem M_pure (p : Memory.M α) : (p >>= fun x => pure x) = p := by
  funext room s
  rcases hp : p room s with ⟨⟨e | x, r⟩, k⟩
  · rw [Memory.bind_err' (e := e) (t := r) (by rw [hp]), hp]
  · rw [Memory.bind_ok' (x := x) (t := r) (by rw [hp]), hp]
    rfl

/-- The largest of some numbers. -/
def most (D : α → Nat) : List α → Nat
  | [] => 0
  | x :: l => max (D x) (most D l)

theorem most_append (D : α → Nat) : ∀ l l', most D (l ++ l') = max (most D l) (most D l')
  | [], l' => by simp [most]
  | x :: l, l' => by simp only [List.cons_append, most, most_append D l l']; omega

theorem most_le {D : α → Nat} {k : Nat} : ∀ {l : List α}, most D l ≤ k ↔ ∀ x ∈ l, D x ≤ k
  | [] => by simp [most]
  | x :: l => by
    have := most_le (D := D) (k := k) (l := l)
    simp only [most, List.mem_cons, forall_eq_or_imp, ← this]
    omega

theorem most_map {γ : Type} {D : γ → Nat} {f : α → γ} : ∀ l : List α, most D (l.map f) = most (fun x => D (f x)) l
  | [] => rfl
  | x :: l => by simp only [List.map_cons, most, most_map l]

/-- The levels are those of `D`. -/
def Is (D : α → Nat) (x : α) (i : Nat) : Prop := D x = i

theorem rel_parseN {q : GP α} {p : P α} {m : Memory.M α} {D : α → Nat} {owned : List α → List Ask} (h : Rel n a b q p m (Is D)) (hab : a ≤ b) (ho : ∀ l, most D l ≤ b → Visit .drop b (owned l)) :
    ∀ k acc, most D acc ≤ b → Rel n a b (GP.parseN owned k q acc) (Whasm.parseN k p >>= fun l => pure (acc ++ l)) (Memory.parseN k m >>= fun l => pure (acc ++ l)) fun l i => most D l = max (most D acc) i
  | 0, acc, ha => by
    show Rel n a b (pure acc) (pure (acc ++ [])) (pure [] >>= fun l => pure (acc ++ l)) _
    have e : ((pure [] : Memory.M (List α)) >>= fun l => pure (acc ++ l)) = pure acc := by
      rw [M_pure_bind, List.append_nil]
    rw [e, List.append_nil]
    exact rel_pure (Nat.max_zero _).symm
  | k + 1, acc, ha => by
    show Rel n a b (GP.scope (owned acc) q >>= _) ((p >>= fun x => Whasm.parseN k p >>= fun xs => pure (x :: xs)) >>= _) ((m >>= fun x => Memory.parseN k m >>= fun xs => pure (x :: xs)) >>= _) _
    rw [Scope.bind_assoc, M_assoc]
    refine rel_bind (rel_scope h (ho acc ha)) fun x i hi hx => ?_
    rw [Scope.bind_assoc, M_assoc]
    have hx : D x = i := hx
    have he : most D (acc ++ [x]) = max (most D acc) i := by
      simp only [most_append, most, hx, Nat.max_zero]
    have := rel_parseN h hab ho k (acc ++ [x]) (by rw [he]; omega)
    have e : (fun l : List α => (pure (acc ++ [x] ++ l) : P (List α))) = fun l => pure (x :: l) >>= fun l => pure (acc ++ l) := by
      funext l; rw [List.append_assoc]; rfl
    have e' : (fun l : List α => (pure (acc ++ [x] ++ l) : Memory.M (List α))) = fun l => pure (x :: l) >>= fun l => pure (acc ++ l) := by
      funext l
      rw [M_pure_bind, List.append_assoc]
      rfl
    rw [e, e'] at this
    exact this.imp fun l j _ hj => by rw [hj, he]; omega

theorem rel_vec {q : GP α} {p : P α} {m : Memory.M α} {D : α → Nat} {owned : List α → List Ask} {k : Kind} (h : Rel n a b q p m (Is D)) (hab : a ≤ b) (ho : ∀ l, most D l ≤ b → Visit .drop b (owned l)) :
    Rel n a b (GP.parseVec k owned q) (Whasm.parseVec p) (Memory.parseVec k m) (Is (most D)) := by
  refine rel_then (rel_any good_u32) fun c => rel_request ?_
  have := rel_parseN h hab ho c.toNat [] (Nat.zero_le _)
  simp only [List.nil_append] at this
  rw [Scope.bind_pure, M_pure] at this
  exact this.imp fun l j _ hj => hj.trans (Nat.zero_max _)

theorem rel_unwrapping {γ : Type} {q : GP α} {p : P α} {m : Memory.M α} {f : α → γ} {D : γ → Nat} {owned : List γ → List Ask} {k : Kind} (h : Rel n a b q p m (Is fun x => D (f x))) (hab : a ≤ b)
    (ho : ∀ l, most D l ≤ b → Visit .drop b (owned l)) : Rel n a b (GP.parseUnwrappingVec k owned f q) (Whasm.parseUnwrappingVec f p) (Memory.parseUnwrappingVec k f m) (Is (most D)) := by
  refine rel_then (rel_any good_u32) fun c => rel_request ?_
  have := rel_parseN (rel_map (B := Is D) (f := f) h fun _ _ _ h => h) hab ho c.toNat [] (Nat.zero_le _)
  simp only [List.nil_append] at this
  rw [Scope.bind_pure, M_pure] at this
  exact this.imp fun l j _ hj => hj.trans (Nat.zero_max _)

/-- A vector whose elements do not nest. -/
theorem rel_vec' {q : GP α} {p : P α} {m : Memory.M α} {k : Kind} (h : Rel n 0 0 q p m Flat) : Rel n a b (GP.parseVec k GP.nothing q) (Whasm.parseVec p) (Memory.parseVec k m) Flat :=
  (rel_vec (D := fun _ => 0) (h.imp fun _ _ _ h => Eq.symm h) (Nat.le_refl _) fun _ _ => .nil).mono (Nat.zero_le _) (Nat.zero_le _) fun _ _ h _ => Nat.le_zero.mp h

theorem rel_bytes : Rel n a b (GP.parseUnwrappingVec .byte GP.nothing (fun b : Byte => b) (GP.lift parseByte)) (Whasm.parseUnwrappingVec (fun b : Byte => b) parseByte)
    (Memory.parseUnwrappingVec .byte (fun b : Byte => b) (Memory.lift parseByte)) Flat :=
  (rel_unwrapping (a := 0) (b := 0) (D := fun _ => 0) (rel_lift good_byte fun _ _ _ _ => rfl) (Nat.le_refl _) fun _ _ => .nil).mono (Nat.zero_le _) (Nat.zero_le _) fun _ _ h _ => Nat.le_zero.mp h

theorem rel_runs {q : GP α} {p : P α} {m : Memory.M α} {k : Kind} (h : Rel n a b q p m Flat) : ∀ rounds len,
    Rel n a b (GP.parseRuns k len rounds q) (Whasm.parseRuns rounds p) (Memory.parseRuns k len rounds m) Flat
  | 0, _ => rel_pure rfl
  | rounds + 1, _ => rel_then (rel_any good_u32) fun _ => rel_then h fun _ => rel_request (rel_map (rel_runs h rounds _) fun _ _ _ h => h)

theorem rel_sized {q : GP α} {p : P α} {m : Memory.M α} {A : α → Nat → Prop} {owned : α → List Ask} (h : Rel n a b q p m A) (ho : ∀ x i, i ≤ a → A x i → Visit .drop b (owned x)) :
    Rel n a b (GP.parseSized owned q) (Whasm.parseSized p) (Memory.parseSized m) A := by
  refine rel_then (rel_any good_u32) fun size => fun s hs => ?_
  have hl : s.length = (s.take size.toNat).length + (s.drop size.toNat).length := by
    rw [← List.length_append, List.take_append_drop]
  obtain ⟨t, h1, h2, h3, h4⟩ := h (s.take size.toNat) (by omega)
  dsimp only
  rcases hp : p (s.take size.toNat) with ⟨e | x, r⟩
  · rw [hp] at h1 h3
    dsimp only
    refine ⟨t ++ [], h1.bind (.pure _), h2.append .nil, ?_, fun x r hx => by cases hx⟩
    rw [List.append_nil]
    intro room
    rcases hm : m room (s.take size.toNat) with ⟨⟨e' | x', r'⟩, k⟩
    · have := h3 room
      rw [hm] at this
      rcases this with ⟨h', h, h''⟩ | ⟨h', h⟩
      · cases h; exact .inl ⟨h', rfl, h''⟩
      · exact .inr ⟨h', by dsimp only at h ⊢; exact h⟩
    · have := h3 room
      rw [hm] at this
      rcases this with ⟨_, h, _⟩ | ⟨_, h⟩ <;> cases h
  · rw [hp] at h1 h3
    obtain ⟨hr, hd, i, hi, hA⟩ := h4 x r hp
    have hia : i ≤ a := by have := h2.1.most .parse; simp only [dep] at this; omega
    have ho := ho x i hia hA
    dsimp only
    have key : ∀ room, m room (s.take size.toNat) = ⟨(.ok x, r), elementsAsked t⟩ ∧ Roomy room t ∨ ¬ Roomy room t ∧ ∃ r' k, m room (s.take size.toNat) = ⟨(.error .panic, r'), k⟩ := by
      intro room
      rcases hm : m room (s.take size.toNat) with ⟨⟨e' | x', r'⟩, k⟩
      · have := h3 room
        rw [hm] at this
        rcases this with ⟨_, h, _⟩ | ⟨h', h⟩
        · cases h
        · cases h; exact .inr ⟨h', _, _, rfl⟩
      · have := h3 room
        rw [hm] at this
        rcases this with ⟨h', h, h''⟩ | ⟨_, h⟩
        · cases h; cases h''; exact .inl ⟨rfl, h'⟩
        · cases h
    by_cases hc : size.toNat ≠ (s.take size.toNat).length - r.length
    · simp only [if_pos hc]
      refine ⟨t ++ (owned x ++ []), h1.bind ?_, h2.append (.append (.dropping ho) .nil), ?_, fun x r hx => by cases hx⟩
      · dsimp only
        rw [if_pos hc]
        exact (Does.askAll _).bind (.pure _)
      · rw [List.append_nil]
        intro room
        rcases key room with ⟨hm, hr'⟩ | ⟨hr', r', k, hm⟩
        · rw [hm]
          simp only [if_pos hc]
          exact .inl ⟨roomy_append.mpr ⟨hr', .only ho.2⟩, rfl, by rw [elementsAsked_append, ho.2.parts]; rfl⟩
        · rw [hm]
          exact .inr ⟨fun h => hr' (roomy_append.mp h).1, rfl⟩
    · simp only [if_neg hc]
      refine ⟨t ++ [], h1.bind ?_, h2.append .nil, ?_, fun y r' hx => ?_⟩
      · dsimp only
        rw [if_neg hc]
        exact .pure _
      · rw [List.append_nil]
        intro room
        rcases key room with ⟨hm, hr'⟩ | ⟨hr', r', k, hm⟩
        · rw [hm]
          simp only [if_neg hc]
          exact .inl ⟨hr', rfl, rfl⟩
        · rw [hm]
          exact .inr ⟨hr', rfl⟩
      · cases hx
        rw [List.append_nil]
        exact ⟨by rw [List.length_append]; omega, hd, i, hi, hA⟩

theorem rel_string : Rel n a b GP.parseString Whasm.parseString Memory.parseString Flat :=
  rel_then rel_bytes fun raw => by
    by_cases h : validUtf8 raw = true
    · rw [if_pos h, if_pos h, if_pos h]; exact rel_pure rfl
    · rw [if_neg h, if_neg h, if_neg h]; exact rel_fail _

theorem rel_retVal : Rel n a b GP.parseRetVal Whasm.parseRetVal Memory.parseRetVal Flat := by
  have : Whasm.parseRetVal = Whasm.parseRetVal >>= fun x => pure x := (Scope.bind_pure _).symm
  rw [this]
  exact rel_then (rel_any good_retVal) fun _ => rel_request (rel_pure rfl)

theorem rel_funcTy : Rel n a b GP.parseFuncTy Whasm.parseFuncTy Memory.parseFuncTy Flat := by
  refine rel_then (rel_any good_byte) fun byte => ?_
  generalize byte.toNat = k
  by_cases h : k = 0x60
  · subst h
    exact rel_then (rel_vec' (rel_any good_val)) fun _ => rel_map (rel_vec' (rel_any good_val)) fun _ _ _ h => h
  · split
    · contradiction
    · split
      · contradiction
      · split
        · contradiction
        · exact rel_fail _

/-! ## Instructions -/

variable {q : GP SubExpr} {p : P SubExpr} {m : Memory.M SubExpr}

theorem rel_exprOf (hab : a ≤ b) (h : Rel n a b q p m (Is fun x => depthL x.body)) : Rel n a b (GP.exprOf q) (Whasm.exprOf p) (Memory.exprOf m) (Is depthL) := by
  refine rel_bind h fun x i hi hx => ?_
  obtain ⟨body, next⟩ := x
  cases next with
  | endMark => exact rel_pure (by rw [Nat.max_zero]; exact hx)
  | _ => exact rel_scope (rel_fail _) (visit_instrs (Nat.le_trans (Nat.le_of_eq hx) (Nat.le_trans hi hab)))

theorem rel_ifOf (hab : a ≤ b) (h : Rel n a b q p m (Is fun x => depthL x.body)) : Rel n a b (GP.ifOf q) (Whasm.ifOf p) (Memory.ifOf m) fun x i => depthI x = i + 1 := by
  refine rel_then rel_retVal fun ret => rel_bind h fun x i hi hx => ?_
  have hx : depthL x.body = i := hx
  have he : Rel n a b (GP.elsePart q x) (Whasm.elsePart p x) (Memory.elsePart m x) (Is fun bn => depthL bn.1) := by
    unfold GP.elsePart Whasm.elsePart Memory.elsePart
    by_cases hn : x.next.isElse = true
    · rw [if_pos hn, if_pos hn, if_pos hn]
      exact rel_map h fun _ _ _ h => h
    · rw [if_neg hn, if_neg hn, if_neg hn]
      exact rel_pure (by simp only [Is, depthL])
  refine rel_bind (rel_scope he (visit_instrs (by omega))) fun bn j hj hb => ?_
  have hb : depthL bn.1 = j := hb
  by_cases hn : bn.2.isEnd = true
  · rw [if_pos hn, if_pos hn, if_pos hn]
    exact rel_pure (by simp only [depthI]; omega)
  · rw [if_neg hn, if_neg hn, if_neg hn]
    exact rel_scope (rel_fail _) ((visit_instrs (by omega)).append (visit_instrs (by omega)))

theorem gp_02 {b : Byte} (h : b.toNat = 2) : GP.instrAt q b = (GP.parseRetVal >>= fun ret => GP.nested (GP.exprOf q) >>= fun body => pure (.block ret body)) := by
  unfold GP.instrAt
  rw [h]
  rfl

theorem gp_03 {b : Byte} (h : b.toNat = 3) : GP.instrAt q b = (GP.parseRetVal >>= fun ret => GP.nested (GP.exprOf q) >>= fun body => pure (.loop ret body)) := by
  unfold GP.instrAt
  rw [h]
  rfl

theorem gp_04 {b : Byte} (h : b.toNat = 4) : GP.instrAt q b = GP.nested (GP.ifOf q) := by
  unfold GP.instrAt
  rw [h]
  rfl

theorem gp_0E {b : Byte} (h : b.toNat = 14) : GP.instrAt q b = (GP.parseVec .idx GP.nothing (GP.lift parseIdx) >>= fun ls => GP.lift parseIdx >>= fun l => pure (.brTable ls l)) := by
  unfold GP.instrAt
  rw [h]
  rfl

theorem gp_other {b : Byte} (h2 : b.toNat ≠ 2) (h3 : b.toNat ≠ 3) (h4 : b.toNat ≠ 4) (he : b.toNat ≠ 14) : GP.instrAt q b = GP.lift (Whasm.instrAt (P.fail .fuel) b) := by
  unfold GP.instrAt
  generalize b.toNat = n at *
  split <;> first | contradiction | rfl

theorem rel_instrOf (hab : a ≤ b) (h : Rel n a b q p m (Is fun x => depthL x.body)) : Rel n (a + 1) b (GP.instrOf q) (Whasm.instrOf p) (Memory.instrOf m) (Is depthI) := by
  refine rel_then (rel_any good_byte) fun c => ?_
  have he := rel_exprOf hab h
  by_cases h2 : c.toNat = 2
  · rw [gp_02 h2, (Memory.instrAt_02 h2 m p).1, (Memory.instrAt_02 h2 m p).2]
    exact rel_then rel_retVal fun _ => rel_map (rel_nested (B := fun e i => depthL e + 1 = i) he fun _ _ _ h => congrArg (· + 1) h) fun _ _ _ hx => by simp only [Is, depthI]; omega
  by_cases h3 : c.toNat = 3
  · rw [gp_03 h3, (Memory.instrAt_03 h3 m p).1, (Memory.instrAt_03 h3 m p).2]
    exact rel_then rel_retVal fun _ => rel_map (rel_nested (B := fun e i => depthL e + 1 = i) he fun _ _ _ h => congrArg (· + 1) h) fun _ _ _ hx => by simp only [Is, depthI]; omega
  by_cases h4 : c.toNat = 4
  · rw [gp_04 h4, (Memory.instrAt_04 h4 m p).1, (Memory.instrAt_04 h4 m p).2]
    exact rel_nested (rel_ifOf hab h) fun _ _ _ h => h
  by_cases he : c.toNat = 14
  · rw [gp_0E he, (Memory.instrAt_0E he m p).1, (Memory.instrAt_0E he m p).2]
    exact rel_then (rel_vec' (rel_any good_idx)) fun _ => rel_map (rel_any good_idx) fun _ i _ hi => by have hi : i = 0 := hi; simp [Is, depthI, hi]
  · have := Memory.instrAt_other h2 h3 h4 he m (P.fail .fuel)
    rw [gp_other h2 h3 h4 he, this.1, (Memory.good_leaf h2 h3 h4 p).1]
    refine rel_lift (Memory.good_leaf h2 h3 h4 _).2 fun s x r e => ?_
    exact (instrAt_leaf h2 h3 h4 _).2 s x r e

theorem rel_sub : ∀ fuel acc, depthL acc ≤ b → fuel ≤ b → Rel n fuel b (GP.parseSubExpr fuel acc) (Whasm.parseSubExpr fuel >>= fun se => pure ⟨acc ++ se.body, se.next⟩)
    (Memory.parseSubExpr fuel acc.length >>= fun se => pure ⟨acc ++ se.body, se.next⟩) fun x i => depthL x.body = max (depthL acc) i
  | 0, acc, ha, _ => by
    show Rel n 0 b (GP.scope _ _) (P.fail .fuel) (Memory.M.fail .fuel) _
    exact rel_scope (rel_fail _) (visit_instrs (by omega))
  | fuel + 1, acc, ha, hf => by
    have hn : Rel n fuel b (GP.parseSubExpr fuel []) (Whasm.parseSubExpr fuel) (Memory.parseSubExpr fuel 0) (Is fun x => depthL x.body) := by
      have := rel_sub fuel [] (by simp [depthL]) (by omega)
      simp only [List.nil_append, List.length_nil] at this
      rw [Scope.bind_pure, M_pure] at this
      exact this.imp fun _ _ _ h => by simpa [depthL, Is] using h
    show Rel n _ b (GP.scope _ _ >>= _) ((Whasm.instrOf _ >>= fun next => subStep (Whasm.parseSubExpr fuel) next) >>= _)
      ((Memory.instrOf _ >>= fun next => Memory.subStep acc.length (Memory.parseSubExpr fuel (acc.length + 1)) next) >>= _) _
    rw [Scope.bind_assoc, M_assoc]
    refine rel_bind (rel_scope (rel_instrOf (by omega) hn) (visit_instrs (by omega))) fun i j hj hi => ?_
    have hi : depthI i = j := hi
    have hend : ∀ nx : Instr, ((pure ⟨[], nx⟩ : Memory.M SubExpr) >>= fun se => pure (⟨acc ++ se.body, se.next⟩ : SubExpr)) = pure ⟨acc, nx⟩ := by
      intro nx
      rw [M_pure_bind, List.append_nil]
    have hpush : Rel n (fuel + 1) b (GP.request .instr acc.length 1 >>= fun _ => GP.parseSubExpr fuel (acc ++ [i]))
        ((Whasm.parseSubExpr fuel >>= fun rest => pure (⟨i :: rest.body, rest.next⟩ : SubExpr)) >>= fun se => pure ⟨acc ++ se.body, se.next⟩)
        ((Memory.request .instr acc.length 1 >>= fun _ => Memory.parseSubExpr fuel (acc.length + 1) >>= fun rest => pure (⟨i :: rest.body, rest.next⟩ : SubExpr)) >>= fun se => pure ⟨acc ++ se.body, se.next⟩)
        fun x k => depthL x.body = max (depthL acc) (max j k) := by
      rw [M_assoc]
      refine rel_request ?_
      have hd : depthL (acc ++ [i]) = max (depthL acc) j := by
        rw [Scope.depth_append]; simp only [depthL, hi, Nat.max_zero]
      have := rel_sub fuel (acc ++ [i]) (by rw [hd]; omega) (by omega)
      rw [Scope.bind_assoc, M_assoc]
      have e : (fun se : SubExpr => (pure (⟨acc ++ [i] ++ se.body, se.next⟩ : SubExpr) : P SubExpr)) = fun se => pure (⟨i :: se.body, se.next⟩ : SubExpr) >>= fun se => pure (⟨acc ++ se.body, se.next⟩ : SubExpr) := by
        funext l; rw [List.append_assoc]; rfl
      have e' : (fun se : SubExpr => (pure (⟨acc ++ [i] ++ se.body, se.next⟩ : SubExpr) : Memory.M SubExpr)) = fun se => pure (⟨i :: se.body, se.next⟩ : SubExpr) >>= fun se => pure (⟨acc ++ se.body, se.next⟩ : SubExpr) := by
        funext l
        rw [M_pure_bind, List.append_assoc]
        rfl
      rw [e, e', List.length_append] at this
      exact this.mono (by omega) (Nat.le_refl _) fun _ _ _ h => by rw [h, hd]; omega
    cases i with
    | endMark =>
      show Rel _ _ _ (pure _) (pure (⟨acc ++ [], _⟩ : SubExpr)) ((pure (⟨[], .endMark⟩ : SubExpr) : Memory.M SubExpr) >>= _) _
      rw [List.append_nil, hend]
      exact rel_pure (by simp only [depthI] at hi; dsimp only; omega)
    | elseMark =>
      show Rel _ _ _ (pure _) (pure (⟨acc ++ [], _⟩ : SubExpr)) ((pure (⟨[], .elseMark⟩ : SubExpr) : Memory.M SubExpr) >>= _) _
      rw [List.append_nil, hend]
      exact rel_pure (by simp only [depthI] at hi; dsimp only; omega)
    | _ => exact hpush

theorem rel_expr : Rel n n n GP.parseExpr Whasm.parseExpr Memory.parseExpr (Is depthL) := by
  intro s hs
  have := rel_sub (n := n) (b := n) (s.length + 1) [] (by simp [depthL]) (by omega)
  simp only [List.nil_append, List.length_nil] at this
  rw [Scope.bind_pure, M_pure] at this
  exact (rel_exprOf (by omega) (this.imp fun _ _ _ h => by simpa [depthL, Is] using h)).mono (by omega) (Nat.le_refl _) (fun _ _ _ h => h) s hs

theorem rel_const : Rel n n n GP.parseExpr Whasm.parseConstExpr Memory.parseExpr (Is depthL) := constExpr_eq ▸ rel_expr

/-! ## Modules -/

/-- The levels of a module. -/
def depthM (m : Module) : Nat :=
  max (most (fun f => depthL f.body) m.funcs) (max (most (fun g => depthL g.init) m.globals) (max (most (fun e => depthL e.offset) m.elem) (most (fun d => depthL d.offset) m.data)))

theorem depthM_le {m : Module} {k : Nat} : depthM m ≤ k ↔ NestsAtMost k m := by
  unfold depthM
  simp only [Nat.max_le, most_le]
  exact ⟨fun ⟨h1, h2, h3, h4⟩ => ⟨h1, h2, h3, h4⟩, fun h => ⟨h.funcs, h.globals, h.elem, h.data⟩⟩

theorem rel_func : Rel n n n GP.parseFunc Whasm.parseFunc Memory.parseFunc (Is fun f => depthL f.body) :=
  rel_then (rel_then (rel_any good_u32) fun c => rel_runs (rel_any good_val) c.toNat 0) fun _ => rel_map rel_expr fun _ _ _ h => h

theorem rel_global : Rel n n n GP.parseGlobal Whasm.parseGlobal Memory.parseGlobal (Is fun g => depthL g.init) :=
  rel_then (rel_any good_globalTy) fun _ => rel_map rel_const fun _ _ _ h => h

theorem rel_elem : Rel n n n GP.parseElem Whasm.parseElem Memory.parseElem (Is fun e => depthL e.offset) :=
  rel_then (rel_any good_idx) fun _ => rel_bind rel_const fun x i hi (h : depthL x = i) => rel_map (rel_scope (rel_vec' (rel_any good_idx)) (visit_instrs (by omega))) fun _ j _ (hj : j = 0) => by
    rw [hj, Nat.max_zero]; exact h

theorem rel_data : Rel n n n GP.parseData Whasm.parseData Memory.parseData (Is fun e => depthL e.offset) :=
  rel_then (rel_any good_idx) fun _ => rel_bind rel_const fun x i hi (h : depthL x = i) => rel_map (rel_scope rel_bytes (visit_instrs (by omega))) fun _ j _ (hj : j = 0) => by
    rw [hj, Nat.max_zero]; exact h

theorem rel_import : Rel n a b GP.parseImport Whasm.parseImport Memory.parseImport Flat :=
  rel_then rel_string fun _ => rel_then rel_string fun _ => rel_map (rel_any good_importDesc) fun _ _ _ h => h

theorem rel_export : Rel n a b GP.parseExport Whasm.parseExport Memory.parseExport Flat :=
  rel_then rel_string fun _ => rel_map (rel_any good_exportDesc) fun _ _ _ h => h

theorem rel_consume : Rel n a b (GP.lift parseConsume) parseConsume (Memory.lift parseConsume) Flat := fun s _ =>
  ⟨[], .pure _, .nil, counts_none, fun x r hx => by cases hx; exact ⟨Nat.zero_le _, reaches_nil rfl⟩⟩

theorem rel_custom : Rel n a b GP.parseCustom Whasm.parseCustom Memory.parseCustom Flat :=
  rel_then rel_string fun _ => rel_map rel_consume fun _ _ _ h => h

theorem rel_plain {q : GP α} {p : P α} {m : Memory.M α} (h : Rel n a b q p m Flat) : Rel n a b (GP.parseSized (fun _ => []) q) (Whasm.parseSized p) (Memory.parseSized m) Flat :=
  rel_sized h fun _ _ _ _ => .nil

/-- The sections from the `k`-th on have not been read. -/
structure Fresh (k : Nat) (m : Module) : Prop where
  globals : k ≤ 6 → m.globals = []
  elem : k ≤ 9 → m.elem = []
  funcs : k ≤ 10 → m.funcs = []
  data : k ≤ 11 → m.data = []

theorem Fresh.mono {k l : Nat} {m : Module} (h : Fresh k m) (hl : k ≤ l) : Fresh l m :=
  ⟨fun i => h.globals (by omega), fun i => h.elem (by omega), fun i => h.funcs (by omega), fun i => h.data (by omega)⟩

theorem most_assigned {tys : List Idx} {fs gs : List Func} (h : tys.length = fs.length) (ha : assignTys tys tys.length fs = some gs) : most (fun f => depthL f.body) gs = most (fun f => depthL f.body) fs := by
  rw [assignTys_eq _ _ h] at ha
  cases ha
  induction tys generalizing fs with
  | nil =>
    cases fs with
    | nil => rfl
    | cons => cases h
  | cons t tys ih =>
    cases fs with
    | nil => cases h
    | cons f fs => simp only [List.zipWith_cons_cons, most, ih (Nat.succ.inj h)]

/-- What a section does to the levels. -/
def Adds (st : LoopState) (k : Nat) (st' : LoopState) (i : Nat) : Prop := depthM st'.result = max (depthM st.result) i ∧ st'.lastId = st.lastId ∧ Fresh k st'.result

theorem rel_section (id : Byte) {st : LoopState} {k : Nat} (hf : Fresh k st.result) (hk : id.toNat = 0 ∨ k = id.toNat) :
    Rel n n n (GP.parseSection id st) (Whasm.parseSection id st) (Memory.parseSection id st) (Adds st (if id.toNat = 0 then k else k + 1)) := by
  have hsame : ∀ i, i = 0 → depthM st.result = max (depthM st.result) i := fun i hi => by rw [hi, Nat.max_zero]
  have hfr := hf.mono (Nat.le_succ k)
  unfold GP.parseSection Whasm.parseSection Memory.parseSection
  generalize id.toNat = c at hk ⊢
  split
  · exact rel_map (rel_plain rel_custom) fun _ i _ h => ⟨hsame i h, rfl, hf⟩
  · exact rel_map (rel_plain (rel_vec' rel_funcTy)) fun _ i _ h => ⟨hsame i h, rfl, hfr.globals, hfr.elem, hfr.funcs, hfr.data⟩
  · exact rel_map (rel_plain (rel_vec' rel_import)) fun _ i _ h => ⟨hsame i h, rfl, hfr.globals, hfr.elem, hfr.funcs, hfr.data⟩
  · exact rel_map (rel_plain (rel_vec' (rel_any good_idx))) fun _ i _ h => ⟨hsame i h, rfl, hfr.globals, hfr.elem, hfr.funcs, hfr.data⟩
  · exact rel_map (rel_plain (rel_vec' (rel_any good_table))) fun _ i _ h => ⟨hsame i h, rfl, hfr.globals, hfr.elem, hfr.funcs, hfr.data⟩
  · exact rel_map (rel_plain (rel_vec' (rel_any good_mem))) fun _ i _ h => ⟨hsame i h, rfl, hfr.globals, hfr.elem, hfr.funcs, hfr.data⟩
  · have hk : k = 6 := by omega
    have hg := hf.globals (by omega)
    have ho : ∀ l : List Global, most (fun g => depthL g.init) l ≤ n → Visit .drop n (l.flatMap fun g => visitInstrs .drop g.init) := fun l hl => visit_flatMap fun x hx => visit_instrs (most_le.mp hl x hx)
    refine rel_map (rel_sized (rel_vec rel_global (Nat.le_refl _) ho) fun x i hi (hx : most _ x = i) => ho x (by omega)) fun x i _ (hx : most _ x = i) => ⟨?_, rfl, ?_, hfr.elem, hfr.funcs, hfr.data⟩
    · unfold depthM; simp only [hg, hx, most]; omega
    · intro h; rw [if_neg (by decide), hk] at h; omega
  · exact rel_map (rel_plain (rel_vec' rel_export)) fun _ i _ h => ⟨hsame i h, rfl, hfr.globals, hfr.elem, hfr.funcs, hfr.data⟩
  · exact rel_map (rel_plain (rel_any good_start)) fun _ i _ h => ⟨hsame i h, rfl, hfr.globals, hfr.elem, hfr.funcs, hfr.data⟩
  · have hk : k = 9 := by omega
    have hg := hf.elem (by omega)
    have ho : ∀ l : List Elem, most (fun g => depthL g.offset) l ≤ n → Visit .drop n (l.flatMap fun g => visitInstrs .drop g.offset) := fun l hl => visit_flatMap fun x hx => visit_instrs (most_le.mp hl x hx)
    refine rel_map (rel_sized (rel_vec rel_elem (Nat.le_refl _) ho) fun x i hi (hx : most _ x = i) => ho x (by omega)) fun x i _ (hx : most _ x = i) => ⟨?_, rfl, hfr.globals, ?_, hfr.funcs, hfr.data⟩
    · unfold depthM; simp only [hg, hx, most]; omega
    · intro h; rw [if_neg (by decide), hk] at h; omega
  · have hk : k = 10 := by omega
    have hg := hf.funcs (by omega)
    have ho : ∀ l : List Func, most (fun g => depthL g.body) l ≤ n → Visit .drop n (l.flatMap fun g => visitInstrs .drop g.body) := fun l hl => visit_flatMap fun x hx => visit_instrs (most_le.mp hl x hx)
    refine rel_bind (rel_sized (rel_unwrapping (f := fun f : Func => f) (rel_sized rel_func fun x i hi (hx : depthL x.body = i) => visit_instrs (by omega)) (Nat.le_refl _) ho) fun x i hi (hx : most _ x = i) => ho x (by omega)) fun x i hi (hx : most _ x = i) => ?_
    unfold GP.withBodies
    dsimp only
    by_cases hl : x.length ≠ st.funcTypes.length
    · rw [if_pos hl, if_pos hl, if_pos hl]
      exact rel_scope (rel_fail _) (ho x (by omega))
    · rw [if_neg hl, if_neg hl, if_neg hl]
      cases ha : assignTys st.funcTypes st.funcTypes.length x with
      | none => exact rel_fail _
      | some gs =>
        refine rel_pure ⟨?_, rfl, hfr.globals, hfr.elem, ?_, hfr.data⟩
        · have := most_assigned (Decidable.not_not.mp hl).symm ha
          unfold depthM; simp only [hg, most, this, hx]; omega
        · intro h; rw [if_neg (by decide), hk] at h; omega
  · have hk : k = 11 := by omega
    have hg := hf.data (by omega)
    have ho : ∀ l : List Data, most (fun g => depthL g.offset) l ≤ n → Visit .drop n (l.flatMap fun g => visitInstrs .drop g.offset) := fun l hl => visit_flatMap fun x hx => visit_instrs (most_le.mp hl x hx)
    refine rel_map (rel_sized (rel_vec rel_data (Nat.le_refl _) ho) fun x i hi (hx : most _ x = i) => ho x (by omega)) fun x i _ (hx : most _ x = i) => ⟨?_, rfl, hfr.globals, hfr.elem, hfr.funcs, ?_⟩
    · unfold depthM; simp only [hg, hx, most]; omega
    · intro h; rw [if_neg (by decide), hk] at h; omega
  · split
    all_goals first | exact absurd rfl ‹_› | skip
    split
    all_goals first | exact absurd rfl ‹_› | exact rel_fail _

theorem rel_iteration {st : LoopState} (hn : depthM st.result ≤ n) (hf : Fresh (st.lastId.toNat + 1) st.result) :
    Rel n n n (GP.parseIteration st) (Whasm.parseIteration st) (Memory.parseIteration st) fun st' i => depthM st'.result = max (depthM st.result) i ∧ Fresh (st'.lastId.toNat + 1) st'.result := by
  refine rel_scope (rel_then (rel_any good_byte) fun id => ?_) (visit_module (depthM_le.mp hn))
  by_cases h0 : id ≠ 0x00
  · have hz : id.toNat ≠ 0 := fun h => h0 (UInt8.toNat_inj.mp h)
    rw [if_pos h0, if_pos h0, if_pos h0]
    by_cases h1 : id ≤ st.lastId
    · rw [if_pos h1, if_pos h1, if_pos h1]
      exact rel_fail _
    · rw [if_neg h1, if_neg h1, if_neg h1]
      have hlt : st.lastId.toNat + 1 ≤ id.toNat := by
        have h1 : ¬ id.toNat ≤ st.lastId.toNat := fun h => h1 (UInt8.le_iff_toNat_le.mpr h)
        omega
      refine (rel_section id (st := { st with lastId := id }) (hf.mono hlt) (.inr rfl)).imp fun st' i _ h => ⟨h.1, ?_⟩
      have := h.2.2
      rw [if_neg hz] at this
      rw [h.2.1]
      exact this
  · rw [if_neg h0, if_neg h0, if_neg h0]
    have hz : id.toNat = 0 := by rw [Decidable.not_not.mp h0]; rfl
    refine (rel_section id hf (.inl hz)).imp fun st' i _ h => ⟨h.1, ?_⟩
    have := h.2.2
    rw [if_pos hz] at this
    rw [h.2.1]
    exact this

theorem rel_loop : ∀ (fuel : Nat) (st : LoopState), depthM st.result ≤ n → Fresh (st.lastId.toNat + 1) st.result →
    Rel n n n (GP.sectionLoop fuel st) (Whasm.sectionLoop fuel st) (Memory.sectionLoop fuel st) fun m i => depthM m = max (depthM st.result) i
  | 0, st, hn, _ => rel_scope (rel_fail _) (visit_module (depthM_le.mp hn))
  | fuel + 1, st, hn, hf => by
    intro s hs
    cases s with
    | nil => exact rel_pure (A := fun m i => depthM m = max (depthM st.result) i) (Nat.max_zero _).symm [] hs
    | cons b s =>
      exact rel_bind (rel_iteration hn hf) (fun st' i hi h => (rel_loop fuel st' (by omega) h.2).imp fun m j _ hj => by rw [hj, h.1]; omega) (b :: s) hs

theorem rel_module : Rel n n n GP.parseModule Whasm.parseModule Memory.parseModule (Is depthM) := by
  refine rel_then (rel_any (good_parseN good_byte 4)) fun magic => ?_
  by_cases h : magic.map (fun b => b.toNat) ≠ magicChars.map (fun c => c.toNat)
  · rw [if_pos h, if_pos h, if_pos h]
    exact rel_fail _
  · rw [if_neg h, if_neg h, if_neg h]
    refine rel_then (rel_any (good_parseN good_byte 4)) fun version => ?_
    by_cases h : version ≠ [1, 0, 0, 0]
    · rw [if_pos h, if_pos h, if_pos h]
      exact rel_fail _
    · rw [if_neg h, if_neg h, if_neg h]
      exact fun s hs => (rel_loop (s.length + 1) {} (Nat.zero_le _) ⟨fun _ => rfl, fun _ => rfl, fun _ => rfl, fun _ => rfl⟩).imp (fun m i _ h => h.trans (Nat.zero_max _)) s hs

end

end Whasm.Grant
