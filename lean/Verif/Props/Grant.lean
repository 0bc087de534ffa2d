import Verif.Lemmas.GrantMain
import Verif.Props.Process
import Verif.Props.Memory
import Verif.Props.Room
import Verif.Props.Parsing

/-!
# Property C99: whatever the machine grants or refuses, the tool gives the right answer or none

`Model/Grant.lean` is the tool with everything it asks of the machine and of the operating system. `Model/Process.lean` (C95) is the tool on a machine that grants everything.
-/

namespace Whasm
open Spec Process Grant

variable {std : StdText} {bits : Nat} {build : Build} {sys : System}

/-! ## From requests to the machine -/

theorem grantsAll_nil (ok : Machine) : GrantsAll ok [] := fun h a rest e => by cases h <;> cases e

theorem consult_all (ok : Machine) : ∀ (t h : List Ask), (∀ u a rest, t = u ++ a :: rest → ok (h ++ u) a = true) → consult ok h t = .ok (h ++ t)
  | [], h, _ => by rw [List.append_nil]; rfl
  | a :: t, h, hg => by
    have h0 : ok h a = true := by have := hg [] a t rfl; rwa [List.append_nil] at this
    rw [consult, if_pos h0, consult_all ok t (h ++ [a]) fun u x rest e => ?_]
    · rw [List.append_assoc]; rfl
    · have := hg (a :: u) x rest (by rw [e]; rfl)
      rwa [List.append_assoc]

theorem consult_stops (ok : Machine) : ∀ (u h : List Ask) (a : Ask) (rest : List Ask), consult ok h u = .ok (h ++ u) → ok (h ++ u) a = false → consult ok h (u ++ a :: rest) = .error (h ++ u)
  | u, h, a, rest, hu, ha => by
    rw [consult_append, hu]
    simp only [consult, ha]
    rfl

theorem consult_cases (ok : Machine) (t : List Ask) : (GrantsAll ok t ∧ consult ok [] t = .ok t) ∨ ∃ h, Refuses ok t h ∧ consult ok [] t = .error h := by
  have key : ∀ (n : Nat) (u rest : List Ask), rest.length = n → t = u ++ rest → GrantsAll ok u → (GrantsAll ok t ∧ consult ok [] t = .ok t) ∨ ∃ h, Refuses ok t h ∧ consult ok [] t = .error h := by
    intro n
    induction n with
    | zero =>
      intro u rest hr ht hu
      have : rest = [] := List.length_eq_zero_iff.mp hr
      subst this
      rw [List.append_nil] at ht
      subst ht
      exact .inl ⟨hu, consult_all ok t [] hu⟩
    | succ n ih =>
      intro u rest hr ht hu
      cases rest with
      | nil => cases hr
      | cons a rest =>
        cases ha : ok u a with
        | false =>
          refine .inr ⟨u, ⟨hu, a, rest, ht, ha⟩, ?_⟩
          rw [ht]
          exact consult_stops ok u [] a rest (consult_all ok u [] hu) ha
        | true =>
          refine ih (u ++ [a]) rest (by simpa using hr) (by rw [ht, List.append_assoc]; rfl) fun h b r e => ?_
          rcases List.eq_nil_or_concat r with rfl | ⟨r', b', rfl⟩
          · have e' := List.append_inj' (t₁ := [a]) (t₂ := [b]) e rfl
            cases e'.2
            rw [← e'.1]; exact ha
          · have e' : u ++ [a] = (h ++ b :: r') ++ [b'] := by rw [e]; simp
            exact hu h b r' (List.append_inj' e' rfl).1
  exact key t.length [] t rfl rfl (grantsAll_nil ok)

theorem refuses_not_grants {ok : Machine} {t h : List Ask} (hr : Refuses ok t h) (hg : GrantsAll ok t) : False := by
  obtain ⟨_, a, rest, rfl, ha⟩ := hr
  rw [hg h a rest rfl] at ha
  cases ha

/-! ## The two budgets -/

/-- There are levels for any input of this length, or for the module that it holds. -/
def Enough (b : Budget) (s : List Byte) : Prop := (∀ w, s.length + 1 ≤ b.levels w) ∨ ∃ m r, parseModule s = (.ok m, r) ∧ ∀ w, depthM m ≤ b.levels w

theorem light_parse {b : Budget} {s : List Byte} {t : List Ask} (ha : Asked (s.length + 1) (s.length + 1) t) (hl : Enough b s)
    (hx : ∀ m r, parseModule s = (.ok m, r) → Reaches t m (Is depthM)) (hr : Roomy (fun _ => b.parts) t) (hp : elementsAsked t ≤ b.parts) :
    (∀ c, Ask.system c ∉ t) ∧ Light b b.parts t := by
  refine ⟨fun c hc => ha.2 _ hc, ⟨ha.1.done, fun w => ?_⟩, hp, fun x hx => ?_⟩
  · have h1 := ha.1.most w
    rcases hl with hl | ⟨m, r, hm, hl⟩
    · have h2 := hl w
      cases w <;> simp only [dep] at h1 <;> omega
    · have h2 := hl w
      obtain ⟨h3, i, h4, h5⟩ := hx m r hm
      have h5 : depthM m = i := h5
      cases w <;> simp only [dep] at h1 <;> omega
  · have hf := ha.2 x hx
    cases x with
    | part k len more => exact hr k len more hx
    | call w => trivial
    | back w => trivial
    | _ => exact absurd hf id

theorem light_validate {b : Budget} {n : Nat} {t : List Ask} (ha : AskedV n t) (hb : Fits b.entries t) (hl : n ≤ b.levels .validate) : (∀ c, Ask.system c ∉ t) ∧ Light b 0 t := by
  refine ⟨fun c hc => ha.2 _ hc, ha.1.mono fun w => ?_, ?_, fun x hx => ?_⟩
  · unfold just
    split
    · next h => subst h; exact hl
    · omega
  · have : ∀ u : List Ask, (∀ x ∈ u, FromValidator x) → elementsAsked u = 0 := by
      intro u
      induction u with
      | nil => exact fun _ => rfl
      | cons a u ih =>
        intro h
        have h1 := h a List.mem_cons_self
        have h2 := ih fun x hx => h x (List.mem_cons_of_mem _ hx)
        cases a with
        | part => exact absurd h1 id
        | _ => exact h2
    rw [this t ha.2]
    exact Nat.le_refl _
  · have hf := ha.2 x hx
    have hb := hb x hx
    cases x with
    | entry | scratch => exact hb
    | call | back => trivial
    | _ => exact absurd hf id

theorem light_visit {b : Budget} {n : Nat} {m : Module} (h : NestsAtMost n m) {w : Work} (hl : n ≤ b.levels w) : Light b 0 (visitModule w m) ∧ ∀ c, Ask.system c ∉ visitModule w m := by
  have hv := visit_module (v := w) h
  refine ⟨⟨hv.1.mono fun v => ?_, by rw [hv.2.parts]; exact Nat.le_refl _, fun x hx => ?_⟩, fun c hc => ?_⟩
  · unfold just
    split
    · next h => subst h; exact hl
    · omega
  · rcases hv.2 x hx with rfl | rfl <;> trivial
  · rcases hv.2 _ hc with h | h <;> cases h

theorem depth_parsed {b : Budget} {s : List Byte} {m : Module} (h : (parseModule s).1 = .ok m) (hl : Enough b s) (w : Work) : depthM m ≤ b.levels w := by
  rcases hl with hl | ⟨m', r, hm, hl⟩
  · obtain ⟨t, _, h2, _, h4⟩ := rel_module (n := s.length + 1) s (Nat.lt_succ_self _)
    obtain ⟨_, _, i, h5, h6⟩ := h4 m (parseModule s).2 (Prod.ext h rfl)
    have h6 : depthM m = i := h6
    have h7 : peak .parse t ≤ ((s.length + 1 : Nat) : Int) := h2.1.most .parse
    have := hl w
    omega
  · rw [hm] at h
    cases h
    exact hl w

/-- From what is known of the memory for reading and for validation. -/
theorem suffices_of {b : Budget} {s : List Byte} (hl : Enough b s) (ho : (Memory.parseModule (fun _ => b.parts) s).out = parseModule s)
    (hs : (Memory.parseModule (fun _ => b.parts) s).slots ≤ b.parts) (hv : ∀ m, (parseModule s).1 = .ok m → Room.validateModule ⟨bits, build, fun _ => 0, b.entries⟩ m = validateModule m) :
    Suffices bits build b s := by
  constructor
  · obtain ⟨t, h1, h2, h3, hx⟩ := rel_module (n := s.length + 1) s (Nat.lt_succ_self _)
    have hx' := fun m r h => (hx m r h).2
    rcases h3 fun _ => b.parts with ⟨h4, _, h5⟩ | ⟨_, h⟩
    · obtain ⟨e1, e2⟩ := light_parse h2 hl hx' h4 (by omega)
      refine ⟨t, h1, e1, e2, fun m hm b' hb => ?_⟩
      have hm : parseModule s = (.ok m, (parseModule s).2) := Prod.ext hm rfl
      have f1 := (C82_slots_partial (ho.trans hm)).1
      have f2 := hb.elems
      have f3 := hb.most .parse
      obtain ⟨_, i, f4, f5⟩ := hx' m _ hm
      have f5 : depthM m = i := f5
      exact ⟨by omega, by omega⟩
    · rw [ho] at h
      exact absurd h (C15_module s).1
  · intro m hm
    obtain ⟨t, out, h1, h2, h3, h4⟩ := relV_module bits build (depthM_le.mp (depth_parsed hm hl .validate))
    have hv := hv m hm
    rcases h3 b.entries with ⟨h5, h6⟩ | ⟨_, h6⟩
    · have h6 : validateModule m = out := hv.symm.trans h6
      obtain ⟨e1, e2⟩ := light_validate h2 h5 (Nat.le_refl _)
      rw [← h6] at h1
      refine ⟨t, h1, e1, e2, fun v hv b' hb => ⟨?_, ?_⟩⟩
      · have hf : Fits b'.entries t := fun x hx => by
          have := hb.fits x hx
          cases x with
          | entry | scratch => exact this
          | _ => trivial
        rcases h3 b'.entries with ⟨_, h7⟩ | ⟨h7, _⟩
        · rw [h7, ← h6, hv]
        · exact absurd hf h7
      · have := h4 v (h6.symm.trans hv)
        have := hb.most .validate
        omega
    · have h6 : validateModule m = .error .panic := hv.symm.trans h6
      exact absurd h6 (validate_no_panic m)
  · intro m hm w _
    exact light_visit (depthM_le.mp (Nat.le_refl _)) (depth_parsed hm hl w)

theorem suffices_ample (hw : 32 < bits) {b : Budget} {n : Nat} (hb : Ample n b) {s : List Byte} (hl : s.length ≤ n) : Suffices bits build b s := by
  have h1 := hb.parts
  refine suffices_of (.inl fun w => by have := hb.levels w; omega) (C82_enough_partial fun _ => by omega) (Nat.le_trans (C82_worst_partial _ _) (by omega)) fun m hm => ?_
  exact C96_worst_partial (r := (parseModule s).2) (Prod.ext hm rfl) hw fun k => by
    have := hb.entries k
    show _ ≤ b.entries k
    omega

theorem suffices_covers (hw : 32 < bits) {b : Budget} {s : List Byte} {m : Module} (hp : parseModule s = (.ok m, [])) (hb : Covers s.length m b) : Suffices bits build b s := by
  have h0 := hb.parts
  have hloc : ∀ f ∈ m.funcs, f.locals.length ≤ b.parts := fun f hf => by
    have : f.locals.length ≤ localsOf m := by
      unfold localsOf
      generalize m.funcs = fs at hf
      induction fs with
      | nil => cases hf
      | cons g fs ih =>
        simp only [total]
        rcases List.mem_cons.mp hf with rfl | hf
        · omega
        · have := ih hf; omega
    omega
  have ho := (C82_locals_partial hp (room := fun _ => b.parts) fun _ => by omega).mpr hloc
  refine suffices_of (.inr ⟨m, [], hp, fun w => depthM_le.mpr (hb.levels w)⟩) (ho.trans hp.symm) ?_ fun m' hm => ?_
  · have := (C82_slots_partial ho).2
    omega
  · rw [hp] at hm
    cases hm
    refine (C96_bytes_partial hp (C := ⟨bits, build, fun _ => 0, b.entries⟩) (Nat.le_of_lt hw) hb.entries).2 ?_
    rintro (⟨_, _, _, before, f, after, hf, _, hs⟩ | ⟨h32, _⟩)
    · have := hb.locals f (by rw [hf]; simp)
      have : b.entries .locals < slots m.types f := hs
      omega
    · have : bits = 32 := h32
      omega

/-! ## What is read -/

theorem read_length (f : Nat → ReadEvent) : ∀ (fuel i : Nat) (buffer s : List Byte) (c c' : Console), readToEnd f fuel i buffer c = (.ok (.ok s), c') → s.length = buffer.length + given f fuel i
  | 0, _, _, _, _, _, h => by cases h
  | fuel + 1, i, buffer, s, c, c', h => by
    unfold readToEnd at h
    unfold given
    cases hf : f i with
    | bytes b =>
      rw [hf] at h
      cases b with
      | nil => cases h; rfl
      | cons x b =>
        have := read_length f fuel (i + 1) _ _ _ _ h
        rw [this, List.length_append]
        dsimp only
        omega
    | interrupted => rw [hf] at h; exact read_length f fuel (i + 1) _ _ _ _ h
    | failed m => rw [hf] at h; cases h

theorem given_holds {f : Nat → ReadEvent} {i : Nat} {s : List Byte} (h : HoldsFrom f i s) : ∀ fuel, given f fuel i ≤ s.length := by
  induction h with
  | done h => intro fuel; cases fuel <;> simp [given, h]
  | @piece i b rest h hne _ ih =>
    intro fuel
    cases fuel with
    | zero => simp [given]
    | succ fuel =>
      cases b with
      | nil => exact absurd rfl hne
      | cons x b =>
        have := ih fuel
        simp only [given, h, List.length_append]
        omega
  | again h _ ih =>
    intro fuel
    cases fuel with
    | zero => simp [given]
    | succ fuel => simp only [given, h]; exact ih fuel

theorem read_is {f : Nat → ReadEvent} {i : Nat} {b : List Byte} (h : HoldsFrom f i b) : ∀ {fuel : Nat} {buffer s : List Byte} {c c' : Console}, readToEnd f fuel i buffer c = (.ok (.ok s), c') → s = buffer ++ b := by
  induction h with
  | done h =>
    intro fuel buffer s c c' hr
    cases fuel with
    | zero => cases hr
    | succ fuel => simp only [readToEnd, h] at hr; cases hr; rw [List.append_nil]
  | @piece i b rest h hne _ ih =>
    intro fuel buffer s c c' hr
    cases fuel with
    | zero => cases hr
    | succ fuel =>
      cases b with
      | nil => exact absurd rfl hne
      | cons x b =>
        simp only [readToEnd, h] at hr
        rw [ih hr, List.append_assoc]
  | again h _ ih =>
    intro fuel buffer s c c' hr
    cases fuel with
    | zero => cases hr
    | succ fuel => simp only [readToEnd, h] at hr; exact ih hr

theorem named_config {argv : List (List Byte)} {args : List String} {c c' : Console} {config : Config} (h : collectArgs argv c = (.ok args, c')) (hc : configNew args = some config) :
    namedFile argv = some (utf8 config.filename.toList) := by
  by_cases hu : ∀ a ∈ argv, IsUtf8 a
  · obtain ⟨ss, rfl⟩ := exists_strings hu
    rw [collectArgs_ok] at h
    cases h
    cases args with
    | nil => cases hc
    | cons s ss =>
      rw [configNew_eq] at hc
      rw [namedFile_bytes]
      cases hn : (names ss).getLast? with
      | none => rw [hn] at hc; cases hc
      | some n =>
        rw [hn] at hc
        dsimp only [Option.getD_some] at hc
        split at hc
        · cases hc
        · cases hc; rfl
  · simp only [Classical.not_forall] at hu
    obtain ⟨a, ha, hn⟩ := hu
    rw [collectArgs_panic c ⟨a, ha, hn⟩] at h
    cases h

theorem flagged_config {argv : List (List Byte)} {args : List String} {c c' : Console} {config : Config} (h : collectArgs argv c = (.ok args, c')) (hc : configNew args = some config) (hp : flagged argv) :
    config.print = true := by
  by_cases hu : ∀ a ∈ argv, IsUtf8 a
  · obtain ⟨ss, rfl⟩ := exists_strings hu
    rw [collectArgs_ok] at h
    cases h
    cases args with
    | nil => cases hc
    | cons s ss =>
      rw [configNew_eq] at hc
      dsimp only at hc
      split at hc
      · cases hc
      · cases hc
        exact decide_eq_true <| (flagged_bytes s ss).mp hp
  · simp only [Classical.not_forall] at hu
    obtain ⟨a, ha, hn⟩ := hu
    rw [collectArgs_panic c ⟨a, ha, hn⟩] at h
    cases h

/-- The end of `main` is the only way to exit code 0. -/
def NoZero {α : Type} (p : Exec α) : Prop := ∀ c c', p c ≠ (.error (.exit 0), c')

theorem noZero_bind {α β : Type} {p : Exec α} {f : α → Exec β} (h : NoZero p) (hf : ∀ x, NoZero (f x)) : NoZero (p >>= f) := by
  intro c c' e
  change Exec.bind p f c = _ at e
  unfold Exec.bind at e
  rcases hp : p c with ⟨x | x, d⟩ <;> rw [hp] at e
  · cases e; exact h _ _ hp
  · exact hf x _ _ e

theorem noZero_exit {α : Type} (n : Nat) : NoZero (Process.exit (n + 1) : Exec α) := fun _ _ h => by cases h

theorem noZero_println (t : List Char) : NoZero (println sys t) := by
  intro c c' h
  simp only [println, Prod.mk.injEq] at h
  obtain ⟨h, _⟩ := h
  split at h <;> cases h

theorem noZero_report {α : Type} (a b : List Char) : NoZero (report sys a b : Exec α) := noZero_bind (noZero_println _) fun _ => noZero_bind (noZero_println _) fun _ => noZero_exit _

theorem noZero_read (f : Nat → ReadEvent) : ∀ (fuel i : Nat) (buffer : List Byte), NoZero (readToEnd f fuel i buffer)
  | 0, _, _ => fun _ _ h => by cases h
  | fuel + 1, i, buffer => by
    intro c c' h
    unfold readToEnd at h
    cases hf : f i with
    | bytes b =>
      rw [hf] at h
      cases b with
      | nil => cases h
      | cons x b => exact noZero_read f fuel _ _ _ _ h
    | interrupted => rw [hf] at h; exact noZero_read f fuel _ _ _ _ h
    | failed m => rw [hf] at h; cases h

theorem noZero_args : ∀ argv : List (List Byte), NoZero (collectArgs argv)
  | [] => fun _ _ h => by cases h
  | a :: as => by
    unfold collectArgs
    split
    · exact noZero_bind (noZero_args as) fun _ _ _ h => by cases h
    · exact noZero_exit _

theorem main_not_zero {fuel : Nat} {argv : List (List Byte)} : NoZero (Process.main std sys fuel argv) := by
  refine noZero_bind (noZero_args _) fun args => ?_
  cases configNew args with
  | none =>
    refine noZero_bind (noZero_println _) fun _ => ?_
    cases args with
    | nil => exact noZero_exit _
    | cons => exact noZero_bind (noZero_println _) fun _ => noZero_exit _
  | some config =>
    refine noZero_bind (fun _ _ h => by cases h) fun opened => ?_
    cases opened with
    | error => exact noZero_report _ _
    | ok f =>
      refine noZero_bind (noZero_read _ _ _ _) fun contents => ?_
      cases contents with
      | error => exact noZero_report _ _
      | ok s =>
        dsimp only
        cases (parseModule s).1 with
        | error => exact noZero_report _ _
        | ok m =>
          dsimp only
          cases validateModule m with
          | error => exact noZero_report _ _
          | ok =>
            dsimp only
            split
            · exact noZero_println _
            · exact fun _ _ h => by cases h

theorem provides_ample (hw : 32 < bits) {b : Budget} {n : Nat} (hb : Ample n b) {argv : List (List Byte)} {fuel : Nat}
    (hn : ∀ path f, namedFile argv = some path → sys.file path = .ok f → given f fuel 0 ≤ n) : Provides bits build b sys fuel argv := by
  refine ⟨fun args c c' config f ha hc hf => Nat.le_trans (hn _ _ (named_config ha hc) hf) hb.buffer, fun args c c' config f d d' s ha hc hf hr => ?_⟩
  have := read_length _ _ _ _ _ _ _ hr
  have := hn _ _ (named_config ha hc) hf
  exact suffices_ample hw hb (by simp only [List.length_nil] at *; omega)

theorem provides_covers (hw : 32 < bits) {b : Budget} {argv : List (List Byte)} {path s : List Byte} {f : Nat → ReadEvent} {m : Module} (hn : namedFile argv = some path) (hf : sys.file path = .ok f)
    (hs : Holds f s) (hp : parseModule s = (.ok m, [])) (hb : Covers s.length m b) (fuel : Nat) : Provides bits build b sys fuel argv := by
  have key : ∀ args c c' config f', collectArgs argv c = (.ok args, c') → configNew args = some config → sys.file (utf8 config.filename.toList) = .ok f' → f' = f := by
    intro args c c' config f' ha hc hf'
    have h1 := named_config ha hc
    rw [hn] at h1
    cases h1
    rw [hf] at hf'
    cases hf'
    rfl
  refine ⟨fun args c c' config f' ha hc hf' => ?_, fun args c c' config f' d d' s' ha hc hf' hr => ?_⟩
  · rw [key _ _ _ _ _ ha hc hf']
    exact Nat.le_trans (given_holds hs fuel) hb.buffer
  · rw [key _ _ _ _ _ ha hc hf'] at hr
    rw [read_is hs hr]
    exact suffices_covers hw hp hb

theorem process_does {b : Budget} {fuel : Nat} {argv : List (List Byte)} (h : Provides bits build b sys fuel argv) : ∃ t, Does (Grant.process std bits build sys fuel argv) t (Process.process std sys fuel argv) ∧
    (Process.process std sys fuel argv).2.calls = systemCalls t ∧ Light b b.parts t ∧
    ((Process.process std sys fuel argv).1 = .exit 0 → ∀ b', Weigh b' t → ∃ config s m, Reached bits build sys fuel argv b' config s m) := by
  obtain ⟨t, h1, h2, h3, h4⟩ := relE_main (std := std) h {}
  unfold Process.process
  rcases hm : Process.main std sys fuel argv {} with ⟨e | ⟨⟨⟩⟩, c⟩
  · rw [hm] at h1 h2
    refine ⟨t ++ [], h1.bind (.pure _), ?_, h3.append .nil, fun h0 => ?_⟩
    · rw [List.append_nil]
      exact h2
    · dsimp only at h0
      subst h0
      exact absurd hm (main_not_zero _ _)
  · rw [hm] at h1 h2
    refine ⟨t ++ [], h1.bind (.pure _), ?_, h3.append .nil, fun _ b' hb => h4 () c hm b' hb.left⟩
    rw [List.append_nil]
    exact h2

/-- The bytes that the named file gives. -/
theorem exists_bound (sys : System) (fuel : Nat) (argv : List (List Byte)) : ∃ n, ∀ path f, namedFile argv = some path → sys.file path = .ok f → given f fuel 0 ≤ n := by
  cases hn : namedFile argv with
  | none => exact ⟨0, fun _ _ h => by cases h⟩
  | some p =>
    cases hf : sys.file p with
    | error _ => exact ⟨0, fun path f h h' => by cases h; rw [hf] at h'; cases h'⟩
    | ok f => exact ⟨given f fuel 0, fun path f' h h' => by cases h; rw [hf] at h'; cases h'; exact Nat.le_refl _⟩

theorem exists_requests (std : StdText) (sys : System) (build : Build) (hw : 32 < bits) (fuel : Nat) (argv : List (List Byte)) : ∃ t, Does (Grant.process std bits build sys fuel argv) t (Process.process std sys fuel argv) ∧
    (Process.process std sys fuel argv).2.calls = systemCalls t ∧
    ((Process.process std sys fuel argv).1 = .exit 0 → ∀ b', Weigh b' t → ∃ config s m, Reached bits build sys fuel argv b' config s m) := by
  obtain ⟨n, hn⟩ := exists_bound sys fuel argv
  obtain ⟨t, h1, h2, _, h3⟩ := process_does (std := std) (build := build) (provides_ample (b := ⟨2 ^ 32 * (n + 2), fun _ => 2 ^ 32 * (n + 2) + n, n, fun _ => n + 1⟩) hw
    ⟨Nat.le_refl _, fun _ => Nat.le_refl _, Nat.le_refl _, fun _ => Nat.le_refl _⟩ hn)
  exact ⟨t, h1, h2, h3⟩

/-! ## Machines and files for examples -/

instance (b : Budget) (h : List Ask) (a : Ask) : Decidable (Within b h a) := by
  cases a <;> unfold Within <;> infer_instance

/-- The machine that grants exactly what is within a budget. -/
def withBudget (b : Budget) : Machine := fun h a => decide (Within b h a)

theorem affords_withBudget (b : Budget) : Affords (withBudget b) b := fun _ _ h => decide_eq_true h

/-- A function with a block in a block, 30 bytes. -/
def nestedFile : List Byte := preamble ++ [0x01, 0x04, 0x01, 0x60, 0x00, 0x00] ++ [0x03, 0x02, 0x01, 0x00] ++ [0x0A, 0x0A, 0x01, 0x08, 0x00, 0x02, 0x40, 0x02, 0x40, 0x0B, 0x0B, 0x0B]

/-- The files of C95, and `nestedFile` in two pieces. -/
def moreFiles (path : List Byte) : Except (List Char) (Nat → ReadEvent) :=
  if path = utf8 "c".toList then .ok fun i => [.bytes (nestedFile.take 10), .bytes (nestedFile.drop 10)].getD i (.bytes [])
  else exampleFiles path

/-- A budget of the same number for everything, except for the levels. -/
def evenBudget (n l : Nat) : Budget := ⟨n, fun _ => n, n, fun _ => l⟩

def endOn (b : Budget) (args : List String) : Except (List Byte) (Stop × List Byte) :=
  match Grant.process plainStd 64 .release ⟨moreFiles, 10000⟩ 9 (argBytes args) (withBudget b) [] with
  | .ok ((stop, c), _) => .ok (stop, c.out)
  | .error h => .error (written h)

/-- The module of `nestedFile`. -/
def nestedModule : Module := { types := [⟨[], []⟩], funcs := [⟨0, [], [.block [] [.block [] []]]⟩] }

/-! ## The property -/

/-- **C99, what is asked for.** For an operating system and arguments there is one list of requests, whatever the machine. If the machine grants them all, the outcome is that of C95. If not, the
process ends at the first that is refused. -/
theorem C99_requests (std : StdText) (sys : System) (build : Build) (hw : 32 < bits) (fuel : Nat) (argv : List (List Byte)) : ∃ t : List Ask, systemCalls t = (Process.process std sys fuel argv).2.calls ∧
    ∀ ok : Machine, (GrantsAll ok t ↔ Grant.process std bits build sys fuel argv ok [] = .ok (Process.process std sys fuel argv, t)) ∧
      ∀ h, Refuses ok t h ↔ Grant.process std bits build sys fuel argv ok [] = .error h := by
  obtain ⟨t, h1, h2, _⟩ := exists_requests std sys build hw fuel argv
  refine ⟨t, h2.symm, fun ok => ?_⟩
  have hd := h1 ok []
  rcases consult_cases ok t with ⟨hg, hc⟩ | ⟨u, hr, hc⟩
  · rw [hd, hc]
    exact ⟨⟨fun _ => rfl, fun _ => hg⟩, fun h => ⟨fun h => (refuses_not_grants h hg).elim, fun h => by cases h⟩⟩
  · rw [hd, hc]
    refine ⟨⟨fun h => (refuses_not_grants hr h).elim, fun h => by cases h⟩, fun h => ⟨fun h' => ?_, fun h' => by cases h'; exact hr⟩⟩
    rcases consult_cases ok t with ⟨hg, _⟩ | _
    · exact (refuses_not_grants hr hg).elim
    · congr 1
      obtain ⟨g1, a, r, e1, f1⟩ := hr
      obtain ⟨g2, b, r', e2, f2⟩ := h'
      rw [e1] at e2
      rcases List.append_eq_append_iff.mp e2 with ⟨x, rfl, hx⟩ | ⟨x, rfl, hx⟩
      · cases x with
        | nil => rw [List.append_nil]
        | cons y x =>
          cases hx
          rw [g2 u a x rfl] at f1; cases f1
      · cases x with
        | nil => rw [List.append_nil]
        | cons y x =>
          cases hx
          rw [g1 h b x rfl] at f2; cases f2

/-- All requests for `nestedFile`. -/
example : Grant.process plainStd 64 .release ⟨moreFiles, 0⟩ 9 (argBytes ["whasm", "c"]) (fun _ _ => true) [] = .ok ((.exit 0, ⟨[], [.openFile [0x63], .read, .read, .read]⟩),
    [.step, .system (.openFile [0x63]), .system .read, .buffer 0 10, .system .read, .buffer 10 20, .system .read,
      .part .functype 0 1, .part .val 0 0, .part .val 0 0, .part .idx 0 1, .part .func 0 1, .part .val 0 0, .call .parse, .part .val 0 0, .call .parse, .back .parse, .part .instr 0 1, .back .parse, .part .instr 0 1,
      .entry .types 0 1, .entry .funcs 0 1, .entry .locals 0 0, .entry .frames 0 1, .entry .frames 1 1, .call .validate, .entry .frames 2 1, .call .validate, .back .validate, .back .validate,
      .entry .externals 0 0, .entry .externals 0 0, .entry .names 0 0, .scratch 0, .call .drop, .call .drop, .back .drop, .back .drop]) := by decide +kernel

/-- **C99, right or none.** On any machine, with any operating system and arguments: the process has ended before its time, and has only done what it would have done anyway; or its outcome is that on a machine that
grants everything. -/
theorem C99_right (std : StdText) (sys : System) (build : Build) (hw : 32 < bits) (fuel : Nat) (argv : List (List Byte)) (ok : Machine) :
    (∃ h, Grant.process std bits build sys fuel argv ok [] = .error h ∧ systemCalls h <+: (Process.process std sys fuel argv).2.calls) ∨
    ∃ h, Grant.process std bits build sys fuel argv ok [] = .ok (Process.process std sys fuel argv, h) ∧ systemCalls h = (Process.process std sys fuel argv).2.calls := by
  obtain ⟨t, ht, h⟩ := C99_requests std sys build hw fuel argv
  rcases consult_cases ok t with ⟨hg, _⟩ | ⟨u, hr, _⟩
  · exact .inr ⟨t, (h ok).1.mp hg, ht⟩
  · refine .inl ⟨u, ((h ok).2 u).mp hr, ?_⟩
    obtain ⟨_, a, rest, rfl, _⟩ := hr
    rw [← ht, systemCalls_append]
    exact List.prefix_append ..

/-- Two levels are needed, and room for the 30 bytes. -/
example : endOn (evenBudget 30 2) ["whasm", "c"] = .ok (.exit 0, []) ∧ endOn (evenBudget 30 1) ["whasm", "c"] = .error [] ∧ endOn (evenBudget 29 2) ["whasm", "c"] = .error [] ∧
    endOn (evenBudget 0 0) ["whasm", "d"] = .ok (.exit 1, utf8 "Could not open file \"d\"\nNo such file or directory (os error 2)\n".toList) := by decide +kernel

/-- **C99, exit code 0.** On whatever machine the process ends with exit code 0: all arguments are Unicode, the named file holds a module that the crate accepts, and what was to be printed was written. -/
theorem C99_zero (hw : 32 < bits) {fuel : Nat} {argv : List (List Byte)} {ok : Machine} {c : Console} {h : List Ask} (h0 : Grant.process std bits build sys fuel argv ok [] = .ok ((.exit 0, c), h)) :
    (∀ a ∈ argv, IsUtf8 a) ∧ ∃ path f b m, namedFile argv = some path ∧ path ≠ [] ∧ sys.file path = .ok f ∧ Holds f b ∧ GModule .code b m ∧ Valid .code m ∧
      (flagged argv → (utf8 (dbgModule std m ++ ['\n'])).length ≤ sys.room) := by
  rcases C99_right std sys build hw fuel argv ok with ⟨_, h1, _⟩ | ⟨_, h1, _⟩ <;> rw [h0] at h1
  · cases h1
  · have h2 : (Process.process std sys fuel argv).1 = .exit 0 := by
      simp only [Except.ok.injEq, Prod.mk.injEq] at h1
      rw [← h1.1]
    exact (C95_zero argv).mp ⟨fuel, h2⟩

/-- The module is valid, everything is printed, but there is no exit code: the stack is too small to drop the module. -/
example : (match endOn ⟨30, fun _ => 30, 30, fun w => if w = .drop then 1 else 2⟩ ["whasm", "-p", "c"] with | .error b => b.length | .ok _ => 0) = 1019 ∧
    (match endOn (evenBudget 30 2) ["whasm", "-p", "c"] with | .error _ => 0 | .ok (stop, b) => if stop = .exit 0 then b.length else 0) = 1019 := by decide +kernel

/-- **C99, exit code 1**: on no machine for a file with a module that is accepted. -/
theorem C99_one (hw : 32 < bits) {fuel : Nat} {argv : List (List Byte)} {ok : Machine} {c : Console} {h : List Ask} (h1 : Grant.process std bits build sys fuel argv ok [] = .ok ((.exit 1, c), h))
    {path : List Byte} (hn : namedFile argv = some path) (hne : path ≠ []) {f : Nat → ReadEvent} (hf : sys.file path = .ok f) {b : List Byte} (hb : Holds f b) {m : Module} (hm : GModule .code b m) :
    ¬ Valid .code m := by
  rcases C99_right std sys build hw fuel argv ok with ⟨_, h2, _⟩ | ⟨_, h2, _⟩ <;> rw [h1] at h2
  · cases h2
  · refine C95_one (std := std) (fuel := fuel) (sys := sys) ?_ hn hne hf hb hm
    simp only [Except.ok.injEq, Prod.mk.injEq] at h2
    rw [← h2.1]

example : endOn (evenBudget 4 0) ["whasm", "b"] = .ok (.exit 1, utf8 "Error parsing file \"b\".\nInvalid magic number in preamble.\n".toList) ∧ endOn (evenBudget 3 0) ["whasm", "b"] = .error [] := by
  decide +kernel

/-- **C99, what is written.** If the process ends before its time, what was written is a beginning of what would have been written. -/
theorem C99_written (hw : 32 < bits) {fuel : Nat} {argv : List (List Byte)} {ok : Machine} {h : List Ask} (he : Grant.process std bits build sys fuel argv ok [] = .error h) :
    written h <+: (Process.process std sys fuel argv).2.out := by
  rcases C99_right std sys build hw fuel argv ok with ⟨_, h1, h2⟩ | ⟨_, h1, _⟩ <;> rw [he] at h1
  case inr => cases h1
  cases h1
  obtain ⟨pre, ws, h3, h4, h5, _⟩ := C95_calls (std := std) (sys := sys) argv fuel
  rw [h3] at h2
  obtain ⟨r, hr⟩ := h2
  have e1 : (pre ++ ws.map Call.write).flatMap bytesWritten = ws.flatten := by
    have hpre : pre.flatMap bytesWritten = [] := by
      refine List.flatMap_eq_nil_iff.mpr fun c hc => ?_
      rcases h5 c hc with rfl | ⟨_, rfl, _⟩ <;> rfl
    rw [List.flatMap_append, hpre, List.nil_append]
    clear h3 h4 hr
    induction ws with
    | nil => rfl
    | cons w ws ih => rw [List.map_cons, List.flatMap_cons, ih]; rfl
  refine ⟨r.flatMap bytesWritten, ?_⟩
  unfold written
  rw [← List.flatMap_append, hr, e1, h4]

/-- The process is killed after the first line. -/
example : (match Grant.process plainStd 64 .release ⟨moreFiles, 10000⟩ 9 (argBytes ["whasm", "b"]) (fun h _ => decide (written h = [])) [] with | .error h => written h | .ok _ => []) =
    utf8 "Error parsing file \"b\".\n".toList := by decide +kernel

/-- **C99, enough.** A machine that can afford the amounts for files of `n` bytes gives the outcome of C95, if the named file has at most `n` bytes, whatever they are. -/
theorem C99_enough (hw : 32 < bits) {fuel n : Nat} {argv : List (List Byte)} {ok : Machine} {b : Budget} (hb : Ample n b) (hok : Affords ok b)
    (hn : ∀ path f, namedFile argv = some path → sys.file path = .ok f → given f fuel 0 ≤ n) :
    ∃ h, Grant.process std bits build sys fuel argv ok [] = .ok (Process.process std sys fuel argv, h) := by
  obtain ⟨t, h1, _, h3, _⟩ := process_does (std := std) (build := build) (provides_ample hw hb hn)
  refine ⟨t, ?_⟩
  rw [h1 ok [], consult_all ok t [] (h3.granted hok)]
  rfl

/-- Any file of at most a million bytes. -/
example {argv : List (List Byte)} {f : Nat → ReadEvent} {s : List Byte} (hf : sys.file = fun _ => .ok f) (hs : Holds f s) (hl : s.length ≤ 1000000) (fuel : Nat) :
    ∃ h, Grant.process std 64 build sys fuel argv (withBudget (evenBudget (2 ^ 52) 1000001)) [] = .ok (Process.process std sys fuel argv, h) :=
  C99_enough (n := 1000000) (by omega) ⟨by simp [evenBudget], fun _ => by simp [evenBudget], by simp [evenBudget], fun _ => by simp [evenBudget]⟩ (affords_withBudget _) fun _ f' _ h => by
    rw [hf] at h
    cases h
    exact Nat.le_trans (given_holds hs fuel) hl

/-- **C99, enough for a module.** For a file that holds a module there are sharper amounts: those for its bytes, its local variables and its nested blocks. -/
theorem C99_module (hw : 32 < bits) {argv : List (List Byte)} {ok : Machine} {b : Budget} {path s : List Byte} {f : Nat → ReadEvent} {m : Module} (hn : namedFile argv = some path) (hf : sys.file path = .ok f)
    (hs : Holds f s) (hm : GModule .code s m) (hb : Covers s.length m b) (hok : Affords ok b) (fuel : Nat) :
    ∃ h, Grant.process std bits build sys fuel argv ok [] = .ok (Process.process std sys fuel argv, h) := by
  obtain ⟨t, h1, _, h3, _⟩ := process_does (std := std) (build := build) (provides_covers hw hn hf hs ((C23_module _ _ _).mpr ⟨rfl, hm⟩) hb fuel)
  refine ⟨t, ?_⟩
  rw [h1 ok [], consult_all ok t [] (h3.granted hok)]
  rfl

theorem moreFiles_holds : ∃ f, moreFiles (utf8 "c".toList) = .ok f ∧ Holds f nestedFile :=
  ⟨_, rfl, .piece (b := nestedFile.take 10) (rest := nestedFile.drop 10) rfl (by decide +kernel) (.piece (b := nestedFile.drop 10) (rest := []) rfl (by decide +kernel) (.done rfl))⟩

/-- The budget by the theorem, for `nestedFile`. -/
example (hw : 32 < bits) (ok : Machine) (hok : Affords ok (evenBudget 30 2)) : ∃ h, Grant.process plainStd bits build ⟨moreFiles, 0⟩ 4 (argBytes ["whasm", "c"]) ok [] =
    .ok ((.exit 0, ⟨[], [.openFile [0x63], .read, .read, .read]⟩), h) := by
  obtain ⟨f, hf, hs⟩ := moreFiles_holds
  have hl : nestedFile.length ≤ 30 := by decide +kernel
  have hp : parseModule nestedFile = (.ok nestedModule, []) := by decide +kernel
  have hm : GModule .code nestedFile nestedModule := ((C23_module _ _ _).mp hp).2
  obtain ⟨h, e⟩ := C99_module (std := plainStd) (build := build) (sys := ⟨moreFiles, 0⟩) hw (argv := argBytes ["whasm", "c"]) (path := utf8 "c".toList) (by decide +kernel) hf hs hm
    ⟨by decide +kernel, fun _ _ => hl, by decide +kernel, by decide +kernel, fun _ => ⟨by show ∀ f ∈ nestedModule.funcs, depthL f.body ≤ 2; decide +kernel, (fun _ h => by cases h), (fun _ h => by cases h), (fun _ h => by cases h)⟩⟩ hok 4
  have hq : Process.process plainStd ⟨moreFiles, 0⟩ 4 (argBytes ["whasm", "c"]) = (.exit 0, ⟨[], [.openFile [0x63], .read, .read, .read]⟩) := by decide +kernel
  rw [hq] at e
  exact ⟨h, e⟩

/-- **C99, needed.** On the other hand, where the tool ends with exit code 0 the machine has granted room for the elements of the module and of its index spaces, for the bytes of the file, and a level for each block that
is inside of another, to read the module, to validate it, to print it if that was asked for, and to drop it. -/
theorem C99_needed (hw : 32 < bits) {fuel : Nat} {argv : List (List Byte)} {ok : Machine} {b : Budget} {c : Console} {h : List Ask} (h0 : Grant.process std bits build sys fuel argv ok [] = .ok ((.exit 0, c), h))
    (hb : StaysIn ok b) {path s : List Byte} {f : Nat → ReadEvent} {m : Module} (hn : namedFile argv = some path) (hf : sys.file path = .ok f) (hs : Holds f s) (hm : GModule .code s m) :
    Requires s.length m (flagged argv) b := by
  obtain ⟨t, h1, _, h3⟩ := exists_requests std sys build hw fuel argv
  have h4 := h1 ok []
  rcases consult_cases ok t with ⟨hg, hc⟩ | ⟨u, _, hc⟩ <;> rw [h0, hc] at h4
  case inr => cases h4
  simp only [Except.ok.injEq, Prod.mk.injEq] at h4
  obtain ⟨config, s', m', ⟨args, d, d', ha, hcf⟩, ⟨f', e, e', hf', hr⟩, hp, r1, r2, ⟨v, r3⟩, r4⟩ := h3 (by rw [← h4.1]) b (weigh_of_within fun h' a rest e => hb h' a (hg h' a rest e))
  have hname := named_config ha hcf
  rw [hn] at hname
  cases hname
  rw [hf] at hf'
  cases hf'
  have hs' := read_is hs hr
  rw [List.nil_append] at hs'
  subst hs'
  have hpm := (C23_module _ _ _).mpr ⟨rfl, hm⟩
  rw [hpm] at hp
  cases hp
  obtain ⟨⟨l1, l2, l3, l4, l5⟩, l6, l7, l8, l9⟩ := C96_lower_partial (parsed_noMarks hpm) r3
  exact ⟨r2, l1, l2, l3, l4, l5, fun f hf => (l6 f hf).1, fun f hf => (l6 f hf).2, l7, l8, l9, r1, fun w hw => depthM_le.mp (r4 w (hw.imp id fun hp => flagged_config ha hcf hp))⟩

theorem staysIn_withBudget (b : Budget) : StaysIn (withBudget b) b := fun _ _ h => of_decide_eq_true h

/-- What `nestedFile` needs, with one element for the function section. With one less of anything there is no exit code. -/
def nestedNeeds : Budget := ⟨5, fun | .types => 1 | .funcs => 1 | .frames => 3 | _ => 0, 30, fun w => if w = .print then 0 else 2⟩

example : endOn nestedNeeds ["whasm", "c"] = .ok (.exit 0, []) ∧ endOn { nestedNeeds with parts := 4 } ["whasm", "c"] = .error [] ∧ endOn { nestedNeeds with buffer := 29 } ["whasm", "c"] = .error [] ∧
    (∀ w ∈ [Work.parse, .validate, .drop], endOn { nestedNeeds with levels := fun v => if v = w then 1 else 2 } ["whasm", "c"] = .error []) ∧
    (∀ k ∈ [Entry.types, .funcs, .frames], endOn { nestedNeeds with entries := fun j => if j = k then nestedNeeds.entries k - 1 else nestedNeeds.entries j } ["whasm", "c"] = .error []) := by decide +kernel

/-- No machine with one level to drop modules, say, accepts the file, however long it may take. -/
example (hw : 32 < bits) (ok : Machine) (hok : StaysIn ok { nestedNeeds with levels := fun w => if w = .drop then 1 else 1000 }) (fuel : Nat) (c : Console) (h : List Ask) :
    Grant.process plainStd bits build ⟨moreFiles, 0⟩ fuel (argBytes ["whasm", "c"]) ok [] ≠ .ok ((.exit 0, c), h) := by
  intro h0
  obtain ⟨f, hf, hs⟩ := moreFiles_holds
  have hp : parseModule nestedFile = (.ok nestedModule, []) := by decide +kernel
  have := (C99_needed hw h0 hok (path := utf8 "c".toList) (by decide +kernel) hf hs ((C23_module _ _ _).mp hp).2).levels .drop (.inl (by decide))
  exact absurd (this.funcs _ List.mem_cons_self) (by decide +kernel)

end Whasm
