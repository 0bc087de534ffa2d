import Verif.Lemmas.GrantParse
import Verif.Lemmas.GrantValid
import Verif.Lemmas.Process

/-!
# The tool on a machine that may refuse anything
-/

namespace Whasm.Grant
open Spec Process

/-- A request that is within the budget if it comes first, and if the native stack is left alone. -/
def Local (b : Budget) : Ask → Prop
  | .part _ len more => len + more ≤ b.parts
  | .entry k len more => len + more ≤ b.entries k
  | .scratch n => n ≤ b.entries .names
  | .buffer len more => len + more ≤ b.buffer
  | _ => True

/-- Requests that are within a budget, with at most `k` elements for the parser. -/
structure Light (b : Budget) (k : Nat) (t : List Ask) : Prop where
  tidy : Tidy b.levels t
  elems : elementsAsked t ≤ k
  fits : ∀ x ∈ t, Local b x

theorem Light.append {b : Budget} {k l : Nat} {t u : List Ask} (ht : Light b k t) (hu : Light b l u) : Light b (k + l) (t ++ u) :=
  ⟨ht.tidy.append hu.tidy, by rw [elementsAsked_append]; have := ht.elems; have := hu.elems; omega, fun x hx => (List.mem_append.mp hx).elim (ht.fits x) (hu.fits x)⟩

theorem Light.nil {b : Budget} : Light b 0 [] := ⟨.nil, Nat.zero_le _, fun _ h => by cases h⟩

theorem Light.mono {b : Budget} {k l : Nat} {t : List Ask} (ht : Light b k t) (h : k ≤ l) : Light b l t := ⟨ht.tidy, Nat.le_trans ht.elems h, ht.fits⟩

theorem Light.one {b : Budget} {a : Ask} (h : ∀ w, change w a = 0) (hp : elementsAsked [a] = 0) (hl : Local b a) : Light b 0 [a] :=
  ⟨.one h, by omega, fun x hx => by rw [List.mem_singleton.mp hx]; exact hl⟩

theorem Light.within {b : Budget} {t : List Ask} (h : Light b b.parts t) {u rest : List Ask} {a : Ask} (e : t = u ++ a :: rest) : Within b u a := by
  subst e
  have hl := h.fits a (List.mem_append_right _ (List.mem_cons_self ..))
  cases a with
  | part k len more =>
    refine ⟨?_, hl⟩
    have := h.elems
    rw [elementsAsked_append] at this
    simp only [elementsAsked] at this
    omega
  | call w =>
    have h1 := levels_before (w := w) (h := u) (a := .call w) (rest := rest)
    have h2 := h.tidy.most w
    simp only [change, if_true] at h1
    show levels w u + 1 ≤ b.levels w
    omega
  | entry | scratch | buffer => exact hl
  | back | system | step => trivial

theorem Light.granted {b : Budget} {t : List Ask} (h : Light b b.parts t) {ok : Machine} (hok : Affords ok b) : GrantsAll ok t := fun _ _ _ e => hok _ _ (h.within e)

theorem systemCalls_append (t u : List Ask) : systemCalls (t ++ u) = systemCalls t ++ systemCalls u := List.filterMap_append ..

theorem systemCalls_none {t : List Ask} (h : ∀ c, Ask.system c ∉ t) : systemCalls t = [] := by
  refine List.filterMap_eq_nil_iff.mpr fun a ha => ?_
  cases a with
  | system c => exact absurd ha (h c)
  | _ => rfl

/-- The requests are within a budget. -/
structure Weigh (b : Budget) (t : List Ask) : Prop where
  most : ∀ w, peak w t ≤ b.levels w
  elems : elementsAsked t ≤ b.parts
  fits : ∀ x ∈ t, Local b x

theorem Weigh.left {b : Budget} {t u : List Ask} (h : Weigh b (t ++ u)) : Weigh b t :=
  ⟨fun w => by have := h.most w; rw [peak_append] at this; omega, by have := h.elems; rw [elementsAsked_append] at this; omega, fun x hx => h.fits x (List.mem_append_left _ hx)⟩

theorem Weigh.right {b : Budget} {t u : List Ask} (ht : ∀ w, levels w t = 0) (h : Weigh b (t ++ u)) : Weigh b u :=
  ⟨fun w => by have := h.most w; rw [peak_append, ht w] at this; omega, by have := h.elems; rw [elementsAsked_append] at this; omega, fun x hx => h.fits x (List.mem_append_right _ hx)⟩

/-- A machine that grants nothing outside of a budget has granted requests that are within it. -/
theorem weigh_of_within {b : Budget} : ∀ {t : List Ask}, (∀ h a rest, t = h ++ a :: rest → Within b h a) → Weigh b t := by
  have key : ∀ (n : Nat) (t : List Ask), t.length = n → (∀ h a rest, t = h ++ a :: rest → Within b h a) → Weigh b t := by
    intro n
    induction n with
    | zero =>
      intro t ht _
      rw [List.length_eq_zero_iff.mp ht]
      exact ⟨fun w => by simp only [peak]; omega, Nat.zero_le _, fun _ h => by cases h⟩
    | succ n ih =>
      intro t ht h
      rcases List.eq_nil_or_concat t with rfl | ⟨u, a, rfl⟩
      · cases ht
      · rw [List.concat_eq_append] at *
        have hu := ih u (by simpa using ht) fun h' x rest e => h h' x (rest ++ [a]) (by rw [e]; simp)
        have ha := h u a [] rfl
        refine ⟨fun w => ?_, ?_, fun x hx => ?_⟩
        · have h1 := hu.most w
          have h2 := levels_le_peak w u
          rw [peak_append]
          simp only [peak]
          cases a with
          | call v =>
            simp only [change]
            have h3 : levels v u + 1 ≤ b.levels v := ha
            split
            · next e => subst e; omega
            · omega
          | back v => simp only [change]; split <;> omega
          | _ => simp only [change]; omega
        · have h1 := hu.elems
          rw [elementsAsked_append]
          cases a with
          | part k len more =>
            have h3 : elementsAsked u + more ≤ b.parts ∧ _ := ha
            simp only [elementsAsked]
            omega
          | _ => simp only [elementsAsked]; omega
        · rcases List.mem_append.mp hx with hx | hx
          · exact hu.fits x hx
          · rw [List.mem_singleton.mp hx]
            cases a with
            | part => exact ha.2
            | entry | scratch | buffer => exact ha
            | call | back | system | step => trivial
  exact fun {t} => key t.length t rfl

/-! ### Levels of destructors and printing -/

mutual

theorem peak_visitInstr (v : Work) : ∀ i : Instr, (depthI i : Int) ≤ peak v (visitInstr v i)
  | .block _ b => by
    have := peak_visitInstrs v b
    simp only [depthI, visitInstr, peak, change, if_true, peak_append]
    omega
  | .loop _ b => by
    have := peak_visitInstrs v b
    simp only [depthI, visitInstr, peak, change, if_true, peak_append]
    omega
  | .ifElse _ b b' => by
    have h1 := peak_visitInstrs v b
    have h2 := peak_visitInstrs v b'
    have h3 := (tidy_instrs v b _ (Nat.le_refl _)).1.done v
    have e : visitInstr v (.ifElse ‹_› b b') = (.call v :: (visitInstrs v b ++ [.back v])) ++ (.call v :: (visitInstrs v b' ++ [.back v])) := by
      simp [visitInstr]
    rw [e]
    simp only [depthI, List.cons_append, List.append_assoc, List.nil_append, peak, change, if_true, peak_append, h3]
    omega
  | .unreachable | .nop | .elseMark | .endMark | .br _ | .brIf _ | .brTable _ _ | .ret | .call _ | .callIndirect _ _ | .drop | .select | .localGet _ | .localSet _ | .localTee _ | .globalGet _ | .globalSet _
  | .load _ _ _ | .store _ _ _ | .memSize _ | .memGrow _ | .constI32 _ | .constI64 _ | .constF32 _ | .constF64 _ | .num _ => by
    simp only [depthI, visitInstr, peak]
    omega

theorem peak_visitInstrs (v : Work) : ∀ is : List Instr, (depthL is : Int) ≤ peak v (visitInstrs v is)
  | [] => by simp [depthL, visitInstrs, peak]
  | i :: is => by
    have h1 := peak_visitInstr v i
    have h2 := peak_visitInstrs v is
    have h3 := (tidy_instr v i _ (Nat.le_refl _)).1.done v
    simp only [depthL, visitInstrs, peak_append, h3]
    omega

end

theorem peak_flatMap {α : Type} {v : Work} {e : α → List Instr} : ∀ l : List α, (most (fun x => depthL (e x)) l : Int) ≤ peak v (l.flatMap fun x => visitInstrs v (e x)) ∧
    levels v (l.flatMap fun x => visitInstrs v (e x)) = 0
  | [] => by simp [most, peak, levels]
  | x :: l => by
    have h1 := peak_visitInstrs v (e x)
    have h2 := peak_flatMap (v := v) (e := e) l
    have h3 := (tidy_instrs v (e x) _ (Nat.le_refl _)).1.done v
    simp only [List.flatMap_cons, most, peak_append, levels_append, h3, h2.2]
    omega

theorem peak_visitModule (v : Work) (m : Module) : (depthM m : Int) ≤ peak v (visitModule v m) := by
  have h1 := peak_flatMap (v := v) (e := fun f : Func => f.body) m.funcs
  have h2 := peak_flatMap (v := v) (e := fun g : Global => g.init) m.globals
  have h3 := peak_flatMap (v := v) (e := fun e : Elem => e.offset) m.elem
  have h4 := peak_flatMap (v := v) (e := fun d : Data => d.offset) m.data
  simp only [depthM, visitModule, peak_append, levels_append, h1.2, h2.2, h3.2]
  omega

/-! ### Code with effects -/

/-- `q` is `p` on a machine. A budget that has room for all requests of `q` is `R`, unless the process is left. -/
def RelE {α : Type} (b : Budget) (k : Nat) (q : GE α) (p : Exec α) (R : α → Budget → Prop) : Prop := ∀ c, ∃ t, Does (q c) t (p c) ∧ (p c).2.calls = c.calls ++ systemCalls t ∧ Light b k t ∧
  ∀ x c', p c = (.ok x, c') → ∀ b', Weigh b' t → R x b'

/-- Nothing is known. -/
def Any {α : Type} (_ : α) (_ : Budget) : Prop := True

section
variable {α β : Type} {b : Budget} {k l : Nat} {A : α → Budget → Prop} {B : β → Budget → Prop}

theorem relE_bind' {q : GE α} {p : Exec α} {g : α → GE β} {f : α → Exec β} (h : RelE b k q p A) (hf : ∀ x, (∃ c c', p c = (.ok x, c')) → RelE b l (g x) (f x) fun y b' => A x b' → B y b') :
    RelE b (k + l) (q >>= g) (p >>= f) B := by
  intro c
  obtain ⟨t, h1, h2, h3, h4⟩ := h c
  show ∃ t, Does (GE.bind q g c) t (Exec.bind p f c) ∧ (Exec.bind p f c).2.calls = _ ∧ _ ∧ ∀ x c', Exec.bind p f c = (.ok x, c') → _
  unfold Exec.bind
  rcases hp : p c with ⟨e | x, c'⟩
  · rw [hp] at h1 h2
    exact ⟨t ++ [], h1.bind (.pure _), by rw [List.append_nil]; exact h2, (h3.append .nil).mono (Nat.le_add_right ..), (fun _ _ h => by cases h)⟩
  · rw [hp] at h1 h2
    obtain ⟨u, g1, g2, g3, g4⟩ := hf x ⟨c, c', hp⟩ c'
    refine ⟨t ++ u, h1.bind g1, ?_, h3.append g3, fun y d hy b' hb => g4 y d hy b' (hb.right h3.tidy.done) (h4 x c' hp b' hb.left)⟩
    rw [systemCalls_append, ← List.append_assoc, ← h2]
    exact g2

theorem relE_bind {q : GE α} {p : Exec α} {g : α → GE β} {f : α → Exec β} (h : RelE b 0 q p A) (hf : ∀ x, (∃ c c', p c = (.ok x, c')) → RelE b l (g x) (f x) fun y b' => A x b' → B y b') :
    RelE b l (q >>= g) (p >>= f) B := by
  have := relE_bind' h hf
  rwa [Nat.zero_add] at this

theorem RelE.imp {q : GE α} {p : Exec α} {A' : α → Budget → Prop} (h : RelE b k q p A) (hA : ∀ x b', A x b' → A' x b') : RelE b k q p A' := fun c =>
  let ⟨t, h1, h2, h3, h4⟩ := h c
  ⟨t, h1, h2, h3, fun x c' hx b' hb => hA x b' (h4 x c' hx b' hb)⟩

theorem RelE.mono {q : GE α} {p : Exec α} (h : RelE b k q p A) (hl : k ≤ l) : RelE b l q p A := fun c =>
  let ⟨t, h1, h2, h3, h4⟩ := h c
  ⟨t, h1, h2, h3.mono hl, h4⟩

theorem relE_lift {p : Exec α} (h : ∀ c, (p c).2.calls = c.calls) : RelE b 0 (GE.lift p) p Any := fun c =>
  ⟨[], .pure _, by rw [h c]; exact (List.append_nil _).symm, .nil, fun _ _ _ _ _ => trivial⟩

theorem relE_exit (n : Nat) : RelE b 0 (GE.lift (exit n) : GE α) (exit n) A := fun c =>
  ⟨[], .pure _, (List.append_nil _).symm, .nil, fun _ _ h => by cases h⟩

theorem relE_pure (x : α) : RelE b 0 (pure x : GE α) (pure x) Any := fun _ => ⟨[], .pure _, (List.append_nil _).symm, .nil, fun _ _ _ _ _ => trivial⟩

theorem relE_run {R : Type} {x : Mach R} {t : List Ask} {r : R} {g : R → GE β} {p : Exec β} (h : Does x t r) (hs : ∀ c, Ask.system c ∉ t) (hl : Light b k t)
    (hg : RelE b l (g r) p fun y b' => Weigh b' t → B y b') : RelE b (k + l) (GE.run x >>= g) p B := by
  intro c
  obtain ⟨u, h1, h2, h3, h4⟩ := hg c
  have hr : Does (GE.run x c) t (Except.ok r, c) := h.map fun y => (Except.ok y, c)
  exact ⟨t ++ u, hr.bind h1, by rw [systemCalls_append, systemCalls_none hs]; exact h2, hl.append h3, fun y d hy b' hb => h4 y d hy b' (hb.right hl.tidy.done) hb.left⟩

theorem relE_step {g : Unit → GE β} {p : Exec β} (hg : RelE b l (g ()) p B) : RelE b l (GE.step >>= g) p B := by
  have := relE_run (x := ask .step) (g := g) (Does.ask .step) (b := b) (k := 0) (fun c hc => by cases hc with | tail _ h => cases h) (.one (fun _ => rfl) rfl trivial) (hg.imp (A' := fun y b' => Weigh b' [.step] → B y b') fun _ _ h _ => h)
  rwa [Nat.zero_add] at this

theorem relE_println (sys : System) (t : List Char) : RelE b 0 (GE.println sys t) (Process.println sys t) Any := fun c =>
  ⟨_, (Does.ask _).map fun _ => Process.println sys t c, rfl, .one (fun _ => rfl) rfl trivial, fun _ _ _ _ _ => trivial⟩

theorem relE_open (sys : System) (name : String) : RelE b 0 (GE.openFile sys name) (Process.openFile sys name) Any := fun c =>
  ⟨_, (Does.ask _).map fun _ => Process.openFile sys name c, rfl, .one (fun _ => rfl) rfl trivial, fun _ _ _ _ _ => trivial⟩

/-- There is room for what was read, if there was room for what was read before. -/
def Buffered (buffer : List Byte) (x : Except (List Char) (List Byte)) (b : Budget) : Prop := buffer.length ≤ b.buffer → ∀ s, x = .ok s → s.length ≤ b.buffer

theorem relE_read (file : Nat → ReadEvent) : ∀ (fuel i : Nat) (buffer : List Byte), buffer.length + given file fuel i ≤ b.buffer →
    RelE b 0 (GE.readToEnd file fuel i buffer) (Process.readToEnd file fuel i buffer) (Buffered buffer)
  | 0, _, _, _ => fun _ => ⟨[], .pure _, (List.append_nil _).symm, .nil, (fun _ _ h => by cases h)⟩
  | fuel + 1, i, buffer, h => by
    intro c
    have first : Light b 0 [Ask.system .read] := .one (fun _ => rfl) rfl trivial
    unfold given at h
    have q0 : Does (ask (.system .read)) [.system .read] () := Does.ask _
    cases hf : file i with
    | bytes s =>
      cases s with
      | nil =>
        have hp : Process.readToEnd file (fuel + 1) i buffer c = (.ok (.ok buffer), ⟨c.out, c.calls ++ [.read]⟩) := by simp only [Process.readToEnd, hf]
        have hd : Does (GE.readToEnd file (fuel + 1) i buffer c) ([.system .read] ++ []) (.ok (.ok buffer), ⟨c.out, c.calls ++ [.read]⟩) := by
          simp only [GE.readToEnd, hf]
          exact q0.bind (.pure _)
        rw [hp]
        exact ⟨_, hd, rfl, first.append .nil, (fun _ _ h _ _ hl s hs => by cases h; cases hs; exact hl)⟩
      | cons x s =>
        rw [hf] at h
        dsimp only at h
        have ih := relE_read file fuel (i + 1) (buffer ++ x :: s) (by rw [List.length_append]; omega) ⟨c.out, c.calls ++ [.read]⟩
        obtain ⟨t, h1, h2, h3, h4⟩ := ih
        have hp : Process.readToEnd file (fuel + 1) i buffer c = Process.readToEnd file fuel (i + 1) (buffer ++ x :: s) ⟨c.out, c.calls ++ [.read]⟩ := by simp only [Process.readToEnd, hf]
        have hd : Does (GE.readToEnd file (fuel + 1) i buffer c) ([.system .read] ++ ([.buffer buffer.length (x :: s).length] ++ t)) (Process.readToEnd file fuel (i + 1) (buffer ++ x :: s) ⟨c.out, c.calls ++ [.read]⟩) := by
          simp only [GE.readToEnd, hf]
          exact q0.bind ((Does.ask _).bind h1)
        rw [hp]
        refine ⟨_, hd, ?_, first.append ((Light.one (a := .buffer buffer.length (x :: s).length) (fun _ => rfl) rfl (by show buffer.length + (x :: s).length ≤ _; omega)).append h3), fun x' c' hx b' hb _ => h4 x' c' hx b' ((hb.right first.tidy.done).right (Tidy.one (d := b.levels) fun _ => rfl).done) ?_⟩
        case refine_2 =>
          have : buffer.length + (x :: s).length ≤ b'.buffer := (hb.right first.tidy.done).left.fits _ List.mem_cons_self
          rw [List.length_append]
          exact this
        rw [h2]
        simp [systemCalls]
    | interrupted =>
      rw [hf] at h
      dsimp only at h
      obtain ⟨t, h1, h2, h3, h4⟩ := relE_read file fuel (i + 1) buffer h ⟨c.out, c.calls ++ [.read]⟩
      have hp : Process.readToEnd file (fuel + 1) i buffer c = Process.readToEnd file fuel (i + 1) buffer ⟨c.out, c.calls ++ [.read]⟩ := by simp only [Process.readToEnd, hf]
      have hd : Does (GE.readToEnd file (fuel + 1) i buffer c) ([.system .read] ++ t) (Process.readToEnd file fuel (i + 1) buffer ⟨c.out, c.calls ++ [.read]⟩) := by
        simp only [GE.readToEnd, hf]
        exact q0.bind h1
      rw [hp]
      refine ⟨_, hd, ?_, first.append h3, fun x' c' hx b' hb => h4 x' c' hx b' (hb.right first.tidy.done)⟩
      rw [h2]
      simp [systemCalls]
    | failed m =>
      have hp : Process.readToEnd file (fuel + 1) i buffer c = (.ok (.error m), ⟨c.out, c.calls ++ [.read]⟩) := by simp only [Process.readToEnd, hf]
      have hd : Does (GE.readToEnd file (fuel + 1) i buffer c) ([.system .read] ++ []) (.ok (.error m), ⟨c.out, c.calls ++ [.read]⟩) := by
        simp only [GE.readToEnd, hf]
        exact q0.bind (.pure _)
      rw [hp]
      exact ⟨_, hd, rfl, first.append .nil, (fun _ _ h _ _ _ s hs => by cases h; cases hs)⟩

theorem relE_report (sys : System) (line err : List Char) : RelE b 0 (GE.report sys line err : GE α) (Process.report sys line err) A :=
  relE_step (relE_bind (relE_println _ _) fun _ _ => relE_bind (relE_println _ _) fun _ _ => relE_exit _)

theorem relE_unwinding {owned : List Ask} {q : GE α} {p : Exec α} (ho : Light b 0 owned) (hs : ∀ c, Ask.system c ∉ owned) (h : RelE b 0 q p A) : RelE b 0 (GE.unwinding owned q) p A := by
  intro c
  obtain ⟨t, h1, h2, h3, h4⟩ := h c
  have simple : (∀ c', p c ≠ (.error (.exit 101), c')) → ∃ t, Does (GE.unwinding owned q c) t (p c) ∧ (p c).2.calls = c.calls ++ systemCalls t ∧ Light b 0 t ∧ ∀ x c', p c = (.ok x, c') → ∀ b', Weigh b' t → A x b' := by
    intro hne
    refine ⟨t ++ [], ?_, by rw [List.append_nil]; exact h2, h3.append .nil, fun x c' hx b' hb => h4 x c' hx b' hb.left⟩
    have : ∀ r : Except Stop α × Console, (∀ c', r ≠ (.error (.exit 101), c')) → Does (match r with
        | (.error (.exit 101), c) => do
          askAll owned
          pure (.error (.exit 101), c)
        | r => (pure r : Mach (Except Stop α × Console))) [] r := by
      intro r hr
      split
      · exact absurd rfl (hr _)
      · exact .pure _
    exact h1.bind (this _ hne)
  by_cases hc : ∃ c', p c = (.error (.exit 101), c')
  · obtain ⟨c', hc⟩ := hc
    rw [hc] at h1 h2 ⊢
    exact ⟨t ++ (owned ++ []), h1.bind ((Does.askAll owned).bind (.pure _)), by rw [systemCalls_append, List.append_nil, systemCalls_none hs, List.append_nil]; exact h2, h3.append (ho.append .nil), (fun _ _ h => by cases h)⟩
  · exact simple fun c' hc' => hc ⟨c', hc'⟩

theorem relE_finally {owned : List Ask} {q : GE Unit} {p : Exec Unit} {R : Unit → Budget → Prop} (ho : Light b 0 owned) (hs : ∀ c, Ask.system c ∉ owned) (h : RelE b 0 q p R) :
    RelE b 0 (q >>= fun _ => GE.run (askAll owned)) p fun x b' => R x b' ∧ Weigh b' owned := by
  intro c
  obtain ⟨t, h1, h2, h3, h4⟩ := h c
  rcases hp : p c with ⟨e | ⟨⟨⟩⟩, c'⟩
  · rw [hp] at h1 h2
    exact ⟨t ++ [], h1.bind (.pure _), by rw [List.append_nil]; exact h2, h3.append .nil, (fun _ _ h => by cases h)⟩
  · rw [hp] at h1 h2
    have hr : Does (GE.run (askAll owned) c') owned (Except.ok (), c') := (Does.askAll owned).map fun y => (Except.ok y, c')
    exact ⟨t ++ owned, h1.bind hr, by rw [systemCalls_append, systemCalls_none hs, List.append_nil]; exact h2, h3.append ho, fun x d hx b' hb => ⟨h4 x c' (by cases hx; exact hp) b' hb.left, hb.right h3.tidy.done⟩⟩

/-- A budget for these contents of a file, and what each budget has that there are for the requests. -/
structure Suffices (bits : Nat) (build : Build) (b : Budget) (s : List Byte) : Prop where
  parse : ∃ t, Does (GP.parseModule s) t (Whasm.parseModule s) ∧ (∀ c, Ask.system c ∉ t) ∧ Light b b.parts t ∧
    ∀ m, (Whasm.parseModule s).1 = .ok m → ∀ b', Weigh b' t → elements m ≤ b'.parts ∧ depthM m ≤ b'.levels .parse
  validate : ∀ m, (Whasm.parseModule s).1 = .ok m → ∃ t, Does (GV.validateModule bits build m) t (Whasm.validateModule m) ∧ (∀ c, Ask.system c ∉ t) ∧ Light b 0 t ∧
    ∀ v, Whasm.validateModule m = .ok v → ∀ b', Weigh b' t → Room.validateModule (roomed bits build b'.entries) m = .ok v ∧ depthM m ≤ b'.levels .validate
  visit : ∀ m, (Whasm.parseModule s).1 = .ok m → ∀ w, w = .print ∨ w = .drop → Light b 0 (visitModule w m) ∧ ∀ c, Ask.system c ∉ visitModule w m

/-- The number of bytes that are read, and a budget for them. -/
structure Provides (bits : Nat) (build : Build) (b : Budget) (sys : System) (fuel : Nat) (argv : List (List Byte)) : Prop where
  buffer : ∀ args c c' config f, collectArgs argv c = (.ok args, c') → configNew args = some config → sys.file (utf8 config.filename.toList) = .ok f → given f fuel 0 ≤ b.buffer
  contents : ∀ args c c' config f d d' s, collectArgs argv c = (.ok args, c') → configNew args = some config → sys.file (utf8 config.filename.toList) = .ok f →
    readToEnd f fuel 0 [] d = (.ok (.ok s), d') → Suffices bits build b s

/-- The end of `main` was reached, and the budget had enough of everything. -/
structure Reached (bits : Nat) (build : Build) (sys : System) (fuel : Nat) (argv : List (List Byte)) (b : Budget) (config : Config) (s : List Byte) (m : Module) : Prop where
  args : ∃ args c c', collectArgs argv c = (.ok args, c') ∧ configNew args = some config
  contents : ∃ f d d', sys.file (utf8 config.filename.toList) = .ok f ∧ readToEnd f fuel 0 [] d = (.ok (.ok s), d')
  parsed : (Whasm.parseModule s).1 = .ok m
  buffer : s.length ≤ b.buffer
  parts : elements m ≤ b.parts
  valid : ∃ v, Room.validateModule (roomed bits build b.entries) m = .ok v
  levels : ∀ w, w ≠ .print ∨ config.print = true → depthM m ≤ b.levels w

theorem collectArgs_calls : ∀ (argv : List (List Byte)) (c : Console), (collectArgs argv c).2 = c
  | [], _ => rfl
  | a :: as, c => by
    have ih := collectArgs_calls as c
    unfold collectArgs
    split
    · show (Exec.bind (collectArgs as) _ c).2 = c
      unfold Exec.bind
      rcases h : collectArgs as c with ⟨_ | _, _⟩ <;> (rw [h] at ih; exact ih)
    · rfl

theorem weigh_visit {b : Budget} {w : Work} {m : Module} (h : Weigh b (visitModule w m)) : depthM m ≤ b.levels w := by
  have := peak_visitModule w m
  have := h.most w
  omega

theorem relE_main {std : StdText} {bits : Nat} {build : Build} {sys : System} {fuel : Nat} {argv : List (List Byte)} (h : Provides bits build b sys fuel argv) :
    RelE b b.parts (GE.main std bits build sys fuel argv) (Process.main std sys fuel argv) fun _ b' => ∃ config s m, Reached bits build sys fuel argv b' config s m := by
  refine relE_step (relE_bind (relE_lift fun c => by rw [collectArgs_calls]) fun args ⟨c, c', ha⟩ => ?_)
  cases hc : configNew args with
  | none =>
    refine RelE.mono (k := 0) (relE_bind (relE_println _ _) fun _ _ => ?_) (Nat.zero_le _)
    cases args with
    | nil => exact relE_exit _
    | cons bin _ => exact relE_bind (relE_println _ _) fun _ _ => relE_exit _
  | some config =>
    refine relE_bind (relE_open _ _) fun opened ⟨_, _, ho⟩ => ?_
    cases opened with
    | error err => exact (relE_report _ _ _).mono (Nat.zero_le _)
    | ok f =>
      have hf : sys.file (utf8 config.filename.toList) = .ok f := by
        simp only [Process.openFile, Prod.mk.injEq, Except.ok.injEq] at ho
        exact ho.1
      refine relE_bind (relE_read f fuel 0 [] (by have := h.buffer _ _ _ _ _ ha hc hf; simpa using this)) fun contents ⟨d, d', hd⟩ => ?_
      cases contents with
      | error err => exact (relE_report _ _ _).mono (Nat.zero_le _)
      | ok s =>
        have hs := h.contents _ _ _ _ _ _ _ _ ha hc hf hd
        obtain ⟨t, t1, t2, t3, t4⟩ := hs.parse
        refine relE_run (l := 0) t1 t2 t3 ?_
        dsimp only
        cases hm : (Whasm.parseModule s).1 with
        | error err => exact relE_report _ _ _
        | ok m =>
          obtain ⟨u, u1, u2, u3, u4⟩ := hs.validate m hm
          obtain ⟨d1, d2⟩ := hs.visit m hm .drop (.inr rfl)
          obtain ⟨p1, p2⟩ := hs.visit m hm .print (.inl rfl)
          refine RelE.imp (relE_finally (R := fun _ b' => ∃ v, Whasm.validateModule m = .ok v ∧ Weigh b' u ∧ (config.print = true → Weigh b' (visitModule .print m))) d1 d2
            (relE_unwinding d1 d2 (relE_run (l := 0) u1 u2 u3 ?_))) ?_
          · dsimp only
            cases hv : Whasm.validateModule m with
            | error e =>
              cases e with
              | panic => exact absurd hv (validate_no_panic m)
              | _ => exact relE_report _ _ _
            | ok v =>
              by_cases hp : config.print = true
              · rw [if_pos hp, if_pos hp]
                exact relE_run (l := 0) (Does.askAll _) p2 p1 ((relE_println _ _).imp fun _ b' _ hw hu => ⟨v, rfl, hu, fun _ => hw⟩)
              · rw [if_neg hp, if_neg hp]
                exact (relE_pure _).imp fun _ b' _ hu => ⟨v, rfl, hu, fun h => absurd h hp⟩
          · rintro _ b' ⟨⟨v, hv, hu, hp⟩, hdrop⟩ ht hread _ _
            obtain ⟨e1, e2⟩ := t4 m hm b' ht
            obtain ⟨e3, e4⟩ := u4 v hv b' hu
            refine ⟨config, s, m, ⟨args, c, c', ha, hc⟩, ⟨f, d, d', hf, hd⟩, hm, hread (Nat.zero_le _) s rfl, e1, ⟨v, e3⟩, fun w hw => ?_⟩
            cases w with
            | parse => exact e2
            | validate => exact e4
            | drop => exact weigh_visit hdrop
            | print => exact weigh_visit (hp (hw.resolve_left fun h => h rfl))

end

end Whasm.Grant
