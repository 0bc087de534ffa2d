import Verif.Lemmas.GrantParse
import Verif.Lemmas.Room

/-!
# Validation on a machine that may refuse anything
-/

namespace Whasm.Grant
open Spec
open Room (Computer)

/-- What the validator asks for. -/
def FromValidator : Ask → Prop
  | .entry _ _ _ => True
  | .scratch _ => True
  | .call w => w = .validate
  | .back w => w = .validate
  | _ => False

/-- There is room for a request of the validator. -/
def Has (E : Entry → Nat) : Ask → Prop
  | .entry k len more => len + more ≤ E k
  | .scratch n => n ≤ E .names
  | _ => True

/-- There is room for all requests. -/
def Fits (E : Entry → Nat) (t : List Ask) : Prop := ∀ x ∈ t, Has E x

theorem fits_append {E : Entry → Nat} {t u : List Ask} : Fits E (t ++ u) ↔ Fits E t ∧ Fits E u := by
  refine ⟨fun h => ⟨fun x hx => h x (List.mem_append_left _ hx), fun x hx => h x (List.mem_append_right _ hx)⟩, fun ⟨ht, hu⟩ x hx => ?_⟩
  rcases List.mem_append.mp hx with h | h
  · exact ht x h
  · exact hu x h

theorem fits_one {E : Entry → Nat} {a : Ask} : Fits E [a] ↔ Has E a :=
  ⟨fun h => h _ List.mem_cons_self, fun h x hx => by rw [List.mem_singleton.mp hx]; exact h⟩

theorem Fits.nil {E : Entry → Nat} : Fits E [] := fun _ h => by cases h

/-- What validation with `d` levels may ask for. -/
def AskedV (d : Nat) (t : List Ask) : Prop := Tidy (just .validate d) t ∧ ∀ x ∈ t, FromValidator x

/-- With limited memory there is the same result, or a panic if and only if there is too little room for one of the requests. -/
def CountsV {R : Type} (E : Entry → Nat) (t : List Ask) (out r : Except VErr R) : Prop := (Fits E t ∧ r = out) ∨ (¬ Fits E t ∧ r = .error .panic)

/-- `q` is `p` on a machine, where `p` depends on the room for entries. There are at most `d` levels, and at least `lo` unless there is an error. -/
def RelV {α : Type} (lo d : Nat) (q : GV α) (p : (Entry → Nat) → V α) : Prop := ∀ c, ∃ t out, Does (q c) t out ∧ AskedV d t ∧ (∀ E, CountsV E t out (p E c)) ∧ ∀ r, out = .ok r → lo ≤ peak .validate t

/-- A computer. -/
def roomed (bits : Nat) (build : Build) (E : Entry → Nat) : Computer := ⟨bits, build, fun _ => 0, E⟩

section
variable {α β : Type} {bits : Nat} {build : Build} {lo lo' d d' : Nat}

theorem AskedV.append {t u : List Ask} (ht : AskedV d t) (hu : AskedV d u) : AskedV d (t ++ u) :=
  ⟨ht.1.append hu.1, fun x hx => by
    rcases List.mem_append.mp hx with h | h
    · exact ht.2 x h
    · exact hu.2 x h⟩

theorem AskedV.nil : AskedV d [] := ⟨.nil, fun _ h => by cases h⟩

theorem countsV_nil {R : Type} {out : Except VErr R} (E : Entry → Nat) : CountsV E [] out out := .inl ⟨.nil, rfl⟩

theorem relV_lift (p : V α) : RelV 0 d (GV.lift p) fun _ => p := fun c => ⟨[], p c, .pure _, .nil, countsV_nil, fun _ _ => Int.le_refl _⟩

theorem relV_pure (x : α) : RelV 0 d (pure x : GV α) fun _ => pure x := fun c => ⟨[], .ok (x, c), .pure _, .nil, countsV_nil, fun _ _ => Int.le_refl _⟩

theorem relV_fail (e : VErr) : RelV lo d (GV.fail e : GV α) fun _ => V.fail e := fun _ => ⟨[], .error e, .pure _, .nil, countsV_nil, fun _ h => by cases h⟩

theorem RelV.low {q : GV α} {p : (Entry → Nat) → V α} (h : RelV lo d q p) (hl : lo' ≤ lo) : RelV lo' d q p := fun c =>
  let ⟨t, out, h1, h2, h3, h4⟩ := h c
  ⟨t, out, h1, h2, h3, fun r hr => by have := h4 r hr; omega⟩

theorem RelV.mono {q : GV α} {p : (Entry → Nat) → V α} (h : RelV lo d q p) (hd : d ≤ d') : RelV lo d' q p := fun c =>
  let ⟨t, out, h1, h2, h3, h4⟩ := h c
  ⟨t, out, h1, ⟨h2.1.mono fun w => by unfold just; split <;> omega, h2.2⟩, h3, h4⟩

theorem relV_bind {q : GV α} {p : (Entry → Nat) → V α} {g : α → GV β} {f : (Entry → Nat) → α → V β} (h : RelV lo d q p) (hf : ∀ x, RelV lo' d (g x) fun E => f E x) :
    RelV (max lo lo') d (q >>= g) fun E => p E >>= f E := by
  intro c
  obtain ⟨t, out, h1, h2, h3, h4⟩ := h c
  cases out with
  | error e =>
    refine ⟨t ++ [], .error e, h1.bind (.pure _), h2.append .nil, fun E => ?_, fun _ h => by cases h⟩
    rw [List.append_nil]
    rcases h3 E with ⟨h, h'⟩ | ⟨h, h'⟩
    · exact .inl ⟨h, bind_err h'⟩
    · exact .inr ⟨h, bind_err h'⟩
  | ok r =>
    obtain ⟨x, c'⟩ := r
    obtain ⟨u, out, g1, g2, g3, g4⟩ := hf x c'
    refine ⟨t ++ u, out, h1.bind g1, h2.append g2, fun E => ?_, fun r hr => ?_⟩
    · unfold CountsV
      rw [fits_append]
      rcases h3 E with ⟨h, h'⟩ | ⟨h, h'⟩
      · rcases g3 E with ⟨g, g'⟩ | ⟨g, g'⟩
        · exact .inl ⟨⟨h, g⟩, (bind_ok h').trans g'⟩
        · exact .inr ⟨fun hr => g hr.2, (bind_ok h').trans g'⟩
      · exact .inr ⟨fun hr => h hr.1, bind_err h'⟩
    · have := h4 _ rfl
      have := g4 r hr
      rw [peak_append, h2.1.done]
      omega

/-- The first part does not nest. -/
theorem relV_then {q : GV α} {p : (Entry → Nat) → V α} {g : α → GV β} {f : (Entry → Nat) → α → V β} (h : RelV 0 d q p) (hf : ∀ x, RelV lo d (g x) fun E => f E x) :
    RelV lo d (q >>= g) fun E => p E >>= f E := (relV_bind h hf).low (Nat.le_max_right ..)

theorem relV_after {p : V α} {g : α → GV β} {f : (Entry → Nat) → α → V β} (hf : ∀ x, RelV lo d (g x) fun E => f E x) : RelV lo d (GV.lift p >>= g) fun E => p >>= f E := relV_then (relV_lift p) hf

theorem relV_drop {q : GV α} {p : (Entry → Nat) → V α} (h : RelV lo d q p) : RelV lo d (q >>= fun _ => pure ()) fun E => p E >>= fun _ => pure () :=
  (relV_bind h fun _ => relV_pure _).low (Nat.le_max_left ..)

theorem relV_ite {c : Prop} [Decidable c] {q r : GV α} {p s : (Entry → Nat) → V α} (h : RelV lo d q p) (h' : RelV lo d r s) : RelV lo d (if c then r else q) fun E => if c then s E else p E := by
  by_cases hc : c
  · simp only [if_pos hc]; exact h'
  · simp only [if_neg hc]; exact h

theorem askedV_one {a : Ask} (h : ∀ w, change w a = 0) (ha : FromValidator a) : AskedV d [a] :=
  ⟨.one h, fun x hx => by rw [List.mem_singleton.mp hx]; exact ha⟩

theorem relV_push (k : Entry) (len : Ctx → Nat) (p : V Unit) : RelV 0 d (GV.push k len p) fun E => Room.push (roomed bits build E) k len p := by
  intro c
  refine ⟨_, p c, (Does.ask _).map fun _ => p c, askedV_one (fun _ => rfl) trivial, fun E => ?_, fun _ _ => peak_nonneg _ _⟩
  unfold Room.push CountsV
  rw [fits_one]
  by_cases h : len c + 1 ≤ (roomed bits build E).entries k
  · exact .inl ⟨h, if_pos h⟩
  · exact .inr ⟨h, if_neg h⟩

theorem relV_reserve (k : Entry) (n : Nat) : RelV 0 d (GV.reserve k n) fun E => Room.reserve (roomed bits build E) k n := by
  intro c
  refine ⟨_, .ok ((), c), (Does.ask _).map fun _ => _, askedV_one (fun _ => rfl) trivial, fun E => ?_, fun _ _ => peak_nonneg _ _⟩
  unfold Room.reserve CountsV
  rw [fits_one]
  show (0 + n ≤ E k ∧ _) ∨ (¬ 0 + n ≤ E k ∧ _)
  rw [Nat.zero_add]
  by_cases h : n ≤ E k
  · exact .inl ⟨h, if_pos h⟩
  · exact .inr ⟨h, if_neg h⟩

theorem relV_pushOperand (o : Operand) : RelV 0 d (GV.pushOperand o) fun E => Room.pushOperand (roomed bits build E) o := relV_push (bits := bits) (build := build) .operands _ _
theorem relV_pushFrame (l o : List Val) : RelV 0 d (GV.pushFrame l o) fun E => Room.pushFrame (roomed bits build E) l o := relV_push (bits := bits) (build := build) .frames _ _

theorem relV_pushOperands : ∀ vs, RelV 0 d (GV.pushOperands vs) fun E => Room.pushOperands (roomed bits build E) vs
  | [] => relV_pure _
  | _ :: vs => relV_then (relV_pushOperand _) fun _ => relV_pushOperands vs

theorem relV_forEach {g : α → GV Unit} {f : (Entry → Nat) → α → V Unit} (h : ∀ x, RelV 0 d (g x) fun E => f E x) : ∀ xs, RelV 0 d (GV.forEach g xs) fun E => Whasm.forEach (f E) xs
  | [] => relV_pure _
  | x :: xs => relV_then (h x) fun _ => relV_forEach h xs

theorem relV_forEach_mem {g : α → GV Unit} {f : (Entry → Nat) → α → V Unit} {D : α → Nat} : ∀ xs, (∀ x ∈ xs, RelV (D x) d (g x) fun E => f E x) → RelV (most D xs) d (GV.forEach g xs) fun E => Whasm.forEach (f E) xs
  | [], _ => relV_pure _
  | x :: xs, h => relV_bind (h x (List.mem_cons_self ..)) fun _ => relV_forEach_mem xs fun y hy => h y (List.mem_cons_of_mem _ hy)

theorem relV_collect {g : α → GV β} {f : α → V β} (h : ∀ x, RelV 0 d (g x) fun _ => f x) : ∀ xs, RelV 0 d (GV.collect g xs) fun _ => Whasm.collect f xs
  | [] => relV_pure _
  | x :: xs => relV_then (p := fun _ => f x) (h x) fun _ => relV_then (p := fun _ => Whasm.collect f xs) (relV_collect h xs) fun _ => relV_pure _

theorem relV_withCtx {q : GV α} {p : (Entry → Nat) → V α} (c0 : Ctx) (h : RelV lo d q p) : RelV lo d (GV.withCtx c0 q) fun E => withCtx c0 (p E) := by
  intro c
  obtain ⟨t, out, h1, h2, h3, h4⟩ := h c0
  cases out with
  | error e =>
    refine ⟨t ++ [], .error e, h1.bind (.pure _), h2.append .nil, fun E => ?_, fun _ h => by cases h⟩
    rw [List.append_nil]
    unfold withCtx
    dsimp only
    rcases h3 E with ⟨h, h'⟩ | ⟨h, h'⟩
    · rw [h']; exact .inl ⟨h, rfl⟩
    · rw [h']; exact .inr ⟨h, rfl⟩
  | ok r =>
    obtain ⟨x, c'⟩ := r
    refine ⟨t ++ [], .ok (x, c), h1.bind (.pure _), h2.append .nil, fun E => ?_, fun _ _ => ?_⟩
    · rw [List.append_nil]
      unfold withCtx
      dsimp only
      rcases h3 E with ⟨h, h'⟩ | ⟨h, h'⟩
      · rw [h']; exact .inl ⟨h, rfl⟩
      · rw [h']; exact .inr ⟨h, rfl⟩
    · rw [List.append_nil]; exact h4 _ rfl

theorem relV_nested {q : GV α} {p : (Entry → Nat) → V α} (h : RelV lo d q p) : RelV (lo + 1) (d + 1) (GV.nested q) p := by
  intro c
  obtain ⟨t, out, h1, h2, h3, h4⟩ := h c
  have hd : Does (GV.nested q c) (Ask.call .validate :: (t ++ [Ask.back .validate])) out := Does.level .validate h1
  refine ⟨_, out, hd, ⟨h2.1.level fun w => by cases w <;> simp [just], fun x hx => ?_⟩, fun E => ?_, fun r hr => ?_⟩
  · rcases List.mem_cons.mp hx with rfl | hx
    · rfl
    · rcases List.mem_append.mp hx with hx | hx
      · exact h2.2 x hx
      · rw [List.mem_singleton.mp hx]; rfl
  · have e : Fits E (Ask.call .validate :: (t ++ [Ask.back .validate])) ↔ Fits E t := by
      have : Ask.call Work.validate :: (t ++ [Ask.back .validate]) = [Ask.call .validate] ++ (t ++ [Ask.back .validate]) := rfl
      rw [this, fits_append, fits_append, fits_one, fits_one]
      exact ⟨fun h => h.2.1, fun h => ⟨trivial, h, trivial⟩⟩
    unfold CountsV
    rw [e]
    exact h3 E
  · have := h4 r hr
    simp only [peak, peak_append, h2.1.done, change, if_true]
    omega

theorem relV_else : RelV 0 d GV.validateElse fun E => Room.validateElse (roomed bits build E) := relV_after fun _ => relV_pushFrame _ _
theorem relV_end : RelV 0 d GV.validateEnd fun E => Room.validateEnd (roomed bits build E) := relV_after fun _ => relV_pushOperands _

mutual

theorem relV_instr : ∀ (i : Instr) (d : Nat), depthI i ≤ d → RelV (depthI i) d (GV.validateInstr bits build i) fun E => Room.validateInstr (roomed bits build E) i
  | .block _ b, d, h => by
    simp only [depthI] at h ⊢
    have hb := (relV_nested (relV_expr b (d - 1) (by omega))).mono (d' := d) (by omega)
    exact relV_after fun _ => relV_then (relV_pushFrame _ _) fun _ => (relV_bind hb fun _ => relV_end).low (by omega)
  | .loop _ b, d, h => by
    simp only [depthI] at h ⊢
    have hb := (relV_nested (relV_expr b (d - 1) (by omega))).mono (d' := d) (by omega)
    exact relV_after fun _ => relV_then (relV_pushFrame _ _) fun _ => (relV_bind hb fun _ => relV_end).low (by omega)
  | .ifElse _ a b, d, h => by
    simp only [depthI] at h ⊢
    have ha := (relV_nested (relV_expr a (d - 1) (by omega))).mono (d' := d) (by omega)
    have hb := (relV_nested (relV_expr b (d - 1) (by omega))).mono (d' := d) (by omega)
    exact relV_after fun _ => relV_after fun _ => relV_then (relV_pushFrame _ _) fun _ => (relV_bind ha fun _ => relV_then relV_else fun _ => relV_bind hb fun _ => relV_end).low (by omega)
  | .elseMark, _, _ => relV_else
  | .endMark, _, _ => relV_end
  | .unreachable, _, _ => relV_lift _
  | .nop, _, _ => relV_pure _
  | .br _, _, _ => relV_after fun _ => relV_after fun _ => relV_lift _
  | .brIf _, _, _ => relV_after fun _ => relV_after fun _ => relV_after fun _ => relV_pushOperands _
  | .brTable _ _, _, _ => relV_after fun _ => relV_after fun _ => relV_after fun _ => relV_after fun _ => relV_lift _
  | .ret, _, _ => by
    refine relV_after fun c => ?_
    cases c.ret with
    | none => exact relV_fail _
    | some t => exact relV_after fun _ => relV_lift _
  | .call _, _, _ => relV_after fun _ => relV_after fun _ => relV_pushOperands _
  | .callIndirect _ _, _, _ => relV_after fun _ => relV_after fun _ => relV_ite (relV_after fun _ => relV_after fun _ => relV_pushOperands _) (relV_fail _)
  | .drop, _, _ => relV_after fun _ => relV_pure _
  | .select, _, _ => relV_after fun _ => relV_after fun _ => relV_after fun _ => relV_pushOperand _
  | .localGet _, _, _ => relV_after fun _ => relV_pushOperands _
  | .localSet _, _, _ => relV_after fun _ => relV_lift _
  | .localTee _, _, _ => relV_after fun _ => relV_after fun _ => relV_pushOperands _
  | .globalGet _, _, _ => relV_after fun _ => relV_pushOperands _
  | .globalSet _, _, _ => relV_after fun _ => relV_ite (relV_lift _) (relV_fail _)
  | .load _ _ _, _, _ => relV_after fun _ => relV_after fun _ => relV_pushOperands _
  | .store _ _ _, _, _ => relV_lift _
  | .memSize _, _, _ => relV_after fun _ => relV_pushOperands _
  | .memGrow _, _, _ => relV_after fun _ => relV_after fun _ => relV_pushOperands _
  | .constI32 _, _, _ => relV_pushOperands _
  | .constI64 _, _, _ => relV_pushOperands _
  | .constF32 _, _, _ => relV_pushOperands _
  | .constF64 _, _, _ => relV_pushOperands _
  | .num _, _, _ => relV_after fun _ => relV_pushOperands _

theorem relV_expr : ∀ (e : List Instr) (d : Nat), depthL e ≤ d → RelV (depthL e) d (GV.validateExpr bits build e) fun E => Room.validateExpr (roomed bits build E) e
  | [], _, _ => relV_pure _
  | i :: is, d, h => by
    simp only [depthL] at h ⊢
    exact relV_bind (relV_instr i d (by omega)) fun _ => relV_expr is d (by omega)

end

theorem relV_constExpr : ∀ (e : List Instr) (d : Nat), depthL e ≤ d → RelV (depthL e) d (GV.validateConstExpr bits build e) fun E => Room.validateConstExpr (roomed bits build E) e
  | [], _, _ => relV_pure _
  | i :: is, d, h => by
    simp only [depthL] at h ⊢
    exact relV_after fun _ => relV_bind (relV_instr i d (by omega)) fun _ => relV_constExpr is d (by omega)

theorem relV_useGlobals (gs : List Global) : RelV 0 d (GV.useGlobals gs) fun E => Room.useGlobals (roomed bits build E) gs := relV_forEach (fun _ => relV_push _ _ _) gs

theorem relV_context (m : Module) : RelV 0 d (GV.contextFrom m) fun E => Room.contextFrom (roomed bits build E) m := by
  refine relV_then (relV_forEach (fun _ => relV_push _ _ _) _) fun _ => relV_then (relV_forEach (fun i => ?_) _) fun _ => relV_then (relV_forEach (fun i => ?_) _) fun _ =>
    relV_then (relV_forEach (fun i => ?_) _) fun _ => relV_then (relV_forEach (fun i => ?_) _) fun _ =>
    relV_then (relV_forEach (fun i => ?_) _) fun _ => relV_then (relV_forEach (fun i => relV_push _ _ _) _) fun _ =>
    relV_then (relV_forEach (fun i => relV_push _ _ _) _) fun _ => relV_useGlobals _
  · cases i.desc with
    | func x => exact relV_after fun _ => relV_push _ _ _
    | _ => exact relV_pure _
  · cases i.desc <;> first | exact relV_push _ _ _ | exact relV_pure _
  · cases i.desc <;> first | exact relV_push _ _ _ | exact relV_pure _
  · cases i.desc <;> first | exact relV_push _ _ _ | exact relV_pure _
  · exact relV_after fun _ => relV_push _ _ _

theorem relV_func {f : Func} (h : depthL f.body ≤ d) : RelV (depthL f.body) d (GV.validateFunc bits build f) fun E => Room.validateFunc (roomed bits build E) f :=
  relV_after fun _ => relV_then (relV_reserve _ _) fun _ => relV_after fun _ => relV_then (relV_pushFrame _ _) fun _ => (relV_bind (relV_expr _ d h) fun _ =>
    relV_after fun _ => relV_after fun _ => relV_after fun _ => relV_pure _).low (Nat.le_max_left ..)

theorem relV_init (t : List Val) {e : ConstExpr} (h : depthL e ≤ d) : RelV (depthL e) d (GV.validateInit bits build t e) fun E => Room.validateInit (roomed bits build E) t e :=
  relV_then (relV_pushFrame _ _) fun _ => (relV_bind (relV_constExpr _ d h) fun _ => relV_after fun _ => relV_lift _).low (Nat.le_max_left ..)

theorem relV_global {g : Global} (h : depthL g.init ≤ d) : RelV (depthL g.init) d (GV.validateGlobal bits build g) fun E => Room.validateGlobal (roomed bits build E) g :=
  relV_after fun _ => (relV_bind (relV_init _ h) fun _ => relV_pure _).low (Nat.le_max_left ..)

theorem relV_elem {e : Elem} (h : depthL e.offset ≤ d) : RelV (depthL e.offset) d (GV.validateElem bits build e) fun E => Room.validateElem (roomed bits build E) e :=
  relV_after fun _ => relV_ite ((relV_bind (relV_init _ h) fun _ => relV_forEach (fun _ => relV_after fun _ => relV_pure _) _).low (Nat.le_max_left ..)) (relV_fail _)

theorem relV_data {e : Data} (h : depthL e.offset ≤ d) : RelV (depthL e.offset) d (GV.validateData bits build e) fun E => Room.validateData (roomed bits build E) e :=
  relV_after fun _ => relV_init _ h

theorem relV_names {q : GV α} {p : (Entry → Nat) → V α} (n : Nat) (h : RelV lo d q p) :
    RelV lo d (GV.reserve .names n >>= fun _ => GV.scratch n >>= fun _ => q) fun E => Room.reserve (roomed bits build E) .names n >>= fun _ => p E := by
  intro c
  obtain ⟨t, out, h1, h2, h3, h4⟩ := h c
  have s1 : Does (GV.reserve .names n c) [Ask.entry .names 0 n] (.ok ((), c)) := (Does.ask _).map fun _ => _
  have s2 : Does (GV.scratch n c) [Ask.scratch n] (.ok ((), c)) := (Does.ask _).map fun _ => _
  refine ⟨[Ask.entry .names 0 n] ++ ([Ask.scratch n] ++ t), out, s1.bind (s2.bind h1), (askedV_one (a := .entry .names 0 n) (fun _ => rfl) trivial).append ((askedV_one (a := .scratch n) (fun _ => rfl) trivial).append h2), fun E => ?_, fun r hr => ?_⟩
  · unfold CountsV
    rw [fits_append, fits_append, fits_one, fits_one]
    simp only [Has, Nat.zero_add]
    by_cases hn : n ≤ E .names
    · have e : Room.reserve (roomed bits build E) .names n c = .ok ((), c) := if_pos hn
      rw [bind_ok e]
      rcases h3 E with ⟨g, g'⟩ | ⟨g, g'⟩
      · exact .inl ⟨⟨hn, hn, g⟩, g'⟩
      · exact .inr ⟨fun h => g h.2.2, g'⟩
    · exact .inr ⟨fun h => hn h.1, bind_err (if_neg hn)⟩
  · have := h4 r hr
    rw [peak_append, peak_append]
    simp only [peak, levels, change]
    omega

theorem relV_body {m : Module} (h : NestsAtMost d m) : RelV (depthM m) d (GV.validateModuleBody bits build m) fun E => Room.validateModuleBody (roomed bits build E) m := by
  have key : RelV (max (most (fun f => depthL f.body) m.funcs) (max (most (fun g => depthL g.init) m.globals) (max (most (fun e => depthL e.offset) m.elem) (max (most (fun e => depthL e.offset) m.data) 0)))) d
      (GV.validateModuleBody bits build m) fun E => Room.validateModuleBody (roomed bits build E) m := by
    refine relV_then (relV_withCtx _ (relV_useGlobals _)) fun _ => relV_then (relV_forEach (fun _ => relV_lift _) _) fun _ =>
      relV_bind (relV_forEach_mem _ fun f hf => relV_drop (relV_func (h.funcs f hf))) fun _ => relV_then (relV_forEach (fun _ => relV_after fun _ => relV_pure _) _) fun _ =>
      relV_then (relV_forEach (fun _ => relV_after fun _ => relV_pure _) _) fun _ =>
      relV_bind (relV_withCtx _ (relV_then (relV_useGlobals _) fun _ => relV_forEach_mem _ fun g hg => relV_drop (relV_global (h.globals g hg)))) fun _ =>
      relV_bind (relV_forEach_mem _ fun e he => relV_elem (h.elem e he)) fun _ => relV_bind (relV_forEach_mem _ fun e he => relV_data (h.data e he)) fun _ => ?_
    have hrest : RelV 0 d (do
        GV.reserve .externals m.imports.length
        let imports ← GV.collect (fun i => GV.lift (validateImport i)) m.imports
        GV.reserve .externals m.exports.length
        let exports ← GV.collect (fun e => GV.lift (validateExport e)) m.exports
        if ¬ (m.tables.length ≤ 1) then GV.fail .invalid
        else if ¬ (m.mems.length ≤ 1) then GV.fail .invalid
        else do
          GV.reserve .names m.exports.length
          GV.scratch m.exports.length
          let exportNames := m.exports.map (·.name)
          let exportNames := dedup (sortNames exportNames)
          if exportNames.length ≠ m.exports.length then GV.fail .invalid
          else pure ({ imports := imports, exports := exports } : ModuleResult)) fun E => (do
        Room.reserve (roomed bits build E) .externals m.imports.length
        let imports ← collect validateImport m.imports
        Room.reserve (roomed bits build E) .externals m.exports.length
        let exports ← collect validateExport m.exports
        if ¬ (m.tables.length ≤ 1) then V.fail .invalid
        else if ¬ (m.mems.length ≤ 1) then V.fail .invalid
        else do
          Room.reserve (roomed bits build E) .names m.exports.length
          let exportNames := m.exports.map (·.name)
          let exportNames := dedup (sortNames exportNames)
          if exportNames.length ≠ m.exports.length then V.fail .invalid
          else pure { imports := imports, exports := exports }) :=
      relV_then (relV_reserve _ _) fun _ => relV_then (p := fun _ => collect validateImport m.imports) (relV_collect (fun _ => relV_lift _) _) fun _ => relV_then (relV_reserve _ _) fun _ =>
        relV_then (p := fun _ => collect validateExport m.exports) (relV_collect (fun _ => relV_lift _) _) fun _ => relV_ite (relV_ite (relV_names _ (relV_ite (relV_pure _) (relV_fail _))) (relV_fail _)) (relV_fail _)
    cases m.start with
    | none => exact hrest
    | some s => exact relV_after fun _ => hrest
  exact key.low (by unfold depthM; omega)

theorem relV_module (bits : Nat) (build : Build) {m : Module} (h : NestsAtMost d m) : ∃ t out, Does (GV.validateModule bits build m) t out ∧ AskedV d t ∧
    (∀ E, CountsV E t out (Room.validateModule (roomed bits build E) m)) ∧ ∀ r, out = .ok r → depthM m ≤ peak .validate t := by
  obtain ⟨t, out, h1, h2, h3, h4⟩ := relV_then (relV_context (bits := bits) (build := build) (d := d) m) (fun _ => relV_body (bits := bits) (build := build) h) {}
  unfold Room.validateModule GV.validateModule
  cases out with
  | error e =>
    refine ⟨t ++ [], .error e, h1.bind (.pure _), h2.append .nil, fun E => ?_, fun _ h => by cases h⟩
    rw [List.append_nil]
    rcases h3 E with ⟨g, g'⟩ | ⟨g, g'⟩
    · dsimp only at g'; rw [g']; exact .inl ⟨g, rfl⟩
    · dsimp only at g'; rw [g']; exact .inr ⟨g, rfl⟩
  | ok r =>
    obtain ⟨x, c⟩ := r
    refine ⟨t ++ [], .ok x, h1.bind (.pure _), h2.append .nil, fun E => ?_, fun _ h => ?_⟩
    · rw [List.append_nil]
      rcases h3 E with ⟨g, g'⟩ | ⟨g, g'⟩
      · dsimp only at g'; rw [g']; exact .inl ⟨g, rfl⟩
      · dsimp only at g'; rw [g']; exact .inr ⟨g, rfl⟩
    · rw [List.append_nil]; exact h4 _ rfl

end

end Whasm.Grant
