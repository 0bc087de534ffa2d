import Verif.Model.Process
import Verif.Spec.Process
import Verif.Lemmas.Utf8
import Verif.Lemmas.DebugInstr
import Verif.Props.Cli

/-!
# The process and the operating system
-/

namespace Whasm.Process
open Spec

/-! ## Text -/

theorem utf8_append (a b : List Char) : utf8 (a ++ b) = utf8 a ++ utf8 b := by simp [utf8]

theorem utf8_inj {a b : List Char} (h : utf8 a = utf8 b) : a = b := by
  rw [← nameChars_flatMap a, ← nameChars_flatMap b]
  exact congrArg nameChars h

/-- The arguments as the process gets them. -/
def bytesOf (ss : List String) : List (List Byte) := ss.map fun s => utf8 s.toList

theorem exists_strings : ∀ {argv : List (List Byte)}, (∀ a ∈ argv, IsUtf8 a) → ∃ ss, argv = bytesOf ss
  | [], _ => ⟨[], rfl⟩
  | a :: as, h => by
    obtain ⟨cs, hc⟩ := h a List.mem_cons_self
    obtain ⟨ss, hs⟩ := exists_strings fun b hb => h b (List.mem_cons_of_mem _ hb)
    exact ⟨String.ofList cs :: ss, by simp only [bytesOf, List.map_cons, String.toList_ofList]; rw [hs]; exact congrArg (· :: _) hc⟩

theorem bytesOf_utf8 {ss : List String} : ∀ a ∈ bytesOf ss, IsUtf8 a := by
  intro a ha
  obtain ⟨s, _, rfl⟩ := List.mem_map.mp ha
  exact ⟨s.toList, rfl⟩

theorem collectArgs_ok : ∀ (ss : List String) (c : Console), collectArgs (bytesOf ss) c = (.ok ss, c)
  | [], _ => rfl
  | s :: ss, c => by
    have h : validUtf8 (utf8 s.toList) = true := (validUtf8_iff _).mpr ⟨_, rfl⟩
    have h2 : nameChars (utf8 s.toList) = s.toList := nameChars_flatMap _
    show collectArgs (utf8 s.toList :: bytesOf ss) c = _
    simp only [collectArgs, h, if_true, bind, Exec.bind, collectArgs_ok ss, h2, String.ofList_toList]
    rfl

theorem collectArgs_panic : ∀ {argv : List (List Byte)} (c : Console), (∃ a ∈ argv, ¬ IsUtf8 a) → collectArgs argv c = (.error (.exit 101), c)
  | [], _, h => by obtain ⟨_, h, _⟩ := h; cases h
  | b :: bs, c, h => by
    by_cases hb : validUtf8 b = true
    · have : ∃ a ∈ bs, ¬ IsUtf8 a := by
        obtain ⟨a, ha, hn⟩ := h
        rcases List.mem_cons.mp ha with rfl | ha
        · exact absurd ((validUtf8_iff _).mp hb) hn
        · exact ⟨a, ha, hn⟩
      simp only [collectArgs, hb, if_true, bind, Exec.bind, collectArgs_panic c this]
    · simp only [collectArgs, hb]
      rfl

/-! ## The named file -/

theorem utf8_eq_iff {s t : String} : utf8 s.toList = utf8 t.toList ↔ s = t :=
  ⟨fun h => String.toList_inj.mp (utf8_inj h), fun h => h ▸ rfl⟩

theorem filter_map_names : ∀ ss : List String,
    (bytesOf ss).filter (fun a => ¬ (a = utf8 "-p".toList ∨ a = utf8 "--print".toList)) = bytesOf (names ss)
  | [] => rfl
  | s :: ss => by
    have ih := filter_map_names ss
    unfold names at ih ⊢
    show List.filter _ (utf8 s.toList :: bytesOf ss) = _
    rw [List.filter_cons, List.filter_cons]
    simp only [utf8_eq_iff] at ih ⊢
    split
    · rw [ih]; rfl
    · exact ih

theorem namedFile_bytes (s : String) (ss : List String) : namedFile (bytesOf (s :: ss)) = (names ss).getLast?.map fun n => utf8 n.toList := by
  show (List.filter _ (bytesOf ss)).getLast? = _
  rw [filter_map_names, bytesOf, List.getLast?_map]

theorem namedFile_nil : namedFile (bytesOf []) = none := rfl

theorem flagged_bytes (s : String) (ss : List String) : flagged (bytesOf (s :: ss)) ↔ wantsPrint ss := by
  have : ∀ t : String, utf8 t.toList ∈ bytesOf ss ↔ t ∈ ss := by
    intro t
    simp only [bytesOf, List.mem_map]
    exact ⟨fun ⟨x, hx, h⟩ => by rw [utf8_eq_iff] at h; exact h ▸ hx, fun h => ⟨t, h, rfl⟩⟩
  simp only [flagged, bytesOf, List.map_cons, List.tail_cons, wantsPrint]
  exact or_congr (this _) (this _)

theorem utf8_nil {s : String} : utf8 s.toList = [] ↔ s = "" := by
  rw [← utf8_eq_iff (t := "")]; rfl

/-! ## Reading -/

theorem read_holds {f : Nat → ReadEvent} {i : Nat} {b : List Byte} (h : HoldsFrom f i b) :
    ∃ k, ∀ fuel ≥ k, ∀ buffer c, readToEnd f fuel i buffer c = (.ok (.ok (buffer ++ b)), ⟨c.out, c.calls ++ List.replicate k .read⟩) := by
  induction h with
  | done h =>
    refine ⟨1, fun fuel hf buffer c => ?_⟩
    obtain ⟨fuel, rfl⟩ : ∃ n, fuel = n + 1 := ⟨fuel - 1, by omega⟩
    simp only [readToEnd, h, List.append_nil]; rfl
  | @piece i b rest h hne _ ih =>
    obtain ⟨k, ih⟩ := ih
    refine ⟨k + 1, fun fuel hf buffer c => ?_⟩
    obtain ⟨fuel, rfl⟩ : ∃ n, fuel = n + 1 := ⟨fuel - 1, by omega⟩
    cases b with
    | nil => exact absurd rfl hne
    | cons x b => simp only [readToEnd, h, ih fuel (by omega), List.append_assoc, List.replicate_succ, List.singleton_append]
  | again h _ ih =>
    obtain ⟨k, ih⟩ := ih
    refine ⟨k + 1, fun fuel hf buffer c => ?_⟩
    obtain ⟨fuel, rfl⟩ : ∃ n, fuel = n + 1 := ⟨fuel - 1, by omega⟩
    simp only [readToEnd, h, ih fuel (by omega), List.append_assoc, List.replicate_succ, List.singleton_append]

theorem read_fails_from {f : Nat → ReadEvent} {m : List Char} : ∀ (d i : Nat), f (i + d) = .failed m → (∀ j < i + d, i ≤ j → More (f j)) →
    ∀ fuel ≥ d + 1, ∀ buffer c, readToEnd f fuel i buffer c = (.ok (.error m), ⟨c.out, c.calls ++ List.replicate (d + 1) .read⟩)
  | 0, i, h, _, fuel, hf, buffer, c => by
    obtain ⟨fuel, rfl⟩ : ∃ n, fuel = n + 1 := ⟨fuel - 1, by omega⟩
    rw [Nat.add_zero] at h
    simp only [readToEnd, h]; rfl
  | d + 1, i, h, hm, fuel, hf, buffer, c => by
    obtain ⟨fuel, rfl⟩ : ∃ n, fuel = n + 1 := ⟨fuel - 1, by omega⟩
    have h' : f (i + 1 + d) = .failed m := by rw [← h]; congr 1; omega
    have ih := read_fails_from d (i + 1) h' (fun j hj hi => hm j (by omega) (by omega)) fuel (by omega)
    have h1 := hm i (by omega) (by omega)
    rcases hi : f i with b | _ | m'
    · cases b with
      | nil => rw [hi] at h1; exact absurd rfl h1
      | cons x b => simp only [readToEnd, hi, ih, List.append_assoc, List.replicate_succ (n := d + 1), List.singleton_append]
    · simp only [readToEnd, hi, ih, List.append_assoc, List.replicate_succ (n := d + 1), List.singleton_append]
    · rw [hi] at h1; exact h1.elim

theorem read_fails {f : Nat → ReadEvent} {m : List Char} (h : Fails f m) :
    ∃ k, ∀ fuel ≥ k, ∀ buffer c, readToEnd f fuel 0 buffer c = (.ok (.error m), ⟨c.out, c.calls ++ List.replicate k .read⟩) := by
  obtain ⟨i, hi, hm⟩ := h
  exact ⟨i + 1, read_fails_from i 0 (by rw [Nat.zero_add]; exact hi) (fun j hj _ => hm j (by omega))⟩

theorem read_more {f : Nat → ReadEvent} : ∀ (fuel i : Nat), (∀ j ≥ i, j < i + fuel → More (f j)) →
    ∀ buffer c, readToEnd f fuel i buffer c = (.error .reading, ⟨c.out, c.calls ++ List.replicate fuel .read⟩)
  | 0, i, _, buffer, c => by simp [readToEnd]
  | fuel + 1, i, h, buffer, c => by
    have ih := read_more fuel (i + 1) (fun j hj hl => h j (by omega) (by omega))
    have h1 := h i (by omega) (by omega)
    rcases hi : f i with b | _ | m'
    · cases b with
      | nil => rw [hi] at h1; exact absurd rfl h1
      | cons x b => simp only [readToEnd, hi, ih, List.append_assoc, List.replicate_succ (n := fuel), List.singleton_append]
    · simp only [readToEnd, hi, ih, List.append_assoc, List.replicate_succ (n := fuel), List.singleton_append]
    · rw [hi] at h1; exact h1.elim

/-- A bound on the calls of `read` either is reached or does not matter. -/
theorem read_settled (f : Nat → ReadEvent) : ∀ (fuel i : Nat) (buffer : List Byte) (c : Console),
    readToEnd f fuel i buffer c = (.error .reading, ⟨c.out, c.calls ++ List.replicate fuel .read⟩) ∨
    ∀ fuel' ≥ fuel, readToEnd f fuel' i buffer c = readToEnd f fuel i buffer c
  | 0, i, buffer, c => .inl (by simp [readToEnd])
  | fuel + 1, i, buffer, c => by
    have ih := fun b => read_settled f fuel (i + 1) b ⟨c.out, c.calls ++ [.read]⟩
    simp only [List.append_assoc, List.singleton_append, ← List.replicate_succ] at ih
    have up : ∀ {p : Nat → Prop}, (∀ x ≥ fuel, p (x + 1)) → ∀ x ≥ fuel + 1, p x := by
      intro p h x hx
      obtain ⟨x, rfl⟩ : ∃ n, x = n + 1 := ⟨x - 1, by omega⟩
      exact h x (by omega)
    rcases hi : f i with b | _ | m
    · cases b with
      | nil => exact .inr (up fun x _ => by simp only [readToEnd, hi])
      | cons y b =>
        rcases ih (buffer ++ y :: b) with h | h
        · exact .inl (by simp only [readToEnd, hi]; exact h)
        · exact .inr (up fun x hx => by simp only [readToEnd, hi]; exact h x hx)
    · rcases ih buffer with h | h
      · exact .inl (by simp only [readToEnd, hi]; exact h)
      · exact .inr (up fun x hx => by simp only [readToEnd, hi]; exact h x hx)
    · exact .inr (up fun x _ => by simp only [readToEnd, hi])

theorem holds_from {f : Nat → ReadEvent} : ∀ (d i : Nat), f (i + d) = .bytes [] → (∀ j < i + d, i ≤ j → More (f j)) → ∃ b, HoldsFrom f i b
  | 0, i, h, _ => ⟨[], .done h⟩
  | d + 1, i, h, hm => by
    have h' : f (i + 1 + d) = .bytes [] := by rw [← h]; congr 1; omega
    obtain ⟨b, hb⟩ := holds_from d (i + 1) h' (fun j hj hi => hm j (by omega) (by omega))
    have h1 := hm i (by omega) (by omega)
    rcases hi : f i with x | _ | m'
    · rw [hi] at h1; exact ⟨_, .piece hi h1 hb⟩
    · exact ⟨_, .again hi hb⟩
    · rw [hi] at h1; exact h1.elim

/-- Every file has an end, fails, or goes on for ever. -/
theorem file_cases (f : Nat → ReadEvent) : (∃ b, Holds f b) ∨ (∃ m, Fails f m) ∨ Endless f := by
  by_cases h : Endless f
  · exact .inr (.inr h)
  · have : ∃ i, ¬ More (f i) := Classical.not_forall.mp h
    obtain ⟨i, hi, hm⟩ : ∃ i, ¬ More (f i) ∧ ∀ j < i, More (f j) := by
      obtain ⟨n, hn⟩ := this
      induction n using Nat.strongRecOn with
      | ind n ih =>
        by_cases hx : ∃ j < n, ¬ More (f j)
        · obtain ⟨j, hj, hnj⟩ := hx; exact ih j hj hnj
        · exact ⟨n, hn, fun j hj => Classical.byContradiction fun hc => hx ⟨j, hj, hc⟩⟩
    rcases hf : f i with b | _ | m
    · have : b = [] := by
        rw [hf] at hi
        exact Classical.byContradiction fun h => hi h
      subst this
      exact .inl (holds_from i 0 (by rw [Nat.zero_add]; exact hf) (fun j hj _ => hm j (by omega)))
    · rw [hf] at hi; exact absurd trivial hi
    · exact .inr (.inl ⟨m, i, hf, hm⟩)

/-! ## Writing -/

/-- What is written by `println!`, line after line. -/
def printAll (sys : System) : List (List Char) → Exec Unit
  | [] => pure ()
  | l :: ls => do
    println sys l
    printAll sys ls

/-- The bytes of these lines. -/
def lineBytes (ls : List (List Char)) : List Byte := utf8 (ls.flatMap (· ++ ['\n']))

theorem lineBytes_cons (l : List Char) (ls : List (List Char)) : lineBytes (l :: ls) = utf8 (l ++ ['\n']) ++ lineBytes ls := by
  simp only [lineBytes, List.flatMap_cons, utf8_append]

theorem printAll_eq (sys : System) : ∀ (ls : List (List Char)) (c : Console), c.out.length ≤ sys.room →
    ∃ ws : List (List Byte), printAll sys ls c = (if c.out.length + (lineBytes ls).length ≤ sys.room then .ok () else .error (.exit 101),
      ⟨c.out ++ (lineBytes ls).take (sys.room - c.out.length), c.calls ++ ws.map .write⟩) ∧ ws.flatten = (lineBytes ls).take (sys.room - c.out.length)
  | [], c, h => by
    refine ⟨[], ?_, ?_⟩
    · simp only [printAll, lineBytes, List.flatMap_nil, utf8, List.length_nil, Nat.add_zero, if_pos h, List.take_nil, List.append_nil, List.map_nil]; rfl
    · simp [lineBytes, utf8]
  | l :: ls, c, h => by
    simp only [printAll, bind, Exec.bind, println]
    by_cases hl : (utf8 (l ++ ['\n'])).length ≤ sys.room - c.out.length
    · simp only [if_pos hl]
      rw [List.take_of_length_le hl]
      obtain ⟨ws, h1, h2⟩ := printAll_eq sys ls ⟨c.out ++ utf8 (l ++ ['\n']), c.calls ++ [.write (utf8 (l ++ ['\n']))]⟩ (by simp only [List.length_append]; omega)
      refine ⟨utf8 (l ++ ['\n']) :: ws, ?_, ?_⟩
      · rw [h1, lineBytes_cons]
        simp only [List.length_append, List.append_assoc, List.map_cons, List.singleton_append, List.take_append, List.take_of_length_le hl]
        refine Prod.ext ?_ ?_
        · simp only [Nat.add_assoc]
        · simp only [Nat.sub_sub]
      · rw [List.flatten_cons, h2, lineBytes_cons, List.take_append, List.take_of_length_le hl]
        simp only [List.length_append, Nat.sub_sub]
    · simp only [if_neg hl]
      refine ⟨[(utf8 (l ++ ['\n'])).take (sys.room - c.out.length)], ?_, ?_⟩
      · rw [lineBytes_cons, if_neg (by simp only [List.length_append]; omega), List.take_append_of_le_length (by omega)]
        rfl
      · rw [lineBytes_cons, List.take_append_of_le_length (by omega)]; simp

/-! ## `main` -/

/-- The texts that `main` gives to `println!`, without the line breaks. -/
def linesOf (std : StdText) (r : Run) : List (List Char) := r.lines ++ r.module.toList.map (dbgModule std)

theorem lineBytes_linesOf (std : StdText) (r : Run) : lineBytes (linesOf std r) = utf8 (r.stdout std) := by
  unfold lineBytes linesOf Run.stdout
  rw [List.flatMap_append]
  cases r.module <;> simp

/-- The run with these lines and this exit code, once nothing more is to be read. -/
def finish (sys : System) (ls : List (List Char)) (code : Nat) : Exec Unit := do
  printAll sys ls
  if code = 0 then pure () else exit code

theorem bind_assoc {α β γ : Type} (p : Exec α) (f : α → Exec β) (g : β → Exec γ) : Exec.bind (Exec.bind p f) g = Exec.bind p fun x => Exec.bind (f x) g := by
  funext c
  simp only [Exec.bind]
  rcases p c with ⟨_ | _, _⟩ <;> rfl

theorem pure_bind' {α β : Type} (x : α) (f : α → Exec β) : Exec.bind (Exec.pure x) f = f x := rfl

theorem report_eq (sys : System) (a b : List Char) : report (α := Unit) sys a b = finish sys [a, b] 1 := by
  show Exec.bind (println sys a) (fun _ => Exec.bind (println sys b) fun _ => exit 1) =
    Exec.bind (Exec.bind (println sys a) fun _ => Exec.bind (println sys b) fun _ => Exec.pure ()) fun _ => exit 1
  rw [bind_assoc]
  congr 1
  funext _
  rw [bind_assoc]
  rfl

/-- What opening and reading comes to. -/
inductive Answers (sys : System) (path : List Byte) : FileResult → Prop
  | cannotOpen {m : List Char} : sys.file path = .error m → Answers sys path (.cannotOpen m)
  | cannotRead {f : Nat → ReadEvent} {m : List Char} : sys.file path = .ok f → Fails f m → Answers sys path (.cannotRead m)
  | contents {f : Nat → ReadEvent} {b : List Byte} : sys.file path = .ok f → Holds f b → Answers sys path (.contents b)

variable {std : StdText} {sys : System}

/-- The part of `main` after the arguments have been looked at. -/
theorem main_named {s : String} {ss : List String} {n : String} (hn : (names ss).getLast? = some n) (hne : n ≠ "") {fr : FileResult}
    (h : Answers sys (utf8 n.toList) fr) : ∃ k j, ∀ fuel ≥ k, ∀ c, main std sys fuel (bytesOf (s :: ss)) c =
      finish sys (linesOf std (mainRun (s :: ss) fun _ => fr)) (mainRun (s :: ss) fun _ => fr).exit
        ⟨c.out, c.calls ++ .openFile (utf8 n.toList) :: List.replicate j .read⟩ := by
  have hc : configNew (s :: ss) = some ⟨n, decide (wantsPrint ss)⟩ := by
    rw [configNew_eq]; simp only [hn, Option.getD_some, if_neg hne]
  cases h with
  | @cannotOpen m h =>
    refine ⟨0, 0, fun fuel _ c => ?_⟩
    simp only [main, bind, Exec.bind, collectArgs_ok, hc, openFile, h, mainRun, report_eq]
    rfl
  | @cannotRead f m h hf =>
    obtain ⟨k, hk⟩ := read_fails hf
    refine ⟨k, k, fun fuel hf c => ?_⟩
    simp only [main, bind, Exec.bind, collectArgs_ok, hc, openFile, h, hk fuel hf, mainRun, report_eq, List.append_assoc, List.singleton_append]
    rfl
  | @contents f b h hf =>
    obtain ⟨k, hk⟩ := read_holds hf
    refine ⟨k, k, fun fuel hf c => ?_⟩
    simp only [main, bind, Exec.bind, collectArgs_ok, hc, openFile, h, hk fuel hf, mainRun, report_eq, List.append_assoc, List.singleton_append, List.nil_append]
    cases (parseModule b).1 with
    | error e => rfl
    | ok m =>
      simp only
      cases validateModule m with
      | error e => rfl
      | ok r =>
        simp only
        by_cases hp : wantsPrint ss
        · simp only [hp, decide_true, if_true, finish, linesOf, bind, Exec.bind, printAll, Option.toList, List.map_cons, List.map_nil, List.nil_append]
          rcases println sys (dbgModule std m) _ with ⟨_ | _, _⟩ <;> rfl
        · simp only [hp, decide_false, finish, linesOf]; rfl

theorem main_unnamed {ss : List String} (hn : (names ss.tail).getLast?.getD "" = "") (fr : FileResult) (fuel : Nat) (c : Console) :
    main std sys fuel (bytesOf ss) c = finish sys (linesOf std (mainRun ss fun _ => fr)) (mainRun ss fun _ => fr).exit c := by
  cases ss with
  | nil =>
    simp only [main, bind, Exec.bind, collectArgs_ok, configNew, mainRun, finish, linesOf, printAll, List.append_nil, Option.toList, List.map_nil]
    rcases println sys _ c with ⟨_ | _, _⟩ <;> rfl
  | cons s ss =>
    have hc : configNew (s :: ss) = none := by rw [configNew_eq]; simp only [List.tail_cons] at hn; simp only [hn, if_true]
    simp only [main, bind, Exec.bind, collectArgs_ok, hc, mainRun, finish, linesOf, printAll, List.append_nil, Option.toList, List.map_nil]
    rcases println sys _ c with ⟨_ | _, c'⟩
    · rfl
    · simp only
      rcases println sys _ c' with ⟨_ | _, _⟩ <;> rfl

theorem main_endless {s : String} {ss : List String} {n : String} (hn : (names ss).getLast? = some n) (hne : n ≠ "") {f : Nat → ReadEvent}
    (hf : sys.file (utf8 n.toList) = .ok f) {fuel : Nat} (h : ∀ i < fuel, More (f i)) (c : Console) : main std sys fuel (bytesOf (s :: ss)) c =
      (.error .reading, ⟨c.out, c.calls ++ .openFile (utf8 n.toList) :: List.replicate fuel .read⟩) := by
  have hc : configNew (s :: ss) = some ⟨n, decide (wantsPrint ss)⟩ := by
    rw [configNew_eq]; simp only [hn, Option.getD_some, if_neg hne]
  simp only [main, bind, Exec.bind, collectArgs_ok, hc, openFile, hf, read_more fuel 0 (fun j _ hj => h j (by omega)), List.append_assoc, List.singleton_append]

theorem main_settled (ss : List String) (fuel : Nat) :
    (∃ path, namedFile (bytesOf ss) = some path ∧ process std sys fuel (bytesOf ss) = (.reading, ⟨[], .openFile path :: List.replicate fuel .read⟩)) ∨
    ∀ fuel' ≥ fuel, process std sys fuel' (bytesOf ss) = process std sys fuel (bytesOf ss) := by
  cases hc : configNew ss with
  | none => exact .inr fun fuel' _ => by simp only [process, main, bind, Exec.bind, collectArgs_ok, hc]
  | some config =>
    cases ss with
    | nil => cases hc
    | cons s ss =>
      have hn : namedFile (bytesOf (s :: ss)) = some (utf8 config.filename.toList) := by
        rw [configNew_eq] at hc
        rw [namedFile_bytes]
        cases hl : (names ss).getLast? with
        | none => rw [hl] at hc; simp at hc
        | some n =>
          rw [hl] at hc
          simp only [Option.getD_some] at hc
          split at hc
          · cases hc
          · cases hc; rfl
      cases hf : sys.file (utf8 config.filename.toList) with
      | error m => exact .inr fun fuel' _ => by simp only [process, main, bind, Exec.bind, collectArgs_ok, hc, openFile, hf]
      | ok f =>
        rcases read_settled f fuel 0 [] ⟨[], [.openFile (utf8 config.filename.toList)]⟩ with h | h
        · refine .inl ⟨_, hn, ?_⟩
          simp only [process, main, bind, Exec.bind, collectArgs_ok, hc, openFile, hf, List.nil_append, h, List.singleton_append]
        · refine .inr fun fuel' hf' => ?_
          simp only [process, main, bind, Exec.bind, collectArgs_ok, hc, openFile, hf, List.nil_append, h fuel' hf']

theorem finish_eq (ls : List (List Char)) (code : Nat) (c : Console) (h : c.out = []) : ∃ ws : List (List Byte),
    (match finish sys ls code c with
      | (.ok (), c) => (Stop.exit 0, c)
      | (.error e, c) => (e, c)) =
      (.exit (if (lineBytes ls).length ≤ sys.room then code else 101), ⟨(lineBytes ls).take sys.room, c.calls ++ ws.map .write⟩) ∧
    ws.flatten = (lineBytes ls).take sys.room := by
  obtain ⟨ws, h1, h2⟩ := printAll_eq sys ls c (by simp [h])
  simp only [h, List.length_nil, Nat.zero_add, Nat.sub_zero, List.nil_append] at h1 h2
  refine ⟨ws, ?_, h2⟩
  simp only [finish, bind, Exec.bind, h1]
  by_cases hl : (lineBytes ls).length ≤ sys.room
  · simp only [if_pos hl]
    by_cases hc : code = 0
    · simp only [hc, if_true]; rfl
    · simp only [hc, if_false]; rfl
  · simp only [if_neg hl]

end Whasm.Process
