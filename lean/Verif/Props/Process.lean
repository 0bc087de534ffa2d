import Verif.Lemmas.Process
import Verif.Props.Verdict
import Verif.Props.Debug

/-!
# Property C95: the exit code can be relied on, whatever the operating system does

`Model/Process.lean` is the tool with arguments that need not be Unicode, files that come in pieces, and a standard output that may stop taking bytes.
-/

namespace Whasm
open Spec Process

variable {std : StdText} {sys : System}

/-- **C95, arguments.** If any argument is not Unicode, also one that does not matter, the exit code is 101, nothing is written, and no file is opened. -/
theorem C95_arguments {argv : List (List Byte)} (h : ∃ a ∈ argv, ¬ IsUtf8 a) (fuel : Nat) : process std sys fuel argv = (.exit 101, {}) := by
  simp only [process, main, bind, Exec.bind, collectArgs_panic _ h]

theorem nameless_of {ss : List String} (h : (namedFile (bytesOf ss)).getD [] = []) : (names ss.tail).getLast?.getD "" = "" := by
  cases ss with
  | nil => rfl
  | cons s ss =>
    rw [namedFile_bytes] at h
    rw [List.tail_cons]
    cases hl : (names ss).getLast? with
    | none => rfl
    | some n => rw [hl] at h; simpa [utf8_nil] using h

theorem named_of {ss : List String} {path : List Byte} (h : namedFile (bytesOf ss) = some path) (hne : path ≠ []) :
    ∃ s ss' n, ss = s :: ss' ∧ (names ss').getLast? = some n ∧ n ≠ "" ∧ path = utf8 n.toList := by
  cases ss with
  | nil => rw [namedFile_nil] at h; cases h
  | cons s ss =>
    rw [namedFile_bytes] at h
    cases hl : (names ss).getLast? with
    | none => rw [hl] at h; cases h
    | some n =>
      rw [hl] at h
      cases h
      exact ⟨s, ss, n, rfl, hl, fun h => hne (by rw [h]; rfl), rfl⟩

/-- A run that comes to an end, with the calls that were made. -/
theorem runs {ss : List String} {fr : FileResult} (h : ∀ path, namedFile (bytesOf ss) = some path → path ≠ [] → Answers sys path fr) :
    ∃ k, ∃ pre : List Call, (∀ c ∈ pre, c = .read ∨ ∃ path, c = .openFile path ∧ namedFile (bytesOf ss) = some path) ∧
      (pre.countP (· != .read) ≤ 1) ∧ ∀ fuel ≥ k, ∃ ws : List (List Byte),
      process std sys fuel (bytesOf ss) = (.exit (if (utf8 ((mainRun ss fun _ => fr).stdout std)).length ≤ sys.room then (mainRun ss fun _ => fr).exit else 101),
        ⟨(utf8 ((mainRun ss fun _ => fr).stdout std)).take sys.room, pre ++ ws.map .write⟩) ∧
      ws.flatten = (utf8 ((mainRun ss fun _ => fr).stdout std)).take sys.room := by
  by_cases hp : (namedFile (bytesOf ss)).getD [] = []
  · refine ⟨0, [], by simp, by simp, fun fuel _ => ?_⟩
    obtain ⟨ws, h1, h2⟩ := finish_eq (sys := sys) (linesOf std (mainRun ss fun _ => fr)) (mainRun ss fun _ => fr).exit {} rfl
    rw [lineBytes_linesOf] at h1 h2
    refine ⟨ws, ?_, h2⟩
    unfold process
    rw [main_unnamed (nameless_of hp) fr]
    exact h1
  · obtain ⟨path, hx⟩ : ∃ path, namedFile (bytesOf ss) = some path := by
      cases hx : namedFile (bytesOf ss) with
      | none => rw [hx] at hp; exact absurd rfl hp
      | some p => exact ⟨p, rfl⟩
    rw [hx, Option.getD_some] at hp
    obtain ⟨s, ss', n, rfl, hn, hne, rfl⟩ := named_of hx hp
    obtain ⟨k, j, hk⟩ := main_named (std := std) (s := s) hn hne (h _ hx hp)
    refine ⟨k, .openFile (utf8 n.toList) :: List.replicate j .read, ?_, ?_, fun fuel hf => ?_⟩
    · intro c hc
      rcases List.mem_cons.mp hc with rfl | hc
      · exact .inr ⟨_, rfl, hx⟩
      · exact .inl (List.eq_of_mem_replicate hc)
    · rw [List.countP_cons, List.countP_replicate]; simp
    · obtain ⟨ws, h1, h2⟩ := finish_eq (sys := sys) (linesOf std (mainRun (s :: ss') fun _ => fr)) (mainRun (s :: ss') fun _ => fr).exit
        ⟨[], .openFile (utf8 n.toList) :: List.replicate j .read⟩ rfl
      rw [lineBytes_linesOf] at h1 h2
      refine ⟨ws, ?_, h2⟩
      unfold process
      rw [hk fuel hf]
      exact h1

/-- **C95, the run.** If the arguments are Unicode and the file is not endless, the process ends. Standard output has got as much as it takes of what the undisturbed tool writes
(C56, C64); the exit code is that of the undisturbed tool if this is everything, and 101 if not. -/
theorem C95_run {ss : List String} {fr : FileResult} (h : ∀ path, namedFile (bytesOf ss) = some path → path ≠ [] → Answers sys path fr) :
    ∃ k, ∀ fuel ≥ k,
      (process std sys fuel (bytesOf ss)).2.out = (utf8 ((mainRun ss fun _ => fr).stdout std)).take sys.room ∧
      (process std sys fuel (bytesOf ss)).1 =
        .exit (if (utf8 ((mainRun ss fun _ => fr).stdout std)).length ≤ sys.room then (mainRun ss fun _ => fr).exit else 101) := by
  obtain ⟨k, _, _, _, h⟩ := runs (std := std) h
  refine ⟨k, fun fuel hf => ?_⟩
  obtain ⟨_, h, _⟩ := h fuel hf
  rw [h]
  exact ⟨rfl, rfl⟩

/-- **C95, every case.** Opening a file fails, or it has contents, or reading it fails, or it is endless. -/
theorem C95_cases (sys : System) (path : List Byte) : (∃ fr, Answers sys path fr) ∨ ∃ f, sys.file path = .ok f ∧ Endless f := by
  cases h : sys.file path with
  | error m => exact .inl ⟨_, .cannotOpen h⟩
  | ok f =>
    rcases file_cases f with ⟨b, hb⟩ | ⟨m, hm⟩ | he
    · exact .inl ⟨_, .contents h hb⟩
    · exact .inl ⟨_, .cannotRead h hm⟩
    · exact .inr ⟨f, rfl, he⟩

/-- **C95, endless files.** The tool reads for ever and writes nothing, whatever it has read. -/
theorem C95_endless {ss : List String} {path : List Byte} (hp : namedFile (bytesOf ss) = some path) (hne : path ≠ []) {f : Nat → ReadEvent}
    (hf : sys.file path = .ok f) (h : Endless f) (fuel : Nat) :
    process std sys fuel (bytesOf ss) = (.reading, ⟨[], .openFile path :: List.replicate fuel .read⟩) := by
  obtain ⟨s, ss', n, rfl, hn, hn0, rfl⟩ := named_of hp hne
  unfold process
  rw [main_endless hn hn0 hf (fun i _ => h i)]
  rfl

/-- While the tool is reading, nothing has been written. -/
theorem waits {ss : List String} {path : List Byte} (hp : namedFile (bytesOf ss) = some path) (hne : path ≠ []) {f : Nat → ReadEvent}
    (hf : sys.file path = .ok f) {fuel : Nat} (h : ∀ i < fuel, More (f i)) :
    process std sys fuel (bytesOf ss) = (.reading, ⟨[], .openFile path :: List.replicate fuel .read⟩) := by
  obtain ⟨s, ss', n, rfl, hn, hn0, rfl⟩ := named_of hp hne
  unfold process
  rw [main_endless hn hn0 hf h]
  rfl

/-- **C95, no return.** Once the process has ended, a larger bound on the number of calls changes nothing; as long as it has not, it is reading the named file, and has written nothing. -/
theorem C95_settled (argv : List (List Byte)) (fuel : Nat) :
    (∃ path, namedFile argv = some path ∧ process std sys fuel argv = (.reading, ⟨[], .openFile path :: List.replicate fuel .read⟩)) ∨
    ∀ fuel' ≥ fuel, process std sys fuel' argv = process std sys fuel argv := by
  by_cases h : ∀ a ∈ argv, IsUtf8 a
  · obtain ⟨ss, rfl⟩ := exists_strings h
    exact main_settled ss fuel
  · simp only [Classical.not_forall] at h
    obtain ⟨a, ha, hn⟩ := h
    exact .inr fun fuel' _ => by rw [C95_arguments ⟨a, ha, hn⟩, C95_arguments ⟨a, ha, hn⟩]

/-- The file is not endless, or there is none: what it comes to. -/
theorem settled_run {ss : List String} {fuel code : Nat} (h : (process std sys fuel (bytesOf ss)).1 = .exit code) :
    ∃ fr, ∀ path, namedFile (bytesOf ss) = some path → path ≠ [] → Answers sys path fr := by
  cases hx : namedFile (bytesOf ss) with
  | none => exact ⟨.contents [], fun _ h => by cases h⟩
  | some path =>
    by_cases hne : path = []
    · exact ⟨.contents [], fun p hp hn => by cases hp; exact absurd hne hn⟩
    · rcases C95_cases sys path with ⟨fr, hfr⟩ | ⟨f, hf, he⟩
      · exact ⟨fr, fun p hp _ => by cases hp; exact hfr⟩
      · rw [C95_endless hx hne hf he fuel] at h
        cases h

/-- What is known of a process that has ended. -/
theorem ended {ss : List String} {fuel code : Nat} (h : (process std sys fuel (bytesOf ss)).1 = .exit code) :
    ∃ fr, (∀ path, namedFile (bytesOf ss) = some path → path ≠ [] → Answers sys path fr) ∧
      ∃ pre : List Call, (∀ c ∈ pre, c = .read ∨ ∃ path, c = .openFile path ∧ namedFile (bytesOf ss) = some path) ∧
      (pre.countP (· != .read) ≤ 1) ∧ ∃ ws : List (List Byte),
      process std sys fuel (bytesOf ss) = (.exit (if (utf8 ((mainRun ss fun _ => fr).stdout std)).length ≤ sys.room then (mainRun ss fun _ => fr).exit else 101),
        ⟨(utf8 ((mainRun ss fun _ => fr).stdout std)).take sys.room, pre ++ ws.map .write⟩) ∧
      ws.flatten = (utf8 ((mainRun ss fun _ => fr).stdout std)).take sys.room := by
  obtain ⟨fr, hfr⟩ := settled_run h
  obtain ⟨k, pre, h1, h2, h3⟩ := runs (std := std) hfr
  obtain ⟨ws, h4, h5⟩ := h3 (max k fuel) (Nat.le_max_left ..)
  rcases main_settled (std := std) (sys := sys) ss fuel with ⟨path, _, hr⟩ | hs
  · rw [hr] at h; cases h
  · exact ⟨fr, hfr, pre, h1, h2, ws, (hs _ (Nat.le_max_right ..)) ▸ h4, h5⟩

theorem reading_named {ss : List String} {fuel : Nat} (h : (process std sys fuel (bytesOf ss)).1 = .reading) :
    ∃ path, namedFile (bytesOf ss) = some path ∧ process std sys fuel (bytesOf ss) = (.reading, ⟨[], .openFile path :: List.replicate fuel .read⟩) := by
  rcases main_settled (std := std) (sys := sys) ss fuel with hs | hs
  · exact hs
  · have key : ∀ fr, ¬ ∀ path, namedFile (bytesOf ss) = some path → path ≠ [] → Answers sys path fr := by
      intro fr hfr
      obtain ⟨k, _, _, _, h3⟩ := runs (std := std) hfr
      obtain ⟨ws, h4, _⟩ := h3 (max k fuel) (Nat.le_max_left ..)
      rw [hs _ (Nat.le_max_right ..)] at h4
      rw [h4] at h; cases h
    cases hx : namedFile (bytesOf ss) with
    | none => exact absurd (fun _ h => by rw [hx] at h; cases h) (key (.contents []))
    | some path =>
      by_cases hne : path = []
      · exact absurd (fun p hp hn => by rw [hx] at hp; cases hp; exact absurd hne hn) (key (.contents []))
      · rcases C95_cases sys path with ⟨fr, hfr⟩ | ⟨f, hf, he⟩
        · exact absurd (fun p hp _ => by rw [hx] at hp; cases hp; exact hfr) (key fr)
        · exact ⟨path, rfl, C95_endless hx hne hf he fuel⟩

/-- **C95, what the process touches.** At most one file is opened, the named one; nothing is written to it; standard output is written to only after the last byte has been read, and the
pieces that it took are what is there. -/
theorem C95_calls (argv : List (List Byte)) (fuel : Nat) : ∃ (pre : List Call) (ws : List (List Byte)),
    (process std sys fuel argv).2.calls = pre ++ ws.map .write ∧ ws.flatten = (process std sys fuel argv).2.out ∧
    (∀ c ∈ pre, c = .read ∨ ∃ path, c = .openFile path ∧ namedFile argv = some path) ∧ pre.countP (· != .read) ≤ 1 := by
  by_cases h : ∀ a ∈ argv, IsUtf8 a
  · obtain ⟨ss, rfl⟩ := exists_strings h
    rcases hp : (process std sys fuel (bytesOf ss)).1 with code | _
    · obtain ⟨_, _, pre, h1, h2, ws, h3, h4⟩ := ended hp
      exact ⟨pre, ws, by rw [h3], by rw [h3]; exact h4, h1, h2⟩
    · obtain ⟨path, hn, hr⟩ := reading_named hp
      refine ⟨.openFile path :: List.replicate fuel .read, [], by rw [hr]; simp, by rw [hr]; rfl, fun c hc => ?_, ?_⟩
      · rcases List.mem_cons.mp hc with rfl | hc
        · exact .inr ⟨_, rfl, hn⟩
        · exact .inl (List.eq_of_mem_replicate hc)
      · rw [List.countP_cons, List.countP_replicate]; simp
  · simp only [Classical.not_forall] at h
    obtain ⟨a, ha, hn⟩ := h
    exact ⟨[], [], by rw [C95_arguments ⟨a, ha, hn⟩]; rfl, by rw [C95_arguments ⟨a, ha, hn⟩]; rfl, by simp, by simp⟩

/-- The exit codes of the undisturbed tool. -/
theorem codes (ss : List String) (fs : String → FileResult) :
    (mainRun ss fs).exit = 0 ∨ (mainRun ss fs).exit = 1 ∨ (mainRun ss fs).exit = 101 ∧ ss = [] := by
  unfold mainRun
  repeat' split
  all_goals simp

theorem answers_functional {path : List Byte} {fr : FileResult} (h : Answers sys path fr) {f : Nat → ReadEvent} {b : List Byte} (hf : sys.file path = .ok f)
    (hb : Holds f b) : fr = .contents b := by
  have two : ∀ {x : Except (List Char) (List Byte)} {y : Except (List Char) (List Byte)},
      (∃ k, ∀ fuel ≥ k, ∀ buffer c, ∃ c', readToEnd f fuel 0 buffer c = (.ok (x.map (buffer ++ ·)), c')) →
      (∃ k, ∀ fuel ≥ k, ∀ buffer c, ∃ c', readToEnd f fuel 0 buffer c = (.ok (y.map (buffer ++ ·)), c')) → x = y := by
    rintro x y ⟨k, hk⟩ ⟨l, hl⟩
    obtain ⟨c1, h1⟩ := hk (max k l) (Nat.le_max_left ..) [] {}
    obtain ⟨c2, h2⟩ := hl (max k l) (Nat.le_max_right ..) [] {}
    rw [h1] at h2
    cases x <;> cases y <;> simp_all [Except.map]
  have mine : ∃ k, ∀ fuel ≥ k, ∀ buffer c, ∃ c', readToEnd f fuel 0 buffer c = (.ok (Except.map (buffer ++ ·) (.ok b)), c') := by
    obtain ⟨k, hk⟩ := read_holds hb
    exact ⟨k, fun fuel hf buffer c => ⟨_, hk fuel hf buffer c⟩⟩
  cases h with
  | cannotOpen h => rw [hf] at h; cases h
  | cannotRead h hm =>
    rw [hf] at h; cases h
    obtain ⟨k, hk⟩ := read_fails hm
    have := two (y := .error _) mine ⟨k, fun fuel hf buffer c => ⟨_, hk fuel hf buffer c⟩⟩
    cases this
  | contents h hb' =>
    rw [hf] at h; cases h
    obtain ⟨k, hk⟩ := read_holds hb'
    have := two (y := .ok _) mine ⟨k, fun fuel hf buffer c => ⟨_, hk fuel hf buffer c⟩⟩
    cases this; rfl

/-- What the tool prints of an accepted module. -/
theorem stdout_ok {s : String} {ss : List String} {n : String} (hn : (names ss).getLast? = some n) (hne : n ≠ "") {b : List Byte} {m : Module} (hp : GModule .code b m)
    (hv : Valid .code m) : (mainRun (s :: ss) fun _ => .contents b).exit = 0 ∧
      (mainRun (s :: ss) fun _ => .contents b).stdout std = if wantsPrint ss then dbgModule std m ++ ['\n'] else [] := by
  have hc : configNew (s :: ss) = some ⟨n, decide (wantsPrint ss)⟩ := by
    rw [configNew_eq]; simp only [hn, Option.getD_some, if_neg hne]
  have h1 : parseModule b = (.ok m, []) := (C23_module _ _ _).mpr ⟨rfl, hp⟩
  have h2 := ok_of_valid hv
  by_cases hw : wantsPrint ss
  · simp [mainRun, hc, h1, h2, Run.stdout, hw]
  · simp [mainRun, hc, h1, h2, Run.stdout, hw]

/-- **C95, exit code 0**: exactly if all arguments are Unicode, the named file has an end and holds a module that the crate accepts, and, if printing was asked for, standard
output has taken the whole text. How the file is cut into pieces does not matter. -/
theorem C95_zero (argv : List (List Byte)) : (∃ fuel, (process std sys fuel argv).1 = .exit 0) ↔ (∀ a ∈ argv, IsUtf8 a) ∧ ∃ path f b m,
    namedFile argv = some path ∧ path ≠ [] ∧ sys.file path = .ok f ∧ Holds f b ∧ GModule .code b m ∧ Valid .code m ∧
    (flagged argv → (utf8 (dbgModule std m ++ ['\n'])).length ≤ sys.room) := by
  constructor
  · rintro ⟨fuel, h⟩
    have hu : ∀ a ∈ argv, IsUtf8 a := by
      refine Classical.byContradiction fun hc => ?_
      simp only [Classical.not_forall] at hc
      obtain ⟨a, ha, hn⟩ := hc
      rw [C95_arguments ⟨a, ha, hn⟩] at h
      cases h
    refine ⟨hu, ?_⟩
    obtain ⟨ss, rfl⟩ := exists_strings hu
    obtain ⟨fr, hfr, _, _, _, _, hr, _⟩ := ended h
    rw [hr] at h
    simp only [Stop.exit.injEq] at h
    split at h
    case isFalse => cases h
    next hl =>
    cases ss with
    | nil => cases h
    | cons s ss =>
      cases hx : (names ss).getLast? with
      | none => simp [mainRun, configNew_eq, hx] at h
      | some n =>
        by_cases hne : n = ""
        · simp [mainRun, configNew_eq, hx, hne] at h
        · have hnf : namedFile (bytesOf (s :: ss)) = some (utf8 n.toList) := by rw [namedFile_bytes, hx]; rfl
          have hpn : utf8 n.toList ≠ [] := fun h => hne (utf8_nil.mp h)
          have ha := hfr _ hnf hpn
          cases ha with
          | cannotOpen _ => simp [mainRun, configNew_eq, hx, hne] at h
          | cannotRead _ _ => simp [mainRun, configNew_eq, hx, hne] at h
          | @contents f b hf hb =>
            obtain ⟨m, hp, hv⟩ := (C91_exact_partial hx hne rfl).mp h
            refine ⟨_, f, b, m, hnf, hpn, hf, hb, hp, hv, fun hw => ?_⟩
            rw [(stdout_ok hx hne hp hv).2, if_pos ((flagged_bytes s ss).mp hw)] at hl
            exact hl
  · rintro ⟨hu, path, f, b, m, hnf, hpn, hf, hb, hp, hv, hw⟩
    obtain ⟨ss, rfl⟩ := exists_strings hu
    obtain ⟨s, ss', n, rfl, hn, hne, rfl⟩ := named_of hnf hpn
    obtain ⟨k, hk⟩ := C95_run (std := std) (ss := s :: ss') (fr := .contents b) (sys := sys) fun p hp _ => by rw [hnf] at hp; cases hp; exact .contents hf hb
    refine ⟨k, ?_⟩
    rw [(hk k (Nat.le_refl _)).2, (stdout_ok (std := std) hn hne hp hv).1, (stdout_ok hn hne hp hv).2]
    by_cases hx : wantsPrint ss'
    · rw [if_pos hx, if_pos (hw ((flagged_bytes s ss').mpr hx))]
    · rw [if_neg hx]; simp [utf8]

/-- **C95, exit code 1**: never for a file with a module that is accepted. -/
theorem C95_one {argv : List (List Byte)} {fuel : Nat} (h : (process std sys fuel argv).1 = .exit 1) {path : List Byte} (hn : namedFile argv = some path) (hne : path ≠ [])
    {f : Nat → ReadEvent} (hf : sys.file path = .ok f) {b : List Byte} (hb : Holds f b) {m : Module} (hm : GModule .code b m) : ¬ Valid .code m := by
  intro hv
  have hu : ∀ a ∈ argv, IsUtf8 a := by
    refine Classical.byContradiction fun hc => ?_
    simp only [Classical.not_forall] at hc
    obtain ⟨a, ha, hn⟩ := hc
    rw [C95_arguments ⟨a, ha, hn⟩] at h
    cases h
  obtain ⟨ss, rfl⟩ := exists_strings hu
  obtain ⟨fr, hfr, _, _, _, _, hr, _⟩ := ended h
  cases answers_functional (hfr path hn hne) hf hb
  obtain ⟨s, ss', n, rfl, hn1, hn2, rfl⟩ := named_of hn hne
  rw [hr, (stdout_ok (std := std) hn1 hn2 hm hv).1] at h
  simp only [Stop.exit.injEq] at h
  split at h <;> cases h

/-- **C95, all exit codes.** 0 and 1 say that everything was written: with more room, nothing would be different. 101 says that an argument was not Unicode, or there was not even the name
of the program, or standard output is full. There are no others. -/
theorem C95_codes {argv : List (List Byte)} {fuel code : Nat} (h : (process std sys fuel argv).1 = .exit code) :
    ((code = 0 ∨ code = 1) ∧ ∀ room ≥ sys.room, ∃ k, ∀ fuel' ≥ k, (process std { sys with room := room } fuel' argv).1 = .exit code ∧
      (process std { sys with room := room } fuel' argv).2.out = (process std sys fuel argv).2.out) ∨
    (code = 101 ∧ ((∃ a ∈ argv, ¬ IsUtf8 a) ∨ argv = [] ∨ (process std sys fuel argv).2.out.length = sys.room)) := by
  by_cases hu : ∀ a ∈ argv, IsUtf8 a
  · obtain ⟨ss, rfl⟩ := exists_strings hu
    obtain ⟨fr, hfr, _, _, _, _, hr, _⟩ := ended h
    rw [hr] at h
    simp only [Stop.exit.injEq] at h
    split at h
    · next hl =>
      have key : ∀ room ≥ sys.room, ∃ k, ∀ fuel' ≥ k, (process std { sys with room := room } fuel' (bytesOf ss)).1 = .exit code ∧
          (process std { sys with room := room } fuel' (bytesOf ss)).2.out = (process std sys fuel (bytesOf ss)).2.out := by
        intro room hroom
        obtain ⟨k, hk⟩ := C95_run (std := std) (sys := { sys with room := room }) (ss := ss) (fr := fr) fun p hp hne => by
          cases hfr p hp hne with
          | cannotOpen h1 => exact .cannotOpen h1
          | cannotRead h1 h2 => exact .cannotRead h1 h2
          | contents h1 h2 => exact .contents h1 h2
        refine ⟨k, fun fuel' hf => ?_⟩
        obtain ⟨h1, h2⟩ := hk fuel' hf
        rw [h1, h2, hr]
        dsimp only
        rw [if_pos (Nat.le_trans hl hroom), List.take_of_length_le hl, List.take_of_length_le (Nat.le_trans hl hroom), h]
        exact ⟨rfl, rfl⟩
      rcases codes ss (fun _ => fr) with hc | hc | ⟨hc, hn⟩
      · exact .inl ⟨.inl (by rw [← h, hc]), key⟩
      · exact .inl ⟨.inr (by rw [← h, hc]), key⟩
      · exact .inr ⟨by rw [← h, hc], .inr (.inl (by rw [hn]; rfl))⟩
    · next hl =>
      refine .inr ⟨h.symm, .inr (.inr ?_)⟩
      rw [hr]
      simp only [List.length_take]
      omega
  · simp only [Classical.not_forall] at hu
    obtain ⟨a, ha, hn⟩ := hu
    rw [C95_arguments ⟨a, ha, hn⟩] at h
    cases h
    exact .inr ⟨rfl, .inl ⟨a, ha, hn⟩⟩

/-- **C95, cut off.** What standard output got is a beginning of what it would have got with more room. -/
theorem C95_prefix {argv : List (List Byte)} {fuel code : Nat} (h : (process std sys fuel argv).1 = .exit code) {room : Nat} (hroom : sys.room ≤ room) :
    ∃ k, ∀ fuel' ≥ k, (process std sys fuel argv).2.out = (process std { sys with room := room } fuel' argv).2.out.take sys.room := by
  by_cases hu : ∀ a ∈ argv, IsUtf8 a
  · obtain ⟨ss, rfl⟩ := exists_strings hu
    obtain ⟨fr, hfr, _, _, _, _, hr, _⟩ := ended h
    obtain ⟨k, hk⟩ := C95_run (std := std) (sys := { sys with room := room }) (ss := ss) (fr := fr) fun p hp hne => by
      cases hfr p hp hne with
      | cannotOpen h1 => exact .cannotOpen h1
      | cannotRead h1 h2 => exact .cannotRead h1 h2
      | contents h1 h2 => exact .contents h1 h2
    refine ⟨k, fun fuel' hf => ?_⟩
    rw [(hk fuel' hf).1, hr, List.take_take]
    dsimp only
    rw [Nat.min_eq_left hroom]
  · simp only [Classical.not_forall] at hu
    obtain ⟨a, ha, hn⟩ := hu
    exact ⟨0, fun fuel' _ => by rw [C95_arguments ⟨a, ha, hn⟩, C95_arguments ⟨a, ha, hn⟩]; simp⟩

/-! ## Examples -/

/-- A file with a valid module in four pieces, with an interruption, one with a wrong byte, a device, a directory; nothing else exists. -/
def exampleFiles (path : List Byte) : Except (List Char) (Nat → ReadEvent) :=
  if path = utf8 "ä".toList then
    .ok fun i => [.bytes [0x00, 0x61], .interrupted, .bytes [0x73], .bytes [0x6D, 1, 0, 0], .bytes [0]].getD i (.bytes [])
  else if path = utf8 "b".toList then .ok fun i => if i = 0 then .bytes [0x00, 0x61, 0x73, 0x6E] else .bytes []
  else if path = utf8 "/dev/zero".toList then .ok fun _ => .bytes [0]
  else if path = utf8 "/".toList then .ok fun _ => .failed "Is a directory (os error 21)".toList
  else .error "No such file or directory (os error 2)".toList

def argBytes (args : List String) : List (List Byte) := args.map fun a => utf8 a.toList

/-- A standard output that takes everything: the module in pieces is accepted, and printed if asked for; the wrong byte is reported; the name in bytes is that of the arguments. -/
example : process plainStd ⟨exampleFiles, 1000⟩ 9 (argBytes ["whasm", "b", "ä"]) =
      (.exit 0, ⟨[], [.openFile [0xC3, 0xA4], .read, .read, .read, .read, .read, .read]⟩) ∧
    (process plainStd ⟨exampleFiles, 1000⟩ 9 (argBytes ["whasm", "ä", "-p"])).1 = .exit 0 ∧
    (process plainStd ⟨exampleFiles, 1000⟩ 9 (argBytes ["whasm", "ä", "-p"])).2.out.length = 167 ∧
    (process plainStd ⟨exampleFiles, 1000⟩ 9 (argBytes ["whasm", "b"])).2.out =
      utf8 "Error parsing file \"b\".\nInvalid magic number in preamble.\n".toList ∧
    (process plainStd ⟨exampleFiles, 1000⟩ 9 (argBytes ["whasm", "b"])).1 = .exit 1 ∧
    (process plainStd ⟨exampleFiles, 1000⟩ 9 (argBytes ["whasm", "/"])).1 = .exit 1 := by decide +kernel

/-- A full disk: without the flag the exit code is 0 all the same; with it, and for the wrong byte, it is 101. A last byte that is missing is enough. -/
example : (process plainStd ⟨exampleFiles, 0⟩ 9 (argBytes ["whasm", "ä"])).1 = .exit 0 ∧
    (process plainStd ⟨exampleFiles, 166⟩ 9 (argBytes ["whasm", "ä", "-p"])).1 = .exit 101 ∧
    (process plainStd ⟨exampleFiles, 167⟩ 9 (argBytes ["whasm", "ä", "-p"])).1 = .exit 0 ∧
    process plainStd ⟨exampleFiles, 10⟩ 9 (argBytes ["whasm", "b"]) =
      (.exit 101, ⟨utf8 "Error pars".toList, [.openFile [0x62], .read, .read, .write (utf8 "Error pars".toList)]⟩) := by decide +kernel

/-- An argument that is not Unicode, no arguments at all, and a device, where every byte after the first four could be known to be too much. -/
example : process plainStd ⟨exampleFiles, 1000⟩ 9 [utf8 "whasm".toList, [0xFF], utf8 "ä".toList] = (.exit 101, {}) ∧
    (process plainStd ⟨exampleFiles, 1000⟩ 9 []).1 = .exit 101 ∧
    (process plainStd ⟨exampleFiles, 1000⟩ 9 (argBytes ["whasm", "/dev/zero"])).1 = .reading := by decide +kernel

/-- The theorem for the file in pieces. -/
example : ∃ m, GModule .code [0x00, 0x61, 0x73, 0x6D, 1, 0, 0, 0] m ∧ Valid .code m := by
  obtain ⟨_, path, f, b, m, h1, h2, h3, h4, h5, h6, _⟩ := (C95_zero (std := plainStd) (sys := ⟨exampleFiles, 0⟩) (argBytes ["whasm", "ä"])).mp
    ⟨9, by decide +kernel⟩
  have hp : path = utf8 "ä".toList := by
    have : namedFile (argBytes ["whasm", "ä"]) = some (utf8 "ä".toList) := by decide +kernel
    rw [this] at h1; cases h1; rfl
  have hf : Holds f [0x00, 0x61, 0x73, 0x6D, 1, 0, 0, 0] := by
    subst hp
    cases h3
    exact .piece (b := [0x00, 0x61]) rfl (by decide) (.again rfl (.piece (b := [0x73]) rfl (by decide) (.piece (b := [0x6D, 1, 0, 0]) rfl (by decide)
      (.piece (b := [0]) rfl (by decide) (.done rfl)))))
  cases answers_functional (.contents h3 h4) h3 hf
  exact ⟨m, h5, h6⟩

end Whasm
