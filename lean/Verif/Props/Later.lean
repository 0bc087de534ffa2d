import Verif.Lemmas.LaterLift
import Verif.Props.Exact
import Verif.Props.Encode
import Verif.Props.Validity
import Verif.Lemmas.DecEq

/-!
# C101: a file of a later version of WebAssembly is refused or read as what it says

`Spec/Later.lean` has what a file says by the documents of WebAssembly 2.0 and 3.0. By the rules of 1.0 the claim holds (`C101_w3c`). The crate accepts more than the rules of 1.0, and there it does not hold
(`C101_negation`, `C101_elem_negation`, `C101_data_negation`); `C101_later_partial` says what is missing: the checks of alignments, and of the number of tables and memories.
-/

namespace Whasm
open Spec Spec.Pass Spec.Later Later

theorem const_small {gs : List GlobalTy} {e : Expr} {t : Val} (h : SingleConst gs e t) (i : Instr) (hi : Occurs i e) : Small i := by
  cases h <;>
  · cases hi with
    | here h => cases List.mem_singleton.mp h; trivial
    | block h _ | loop h _ | thn h _ | els h _ => cases List.mem_singleton.mp h

theorem alignOk_small {i : Instr} (h : AlignOk i) : Small i := by
  have key : ∀ {a k : Nat}, 2 ^ a ≤ k → k ≤ 8 → a < 64 := by
    intro a k h1 h2
    have := Nat.lt_of_le_of_lt (Nat.le_trans h1 h2) (show 8 < 2 ^ 64 by decide)
    exact (Nat.pow_lt_pow_iff_right (by decide)).mp this
  cases i with
  | load op a o => cases op <;> exact key h (by decide)
  | store op a o => cases op <;> exact key h (by decide)
  | _ => trivial

theorem zero_of_lt {x : Idx} {n : Nat} (h : x.toNat < n) (hn : n ≤ 1) : x = 0 := by
  apply BitVec.eq_of_toNat_eq
  show x.toNat = 0
  omega

theorem noRoom_of {R : Rules} {m : Module} (hd : DeclsOk R m) (ht : (tableSpace m).length ≤ 1) (hm : (memSpace m).length ≤ 1) (ha : ∀ f ∈ m.funcs, ∀ i, Occurs i f.body → Small i) : NoRoom m where
  elem e he := by
    obtain ⟨⟨t, h, _⟩, _⟩ := hd.elem e he
    exact zero_of_lt (List.getElem?_eq_some_iff.mp h).1 ht
  data d h := zero_of_lt (hd.data d h).1 hm
  bodies := ha
  inits g hg := const_small (constOk_iff.mp (hd.globals g hg))
  elemOffsets e he := const_small (constOk_iff.mp (hd.elem e he).2.1)
  dataOffsets d h := const_small (constOk_iff.mp (hd.data d h).2)

theorem w3c_noRoom {m : Module} (hv : Valid .w3c m) : NoRoom m := by
  refine noRoom_of hv.toDeclsOk hv.oneTable hv.oneMem fun f hf i hi => alignOk_small ?_
  obtain ⟨t, _, hb⟩ := hv.funcs f hf
  obtain ⟨d, hj⟩ := occursAt_iff.mp hi
  obtain ⟨_, _, _, _, hty⟩ := occurs_typed hj hb
  exact typed_aligned rfl hty

/-- **C101, reading.** A file that is read by the crate says, as a file of a later version, the same, unless there is room for more in its numbers: segments for another table or memory than the first, alignments of 64 or more. -/
theorem C101_reading {s : List Byte} {m : Module} {y : File} (h : parseModule s = (.ok m, [])) (hm : NoRoom m) (hy : GLater s y) : Says y m :=
  file_agrees ((C23_module _ _ _).mp h).2 hm hy

/-- **C101, exactly.** If the crate reads a file that says something as a file of a later version, it reads what the file says if and only if no segment is for another table or memory than the first and no alignment is 64
or more. -/
theorem C101_exact {s : List Byte} {m : Module} {y : File} (h : parseModule s = (.ok m, [])) (hy : GLater s y) : Says y m ↔ NoRoom m :=
  ⟨said_noRoom hy, fun hm => C101_reading h hm hy⟩

/-- **C101, by the rules of 1.0.** If the module that is read is valid by the document of 1.0, it is what the file says as a file of a later version. -/
theorem C101_w3c {s : List Byte} {m : Module} {y : File} (h : parseModule s = (.ok m, [])) (hv : Valid .w3c m) (hy : GLater s y) : Says y m := by
  exact C101_reading h (w3c_noRoom hv) hy

/-- **C101, files of 1.0.** A file with a valid module by the document of 1.0 is a file of the later versions too, says in all of them the same, and that is what the crate reads. -/
theorem C101_older {s : List Byte} {m : Module} (h : GModule .w3c s m) (hv : Valid .w3c m) :
    parseModule s = (.ok m, []) ∧ (∃ y, GLater s y) ∧ ∀ y, GLater s y → Says y m := by
  have hp : parseModule s = (.ok m, []) := (C23_module _ _ _).mpr ⟨rfl, gmodule_mono w3c_le_code h⟩
  exact ⟨hp, file_lifts h (w3c_noRoom hv), fun y hy => C101_w3c hp hv hy⟩

/-- **C101, the crate** (partial). A file that the crate accepts is read as what it says, provided that it has no more than one table and one memory and no alignment of 64 or more. The crate checks neither (C42, C43); with
these checks the hypotheses are met by every file that is accepted. -/
theorem C101_later_partial {s : List Byte} {m : Module} {r : ModuleResult} {y : File} (h : parseModule s = (.ok m, [])) (hv : validateModule m = .ok r) (hy : GLater s y)
    (ht : (tableSpace m).length ≤ 1) (hm : (memSpace m).length ≤ 1) (ha : ∀ f ∈ m.funcs, ∀ i, Occurs i f.body → Small i) : Says y m :=
  C101_reading h (noRoom_of (validate_any_iff.mp hv).1.1 ht hm ha) hy

/-! ## A memory access -/

theorem un {N : Nat} {n : Byte} (h : n.toNat < 128 ∧ n.toNat < 2 ^ N) : UN N [n] n.toNat := .last h.1 h.2

/-- One page of memory, and a function from i32 to i32 with the code `local.get 0  i32.load align=2 memory=0 offset=1` of 3.0. -/
def laterFile : List Byte :=
  [0x00, 0x61, 0x73, 0x6D, 0x01, 0x00, 0x00, 0x00, 0x01, 0x06, 0x01, 0x60, 0x01, 0x7F, 0x01, 0x7F, 0x03, 0x02, 0x01, 0x00, 0x05, 0x03, 0x01, 0x00, 0x01,
    0x0A, 0x0A, 0x01, 0x08, 0x00, 0x20, 0x00, 0x28, 0x42, 0x00, 0x01, 0x0B]

def laterModule (body : Expr) : Module := { types := [⟨[.i32], [.i32]⟩], funcs := [⟨0, [], body⟩], mems := [⟨⟨⟨1, none⟩⟩⟩] }

/-- What it says. -/
def laterSaid : File :=
  { types := [.func [.old .i32] [.old .i32]], funcs := [0], mems := [.old 1 none], bodies := [⟨[], [.old (.instr (.localGet 0)), .load .i32Load 0 2 1, .old .endOp]⟩] }

theorem laterFile_said : GLater laterFile laterSaid where
  sections := by
    refine ⟨laterFile.drop 8, [(0x01, [0x01, 0x60, 0x01, 0x7F, 0x01, 0x7F]), (0x03, [0x01, 0x00]), (0x05, [0x01, 0x00, 0x01]), (0x0A, [0x01, 0x08, 0x00, 0x20, 0x00, 0x28, 0x42, 0x00, 0x01, 0x0B])],
      rfl, ?_, by decide, ?_, .absent (by simp), ?_, .absent (by simp), ?_, .absent (by simp), .absent (by simp), .absent (by simp), .absent (by simp), ?_, .absent (by simp)⟩
    · exact .cons (g := [0x06]) (c := [0x01, 0x60, 0x01, 0x7F, 0x01, 0x7F]) (by decide) rfl
        (.cons (g := [0x02]) (c := [0x01, 0x00]) (by decide) rfl
          (.cons (g := [0x03]) (c := [0x01, 0x00, 0x01]) (by decide) rfl
            (.cons (g := [0x0A]) (c := [0x01, 0x08, 0x00, 0x20, 0x00, 0x28, 0x42, 0x00, 0x01, 0x0B]) (by decide) rfl .nil)))
    · exact .present (by simp) (.mk (n := [0x01]) (len := 1) (un (by decide)) rfl (.cons (b := [0x60, 0x01, 0x7F, 0x01, 0x7F])
        (.func (b1 := [0x01, 0x7F]) (b2 := [0x01, 0x7F]) (.mk (n := [0x01]) (len := 1) (un (by decide)) rfl (.cons (b := [0x7F]) (.old .i32) .nil))
          (.mk (n := [0x01]) (len := 1) (un (by decide)) rfl (.cons (b := [0x7F]) (.old .i32) .nil))) .nil))
    · exact .present (by simp) (.mk (n := [0x01]) (len := 1) (un (by decide)) rfl (.cons (b := [0x00]) (un (by decide)) .nil))
    · exact .present (by simp) (.mk (n := [0x01]) (len := 1) (un (by decide)) rfl (.cons (b := [0x00, 0x01]) (.min (b := [0x01]) (un (n := 0x01) (by decide))) .nil))
    · exact .present (by simp) (.mk (n := [0x01]) (len := 1) (un (by decide)) rfl (.cons (b := [0x08, 0x00, 0x20, 0x00, 0x28, 0x42, 0x00, 0x01, 0x0B])
        (.mk (n := [0x08]) (len := 8) (un (by decide)) rfl (.mk (b1 := [0x00]) (runs := []) (.mk (n := [0x00]) (len := 0) (un (by decide)) rfl .nil) (by decide)
          (.mk (.cons (b := [0x20, 0x00]) (.old (.instr (.localGet (b := [0x00]) (un (n := 0x00) (by decide))) trivial) id)
            (.cons (b := [0x28, 0x42, 0x00, 0x01]) (.load (b := [0x42, 0x00, 0x01]) .i32Load (.at (b1 := [0x42]) (b2 := [0x00]) (b3 := [0x01]) (n := 0x42) (x := 0) (o := 1)
              (un (n := 0x42) (by decide)) (by decide) (by decide) (un (n := 0x00) (by decide)) (un (n := 0x01) (by decide))))
              (.cons (b := [0x0B]) (.old .endOp id) .nil))) trivial))) .nil))
  paired := rfl

/-- The crate reads `local.get 0  i32.load align=2^66 offset=0  nop`. -/
theorem laterFile_read : parseModule laterFile = (.ok (laterModule [.localGet 0, .load .i32Load 66 0, .nop]), []) := by decide +kernel

theorem flat_simple3 {ops : List Op} {a b c : Instr} (h : FlatL ops [a, b, c]) (ha : Simple a) (hb : Simple b) (hc : Simple c) : ops = [.instr a, .instr b, .instr c] := by
  cases h with
  | cons h1 h =>
    cases h with
    | cons h2 h =>
      cases h with
      | cons h3 h =>
        cases h
        cases h1 with
        | simple => cases h2 with
          | simple => cases h3 with
            | simple => rfl
            | _ => exact hc.elim
          | _ => exact hb.elim
        | _ => exact ha.elim

theorem flat_simple2 {ops : List Op} {a b : Instr} (h : FlatL ops [a, b]) (ha : Simple a) (hb : Simple b) : ops = [.instr a, .instr b] := by
  cases h with
  | cons h1 h =>
    cases h with
    | cons h2 h =>
      cases h
      cases h1 with
      | simple => cases h2 with
        | simple => rfl
        | _ => exact hb.elim
      | _ => exact ha.elim

theorem laterOccurs {j : Instr} (hj : Occurs j [.localGet 0, .load .i32Load 2 1]) : j = .localGet 0 ∨ j = .load .i32Load 2 1 := by
  cases hj with
  | here h => simpa using h
  | block h _ | loop h _ | thn h _ | els h _ => simp at h

theorem laterModule_valid : Valid .w3c (laterModule [.localGet 0, .load .i32Load 2 1]) := by
  have hv : validateModule (laterModule [.localGet 0, .load .i32Load 2 1]) = .ok ⟨[], []⟩ := by decide +kernel
  refine (C48_exact hv fun f hf ho' => ?_).mpr ⟨fun f hf j hj => ?_, by simp [laterModule], by decide, by decide⟩
  · cases List.mem_singleton.mp hf
    rcases laterOccurs ho' with h | h <;> cases h
  · cases List.mem_singleton.mp hf
    rcases laterOccurs hj with rfl | rfl
    · trivial
    · show 2 ^ 2 ≤ 4
      decide

/-- **C101, negation.** There is a file that the crate accepts and reads as something else than what it says as a file of 3.0. What it says is a valid module even of 1.0, in which the function reads memory one byte
further on. -/
theorem C101_negation : ∃ (s : List Byte) (m : Module) (r : ModuleResult) (y : File), parseModule s = (.ok m, []) ∧ validateModule m = .ok r ∧ GLater s y ∧ ¬ Says y m ∧
    ∃ m', Says y m' ∧ Valid .w3c m' := by
  refine ⟨laterFile, _, ⟨[], []⟩, laterSaid, laterFile_read, by decide +kernel, laterFile_said, fun h => ?_, laterModule [.localGet 0, .load .i32Load 2 1], ?_, ?_⟩
  · obtain ⟨_, ops, hf, hc⟩ : SameFunc ⟨0, [], [.localGet 0, .load .i32Load 66 0, .nop]⟩ ⟨[], [.old (.instr (.localGet 0)), .load .i32Load 0 2 1, .old .endOp]⟩ := by
      cases h.bodies with
      | cons h _ => exact h
    rw [flat_simple3 hf trivial trivial trivial] at hc
    cases congrArg List.length hc
  · exact ⟨rfl, rfl, rfl, rfl, rfl, .nil, rfl, rfl, .nil, .cons ⟨rfl, [.instr (.localGet 0), .instr (.load .i32Load 2 1)], .cons (ops := [.instr (.localGet 0)]) (i := .localGet 0) (.simple trivial) (.cons (ops := [.instr (.load .i32Load 2 1)]) (i := .load .i32Load 2 1) (.simple trivial) .nil), rfl⟩ .nil, .nil⟩
  · exact laterModule_valid

/-- The reason is the alignment. -/
example : ¬ Says laterSaid (laterModule [.localGet 0, .load .i32Load 66 0, .nop]) := fun h =>
  absurd (((C101_exact laterFile_read laterFile_said).mp h).bodies _ (List.mem_singleton.mpr rfl) (.load .i32Load 66 0) (.here (by simp))) (by decide : ¬ 66 < 64)

/-- The function of 1.0 that the file above has in 3.0, in a file of 1.0. -/
def olderFile : List Byte := laterFile.take 25 ++ [0x0A, 0x09, 0x01, 0x07, 0x00, 0x20, 0x00, 0x28, 0x02, 0x01, 0x0B]

theorem olderFile_read : parseModule olderFile = (.ok (laterModule [.localGet 0, .load .i32Load 2 1]), []) := by decide +kernel

theorem olderFile_code {y : File} (h : Says y (laterModule [.localGet 0, .load .i32Load 2 1])) : y.bodies.map (·.code) = [[.old (.instr (.localGet 0)), .load .i32Load 0 2 1, .old .endOp]] := by
  have h := h.bodies
  generalize y.bodies = bodies at h
  cases h with
  | cons h1 h =>
    cases h
    obtain ⟨_, ops, hf, hc⟩ := h1
    rw [List.map_cons, hc, flat_simple2 hf trivial trivial]
    rfl

/-- It says the same in all versions, by the rules of 1.0. -/
example {y : File} (hy : GLater olderFile y) : y.bodies.map (·.code) = [[.old (.instr (.localGet 0)), .load .i32Load 0 2 1, .old .endOp]] :=
  olderFile_code (C101_w3c olderFile_read laterModule_valid hy)

theorem olderFile_w3c : GModule .w3c olderFile (laterModule [.localGet 0, .load .i32Load 2 1]) := by
  have h := (C27_exact _).mp ⟨_, _, olderFile_read⟩
  have he : olderFile = encModule (laterModule [.localGet 0, .load .i32Load 2 1]) := by decide +kernel
  rw [he]
  refine (C27_w3c _).2 ⟨h.imports, h.exports, fun e he i hi => ?_, fun f hf => ?_, h.types_size, h.imports_size, h.tys_size, h.tables_size, h.mems_size, h.globals_size, h.exports_size, h.elem_size, h.code_size, h.data_size⟩
  · cases List.mem_singleton.mp he
    rcases laterOccurs hi with rfl | rfl <;> trivial
  · cases List.mem_singleton.mp hf
    show 0 < 2 ^ 32
    decide

example : ∃ y, GLater olderFile y ∧ y.bodies.map (·.code) = [[.old (.instr (.localGet 0)), .load .i32Load 0 2 1, .old .endOp]] := by
  obtain ⟨_, ⟨y, hy⟩, h⟩ := C101_older olderFile_w3c laterModule_valid
  exact ⟨y, hy, olderFile_code (h y hy)⟩

/-- And by the rules of the crate. -/
example {y : File} (hy : GLater olderFile y) : y.bodies.map (·.code) = [[.old (.instr (.localGet 0)), .load .i32Load 0 2 1, .old .endOp]] :=
  olderFile_code (C101_later_partial (r := ⟨[], []⟩) olderFile_read (by decide +kernel) hy (by decide) (by decide) fun f hf i hi => by
    cases List.mem_singleton.mp hf
    rcases laterOccurs hi with rfl | rfl
    · trivial
    · show 2 < 64
      decide)

/-- Such a file is a file of the later versions. -/
example : ∃ y, GLater olderFile y := by
  refine ⟨laterSaid, ⟨olderFile.drop 8, [(0x01, [0x01, 0x60, 0x01, 0x7F, 0x01, 0x7F]), (0x03, [0x01, 0x00]), (0x05, [0x01, 0x00, 0x01]), (0x0A, [0x01, 0x07, 0x00, 0x20, 0x00, 0x28, 0x02, 0x01, 0x0B])],
      rfl, ?_, by decide, ?_, .absent (by simp), ?_, .absent (by simp), ?_, .absent (by simp), .absent (by simp), .absent (by simp), .absent (by simp), ?_, .absent (by simp)⟩, rfl⟩
  · exact .cons (g := [0x06]) (c := [0x01, 0x60, 0x01, 0x7F, 0x01, 0x7F]) (by decide) rfl
      (.cons (g := [0x02]) (c := [0x01, 0x00]) (by decide) rfl
        (.cons (g := [0x03]) (c := [0x01, 0x00, 0x01]) (by decide) rfl
          (.cons (g := [0x09]) (c := [0x01, 0x07, 0x00, 0x20, 0x00, 0x28, 0x02, 0x01, 0x0B]) (by decide) rfl .nil)))
  · exact .present (by simp) (.mk (n := [0x01]) (len := 1) (un (by decide)) rfl (.cons (b := [0x60, 0x01, 0x7F, 0x01, 0x7F])
      (.func (b1 := [0x01, 0x7F]) (b2 := [0x01, 0x7F]) (.mk (n := [0x01]) (len := 1) (un (by decide)) rfl (.cons (b := [0x7F]) (.old .i32) .nil))
        (.mk (n := [0x01]) (len := 1) (un (by decide)) rfl (.cons (b := [0x7F]) (.old .i32) .nil))) .nil))
  · exact .present (by simp) (.mk (n := [0x01]) (len := 1) (un (by decide)) rfl (.cons (b := [0x00]) (un (by decide)) .nil))
  · exact .present (by simp) (.mk (n := [0x01]) (len := 1) (un (by decide)) rfl (.cons (b := [0x00, 0x01]) (.min (b := [0x01]) (un (n := 0x01) (by decide))) .nil))
  · exact .present (by simp) (.mk (n := [0x01]) (len := 1) (un (by decide)) rfl (.cons (b := [0x07, 0x00, 0x20, 0x00, 0x28, 0x02, 0x01, 0x0B])
      (.mk (n := [0x07]) (len := 7) (un (by decide)) rfl (.mk (b1 := [0x00]) (runs := []) (.mk (n := [0x00]) (len := 0) (un (by decide)) rfl .nil) (by decide)
        (.mk (.cons (b := [0x20, 0x00]) (.old (.instr (.localGet (b := [0x00]) (un (n := 0x00) (by decide))) trivial) id)
          (.cons (b := [0x28, 0x02, 0x01]) (.load (b := [0x02, 0x01]) .i32Load (.old (b1 := [0x02]) (b2 := [0x01]) (n := 2) (o := 1)
            (un (n := 0x02) (by decide)) (by decide) (un (n := 0x01) (by decide))))
            (.cons (b := [0x0B]) (.old .endOp id) .nil))) trivial))) .nil))

/-! ## Segments -/

/-- Five tables are imported; an element segment. -/
def elemFile : List Byte :=
  [0x00, 0x61, 0x73, 0x6D, 0x01, 0x00, 0x00, 0x00, 0x02, 0x1F, 0x05, 0x00, 0x00, 0x01, 0x70, 0x00, 0x00, 0x00, 0x00, 0x01, 0x70, 0x00, 0x00,
    0x00, 0x00, 0x01, 0x70, 0x00, 0x00, 0x00, 0x00, 0x01, 0x70, 0x00, 0x00, 0x00, 0x00, 0x01, 0x70, 0x00, 0x00, 0x09, 0x06, 0x01, 0x04, 0x41, 0x05, 0x0B, 0x00]

def elemModule : Module := { imports := List.replicate 5 ⟨[], [], .table ⟨⟨0, none⟩, .funcRef⟩⟩, elem := [⟨4, [.constI32 5], []⟩] }

def elemSaid : File := { imports := List.replicate 5 ⟨[], [], .table (.old (.old 0 none))⟩, elem := [.later 4 [0x41, 0x05, 0x0B, 0x00]] }

theorem emptyName : GName Spec.Later.dialect [0x00] [] := .mk (.mk (n := [0x00]) (len := 0) (un (by decide)) rfl .nil) ⟨[], rfl⟩

theorem elemFile_said : GLater elemFile elemSaid where
  sections := by
    have im : GImp [0x00, 0x00, 0x01, 0x70, 0x00, 0x00] ⟨[], [], .table (.old (.old 0 none))⟩ :=
      .mk (b1 := [0x00]) (b2 := [0x00]) (b3 := [0x01, 0x70, 0x00, 0x00]) emptyName emptyName (.table (.old (.min (un (n := 0x00) (by decide)))))
    refine ⟨elemFile.drop 8, [(0x02, (elemFile.drop 10).take 31), (0x09, [0x01, 0x04, 0x41, 0x05, 0x0B, 0x00])],
      rfl, ?_, by decide, .absent (by simp), ?_, .absent (by simp), .absent (by simp), .absent (by simp), .absent (by simp), .absent (by simp), .absent (by simp), ?_, .absent (by simp), .absent (by simp)⟩
    · exact .cons (g := [0x1F]) (c := (elemFile.drop 10).take 31) (by decide) rfl (.cons (g := [0x06]) (c := [0x01, 0x04, 0x41, 0x05, 0x0B, 0x00]) (by decide) rfl .nil)
    · exact .present (List.mem_cons_self ..) (.mk (n := [0x05]) (len := 5) (un (by decide)) rfl (.cons im (.cons im (.cons im (.cons im (.cons im .nil))))))
    · exact .present (by simp) (.mk (n := [0x01]) (len := 1) (un (by decide)) rfl (.cons (b := [0x04, 0x41, 0x05, 0x0B, 0x00]) (.later (b1 := [0x04]) (un (n := 0x04) (by decide)) (by decide)) .nil))
  paired := rfl

/-- **C101, negation, element segments.** A file that the crate accepts with a segment for table 4. In the versions since 2.0 it is a segment of form 4: for table 0, at 5, with a vector of expressions, here an empty one. -/
theorem C101_elem_negation : ∃ (s : List Byte) (m : Module) (r : ModuleResult) (y : File), parseModule s = (.ok m, []) ∧ validateModule m = .ok r ∧ GLater s y ∧ ¬ Says y m ∧
    m.elem = [⟨4, [.constI32 5], []⟩] ∧
    ∃ b1 b2, y.elem = [.later 4 (b1 ++ b2)] ∧ GCodeExpr b1 [.old (.instr (.constI32 5)), .old .endOp] ∧ GVec Spec.Later.dialect GCodeExpr b2 [] := by
  refine ⟨elemFile, elemModule, ⟨List.replicate 5 (.table ⟨⟨0, none⟩, .funcRef⟩), []⟩, elemSaid, by decide +kernel, by decide +kernel, elemFile_said, fun h => ?_, rfl, [0x41, 0x05, 0x0B], [0x00], rfl, ?_, ?_⟩
  · cases h.elem with
    | cons h _ =>
      obtain ⟨_, h, _⟩ := h
      cases h
  · refine .mk (.cons (b := [0x41, 0x05]) (.old (.instr ?_ trivial) id) (.cons (b := [0x0B]) (.old .endOp id) .nil)) trivial
    exact .constI32 (b := [0x05]) (SN.pos (N := 32) (n := 0x05) (by decide) (by decide))
  · exact .mk (n := [0x00]) (len := 0) (un (by decide)) rfl .nil

/-- Two memories are imported; a data segment. -/
def dataFile : List Byte :=
  [0x00, 0x61, 0x73, 0x6D, 0x01, 0x00, 0x00, 0x00, 0x02, 0x0B, 0x02, 0x00, 0x00, 0x02, 0x00, 0x00, 0x00, 0x00, 0x02, 0x00, 0x00, 0x0B, 0x44, 0x01, 0x01, 0x41, 0x05, 0x0B, 0x3E] ++ List.replicate 62 0x00

def dataModule : Module := { imports := List.replicate 2 ⟨[], [], .mem ⟨⟨0, none⟩⟩⟩, data := [⟨1, [.constI32 5], List.replicate 62 0x00⟩] }

def dataSaid : File := { imports := List.replicate 2 ⟨[], [], .mem (.old 0 none)⟩, data := [.later 1 ([0x41, 0x05, 0x0B, 0x3E] ++ List.replicate 62 0x00)] }

theorem dataFile_said : GLater dataFile dataSaid where
  sections := by
    have im : GImp [0x00, 0x00, 0x02, 0x00, 0x00] ⟨[], [], .mem (.old 0 none)⟩ :=
      .mk (b1 := [0x00]) (b2 := [0x00]) (b3 := [0x02, 0x00, 0x00]) emptyName emptyName (.mem (.min (un (n := 0x00) (by decide))))
    refine ⟨dataFile.drop 8, [(0x02, (dataFile.drop 10).take 11), (0x0B, dataFile.drop 23)],
      rfl, ?_, by decide, .absent (by simp), ?_, .absent (by simp), .absent (by simp), .absent (by simp), .absent (by simp), .absent (by simp), .absent (by simp), .absent (by simp), .absent (by simp), ?_⟩
    · exact .cons (g := [0x0B]) (c := (dataFile.drop 10).take 11) (by decide) rfl (.cons (g := [0x44]) (c := dataFile.drop 23) (by decide) rfl .nil)
    · exact .present (List.mem_cons_self ..) (.mk (n := [0x02]) (len := 2) (un (by decide)) rfl (.cons im (.cons im .nil)))
    · exact .present (List.mem_cons_of_mem _ (List.mem_cons_self ..)) (.mk (n := [0x01]) (len := 1) (un (by decide)) rfl
        (.cons (b := dataFile.drop 24) (bs := []) (.later (b1 := [0x01]) (b := dataFile.drop 25) (un (n := 0x01) (by decide)) (by decide)) .nil))
  paired := rfl

theorem bytes_self : ∀ bs : List Byte, GSeq GByte bs bs
  | [] => .nil
  | x :: bs => .cons (b := [x]) (.mk x) (bytes_self bs)

/-- **C101, negation, data segments.** A file that the crate accepts with 62 bytes for memory 1 at address 5. In the versions since 2.0 it is a segment of form 1: 65 bytes for no memory (they go into one only by
`memory.init`). -/
theorem C101_data_negation : ∃ (s : List Byte) (m : Module) (r : ModuleResult) (y : File), parseModule s = (.ok m, []) ∧ validateModule m = .ok r ∧ GLater s y ∧ ¬ Says y m ∧
    m.data = [⟨1, [.constI32 5], List.replicate 62 0x00⟩] ∧
    ∃ b bs, y.data = [.later 1 b] ∧ GVec Spec.Later.dialect GByte b bs ∧ bs = [0x05, 0x0B, 0x3E] ++ List.replicate 62 0x00 := by
  refine ⟨dataFile, dataModule, ⟨List.replicate 2 (.mem ⟨⟨0, none⟩⟩), []⟩, dataSaid, by decide +kernel, by decide +kernel, dataFile_said, fun h => ?_, rfl, _, _, rfl, ?_, rfl⟩
  · cases h.data with
    | cons h _ =>
      obtain ⟨_, h, _⟩ := h
      cases h
  · exact .mk (n := [0x41]) (len := 65) (un (by decide)) rfl (bytes_self _)

end Whasm
