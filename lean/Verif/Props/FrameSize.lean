import Verif.Lemmas.Heights
import Verif.Props.Frames

/-!
# C109, continued: a function has fewer registers than parameters, local variables and opcodes

The number of registers of a function (`frame`) is found by a pass over its opcodes. Here it is bounded by the size of the file: each opcode leaves one operand more than it finds at most.
-/

namespace Whasm
open Spec Run

theorem foldl_max_bound {n : Nat} : ∀ {l : List Nat} {k : Nat}, k ≤ n → (∀ x ∈ l, x ≤ n) → l.foldl max k ≤ n
  | [], _, hk, _ => hk
  | a :: l, k, hk, hl => foldl_max_bound (l := l) (k := max k a) (Nat.max_le.mpr ⟨hk, hl a List.mem_cons_self⟩) fun x hx => hl x (List.mem_cons_of_mem _ hx)

theorem slim_bodyEnv {m : Module} {r : ModuleResult} (h : validateModule m = .ok r) {t : FuncTy} (ht : t ∈ m.types) (ls : List Val) : SlimEnv (bodyEnv .code m t ls) where
  labels r hr := by
    unfold bodyEnv at hr
    dsimp only at hr
    split at hr
    · obtain rfl := List.mem_singleton.mp hr
      exact C44_results h t ht
    · cases hr
  ret r hr := by
    cases hr
    exact C44_results h t ht
  funcs := C44_funcs h
  types := C44_results h

/-- No more operands at an opcode than there are opcodes before it. -/
theorem heightAt_le {m : Module} {r : ModuleResult} (h : validateModule m = .ok r) {K : Codes} {f : Func} (hs : ∀ o ∈ K f, SlimOp o) (pc : Nat) : heightAt m K f pc ≤ pc := by
  unfold heightAt
  cases ht : m.types[f.ty.toNat]? with
  | none => exact Nat.zero_le _
  | some t =>
    cases hr : Pass.run (bodyEnv .code m t f.locals) (Pass.start t.results) ((K f).take pc) with
    | none => simp [hr]
    | some s =>
      have ht' := List.mem_of_getElem? ht
      have h1 := run_more (slim_bodyEnv h ht' f.locals) (push_ctrl_slim (s := ⟨[], []⟩) (k := .func) (fun _ hf => nomatch hf) (C44_results h t ht') (C44_results h t ht')) (fun o ho => hs o (List.mem_of_mem_take ho)) hr
      have h2 : (Pass.push_ctrl .func t.results t.results ⟨[], []⟩).opds.length = 0 := rfl
      have h3 := List.length_take_le pc (K f)
      simp only [Option.bind_some, hr, Option.map_some, Option.getD_some]
      omega

/-- **C109, size.** In an accepted module a function has fewer registers than parameters, local variables and opcodes, if its opcodes have no block types that a file cannot have. -/
theorem C109_size {m : Module} {r : ModuleResult} (h : validateModule m = .ok r) {K : Codes} {f : Func} {t : FuncTy} (ht : m.types[f.ty.toNat]? = some t) (hk : K f ≠ [])
    (hs : ∀ o ∈ K f, ∀ b, o = .block b ∨ o = .loop b ∨ o = .ifOp b → b.length ≤ 1) : frame m K f < t.params.length + f.locals.length + (K f).length := by
  have hl := List.length_pos_iff.mpr hk
  have h1 : ((List.range (K f).length).map (heightAt m K f)).foldl max 0 ≤ (K f).length - 1 := by
    refine foldl_max_bound (Nat.zero_le _) fun x hx => ?_
    obtain ⟨pc, hpc, rfl⟩ := List.mem_map.mp hx
    have h2 := heightAt_le h (K := K) (f := f) (fun o ho => ?_) pc
    · have := List.mem_range.mp hpc
      omega
    · cases o <;> first | exact hs _ ho _ (by simp) | trivial
  rw [frame, ht]
  show t.params.length + _ + _ < _
  omega

theorem gop_slim {D : Dialect} {b : List Byte} {o : Pass.Op} (h : Pass.GOp D b o) : ∀ t, o = .block t ∨ o = .loop t ∨ o = .ifOp t → t.length ≤ 1 := by
  cases h with
  | block h | loop h | ifOp h => rintro t (e | e | e) <;> cases e <;> exact gretVal_length h
  | instr | elseOp | endOp => rintro t (e | e | e) <;> cases e

theorem gseq_ops {D : Dialect} {b : List Byte} {ops : List Pass.Op} (h : GSeq (Pass.GOp D) b ops) : (∀ o ∈ ops, ∃ b, Pass.GOp D b o) ∧ ops.length ≤ b.length := by
  induction h with
  | nil => exact ⟨fun _ h => (nomatch h), Nat.le_refl _⟩
  | cons h _ ih =>
    refine ⟨fun o ho => ?_, ?_⟩
    · rcases List.mem_cons.mp ho with rfl | ho
      · exact ⟨_, h⟩
      · exact ih.1 o ho
    · have := List.length_pos_iff.mpr (gop_pos h)
      rw [List.length_cons, List.length_append]
      omega

theorem gseq_part {α : Type} {G : List Byte → α → Prop} {b : List Byte} {xs : List α} (h : GSeq G b xs) {x : α} (hx : x ∈ xs) : ∃ c, G c x ∧ c.length ≤ b.length := by
  induction h with
  | nil => cases hx
  | cons h _ ih =>
    rw [List.length_append]
    rcases List.mem_cons.mp hx with rfl | hx
    · exact ⟨_, h, Nat.le_add_right _ _⟩
    · obtain ⟨c, hc, hl⟩ := ih hx
      exact ⟨c, hc, by omega⟩

theorem gcodes_part {D : Dialect} {tys : List Idx} {b : List Byte} {fs : List Func} {codes : List (List Pass.Op)} (g : Pass.GCodes D tys b fs codes) {ops : List Pass.Op} (ho : ops ∈ codes) :
    ∃ c, GSeq (Pass.GOp D) c ops ∧ c.length ≤ b.length := by
  cases g with
  | missing => cases ho
  | paired g _ =>
    obtain ⟨⟨ls, _⟩, hp, rfl⟩ := List.mem_map.mp ho
    cases g with
    | absent => cases hp
    | present g =>
      cases g with | mk g
      cases g with | mk _ _ g
      cases g with | mk _ _ g
      obtain ⟨c, hc, hl⟩ := gseq_part g hp
      cases hc with | mk _ _ hc
      cases hc with | mk _ _ hc
      refine ⟨_, hc, ?_⟩
      simp only [List.length_append, List.length_cons] at hl ⊢
      omega

/-- The opcodes of the functions are in the file, each with a byte at least. -/
theorem file_ops {D : Dialect} {s : List Byte} {m : Module} {codes : List (List Pass.Op)} (h : Pass.GFile D s m codes) {ops : List Pass.Op} (ho : ops ∈ codes) :
    (∀ o ∈ ops, ∃ b, Pass.GOp D b o) ∧ ops.length ≤ s.length := by
  obtain ⟨_, _, _, _, _, _, _, _, _, _, _, _, _, _, _, _, _, _, _, g, _, _, _⟩ := h
  obtain ⟨c, hc, hl⟩ := gcodes_part g ho
  have := gseq_ops hc
  refine ⟨this.1, ?_⟩
  simp only [List.length_append]
  omega

/-- What is known of the functions of a file. -/
theorem file_frame {s : List Byte} {m m0 : Module} {codes : List (List Pass.Op)} (h2 : Valid .code m) (hs : Pass.GFile .code s m0 codes) {K : Codes} (hw : WrittenAs m K)
    (hK : ∀ f ∈ m.funcs, (f, K f) ∈ m.funcs.zip codes) :
    ∀ f ∈ m.funcs, ∃ t, m.types[f.ty.toNat]? = some t ∧ frame m K f < t.params.length + f.locals.length + (K f).length ∧ (K f).length ≤ s.length := by
  intro f hf
  obtain ⟨t, ht, _⟩ := h2.funcs f hf
  obtain ⟨ops, hk, _⟩ := hw f hf
  obtain ⟨g1, g2⟩ := file_ops hs (List.of_mem_zip (hK f hf)).2
  refine ⟨t, ht, C109_size (ok_of_valid h2) ht (by rw [hk]; simp) (fun o ho => ?_), g2⟩
  obtain ⟨_, hg⟩ := g1 o ho
  exact gop_slim hg

/-- **C109, size of files.** A function of a file that passes has fewer registers than parameters, local variables and opcodes, and there are no more opcodes than bytes in the file. With no more than `P` parameters and local
variables in any function, `d` calls end within `d * (P + bytes)` words. -/
theorem C109_file_size {s : List Byte} {m0 : Module} {codes : List (List Pass.Op)} (hs : Pass.GFile .code s m0 codes) (hv : Pass.Verdict .code m0 codes) :
    ∃ m, parseModule s = (.ok m, []) ∧ validateModule m = .ok (externals m) ∧ m0 = bare m ∧
      ∀ {K : Codes}, (∀ f ∈ m.funcs, (f, K f) ∈ m.funcs.zip codes) →
      (∀ f ∈ m.funcs, ∃ t, m.types[f.ty.toNat]? = some t ∧ frame m0 K f < t.params.length + f.locals.length + (K f).length ∧ (K f).length ≤ s.length) ∧
      ∀ {M : Machine}, Instance m M → NumOk M → HostOk m M → ∀ {st : Store}, StoreOk m M.all.length st →
      ∀ {x : Nat} {t : FuncTy}, (funcSpace m)[x]? = some t → ∀ {f : Func}, M.funcs[x]? = some (.own t f) → ∀ {args : List Value}, args.map Value.type = t.params → ∀ (js : Nat → Nat → Cell),
      ∀ n st' mem a as, qsteps M (compile m0 K) (frame m0 K) js (qentered t f (args.map Value.cell) st) n = .running st' mem a as →
      ∀ P, (∀ f ∈ m.funcs, ∀ t, m.types[f.ty.toNat]? = some t → t.params.length + f.locals.length ≤ P) → a.base + frame m0 K a.func ≤ (a :: as).length * (P + s.length) := by
  obtain ⟨m, h1, h2, rfl, h3⟩ := file_module (.inr rfl) hs hv
  have hp : parseModule s = (.ok m, []) := (C23_module _ _ _).mpr ⟨rfl, h1⟩
  refine ⟨m, hp, ok_of_valid h2, rfl, fun {K} hK => ?_⟩
  have hw : WrittenAs m K := fun f hf => related_zip h3 (hK f hf)
  rw [compile_bare, frame_bare]
  have size := file_frame h2 hs hw hK
  refine ⟨size, fun hM hn hh _ hst _ _ ht _ hx _ hargs js n st' mem a as hq P hP => ?_⟩
  refine (C109_space (ok_of_valid h2) (parsed_noElse hp) hw hM hn hh hst ht hx hargs js hq).2 _ fun f hf => ?_
  obtain ⟨t, ht, hl, hb⟩ := size f hf
  have := hP f hf t ht
  omega

-- twelve opcodes and one parameter: four registers
example : frame selfModule inLine selfModule.funcs[0] < 1 + 0 + 12 :=
  C109_size (t := ⟨[.i32], [.i32]⟩) (by decide +kernel : validateModule selfModule = .ok (externals selfModule)) rfl (by decide +kernel) (by
    intro o ho b hb
    have e : inLine selfModule.funcs[0] = [.instr (.localGet 0), .ifOp [.i32], .instr (.localGet 0), .instr (.localGet 0), .instr (.constI32 1), .instr (.num .i32Sub), .instr (.call 0), .instr (.num .i32Mul), .elseOp,
      .instr (.constI32 1), .endOp, .endOp] := rfl
    rw [e] at ho
    rcases hb with rfl | rfl | rfl <;> simp at ho
    subst ho
    exact Nat.le_refl _)

-- the bound is reached: two opcodes and one register
example : frame { types := [⟨[], [.i32]⟩], funcs := [⟨0, [], [.constI32 1]⟩] } inLine ⟨0, [], [.constI32 1]⟩ + 1 = (inLine ⟨0, [], [.constI32 1]⟩).length := by decide +kernel

-- a block with eight results, which no file has, leaves eight operands at once, and the function has five opcodes; the crate accepts such a module
example : validateModule { types := [⟨[], []⟩], funcs := [⟨0, [], [.block [.i32, .i32, .i32, .i32, .i32, .i32, .i32, .i32] [.unreachable], .unreachable]⟩] } = .ok ⟨[], []⟩ ∧
    frame { types := [⟨[], []⟩], funcs := [⟨0, [], [.block [.i32, .i32, .i32, .i32, .i32, .i32, .i32, .i32] [.unreachable], .unreachable]⟩] } inLine
      ⟨0, [], [.block [.i32, .i32, .i32, .i32, .i32, .i32, .i32, .i32] [.unreachable], .unreachable]⟩ = 8 ∧
    (inLine ⟨0, [], [.block [.i32, .i32, .i32, .i32, .i32, .i32, .i32, .i32] [.unreachable], .unreachable]⟩).length = 5 := by decide +kernel

-- the file of C100: at most that many words for so many calls
example : ∃ m, parseModule passFile = (.ok m, []) ∧ ∀ (K : Codes), (∀ f ∈ m.funcs, (f, K f) ∈ m.funcs.zip [passOps]) →
    ∀ f ∈ m.funcs, ∃ t, m.types[f.ty.toNat]? = some t ∧ frame { types := [⟨[.i32], [.i32]⟩], funcs := [⟨0, [.i64], []⟩] } K f < t.params.length + f.locals.length + (K f).length ∧
      (K f).length ≤ passFile.length := by
  obtain ⟨m, h1, _, h2, h3⟩ := C109_file_size (m0 := { types := [⟨[.i32], [.i32]⟩], funcs := [⟨0, [.i64], []⟩] }) (codes := [passOps]) (gfile_mono w3c_le_code passFile_read)
    ⟨⟨by simp, by simp, by simp, by simp, by simp, by simp, by simp, by simp, by simp [importedTables], by simp [importedMems], by simp, by decide +kernel, by decide +kernel, by simp⟩, by
      simp only [List.zip_cons_cons, List.zip_nil_right, List.mem_singleton]
      rintro p rfl
      exact ⟨⟨[.i32], [.i32]⟩, rfl, _, rfl, rfl⟩⟩
  exact ⟨m, h1, fun K hK => (h3 hK).1⟩

end Whasm
