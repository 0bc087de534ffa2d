import Verif.Spec.Encode
import Verif.Lemmas.Dialect
import Verif.Lemmas.Occurs
import Verif.Lemmas.Plain

/-!
# The encoder: its output is in the grammar, and nothing shorter is
-/

namespace Whasm
open Spec

/-! ## Integers -/

theorem encU_pos (n : Nat) : 1 ≤ (encU n).length := List.length_pos_iff.mpr (group_ne_nil (encU_spec n).1)

theorem encU_length_le (n : Nat) : ∀ k, (encU n).length ≤ k + 1 ↔ n < 128 ^ (k + 1) := by
  induction n using encU.induct with
  | case1 n h =>
    intro k; rw [encU, if_pos h]
    have : 128 ^ 1 ≤ 128 ^ (k + 1) := Nat.pow_le_pow_right (by decide) (by omega)
    simp; omega
  | case2 n h ih =>
    intro k; rw [encU, if_neg h]
    cases k with
    | zero =>
      have := encU_pos (n / 128)
      simp only [List.length_cons]; omega
    | succ k =>
      have h1 := ih k
      have h2 : 128 ^ (k + 1 + 1) = 128 ^ (k + 1) * 128 := Nat.pow_succ ..
      simp only [List.length_cons]
      rw [show (encU (n / 128)).length + 1 ≤ k + 1 + 1 ↔ (encU (n / 128)).length ≤ k + 1 by omega, h1, h2]
      exact Nat.div_lt_iff_lt_mul (by decide)

theorem encU_mono {a b : Nat} (h : a ≤ b) : (encU a).length ≤ (encU b).length := by
  have hb := encU_pos b
  obtain ⟨k, hk⟩ : ∃ k, (encU b).length = k + 1 := ⟨(encU b).length - 1, by omega⟩
  have := (encU_length_le b k).mp (by omega)
  rw [hk]
  exact (encU_length_le a k).mpr (by omega)

theorem encU_add (a b : Nat) : (encU (a + b)).length ≤ (encU a).length + (encU b).length := by
  have ha := encU_pos a
  have hb := encU_pos b
  obtain ⟨k, hk⟩ : ∃ k, (encU a).length = k + 1 := ⟨(encU a).length - 1, by omega⟩
  obtain ⟨l, hl⟩ : ∃ l, (encU b).length = l + 1 := ⟨(encU b).length - 1, by omega⟩
  have h1 := (encU_length_le a k).mp (by omega)
  have h2 := (encU_length_le b l).mp (by omega)
  rw [hk, hl, show k + 1 + (l + 1) = (k + l + 1) + 1 by omega]
  refine (encU_length_le (a + b) _).mpr ?_
  have h3 : 128 ^ (k + 1) ≤ 128 ^ (k + l + 1) := Nat.pow_le_pow_right (by decide) (by omega)
  have h4 : 128 ^ (l + 1) ≤ 128 ^ (k + l + 1) := Nat.pow_le_pow_right (by decide) (by omega)
  have h5 : 128 ^ (k + l + 1 + 1) = 128 ^ (k + l + 1) * 128 := Nat.pow_succ ..
  omega

theorem encU_five {n : Nat} (h : n < 2 ^ 32) : (encU n).length ≤ 5 := (encU_length_le n 4).mpr (by omega)

theorem encU_big {n : Nat} (h : 2 ^ 28 ≤ n) : 5 ≤ (encU n).length := by
  have := encU_length_le n 3
  omega

/-- A dialect that admits the shortest encodings of integers. -/
structure Canonical (D : Dialect) : Prop where
  le : DialectLe D .code
  u32 : ∀ v, D.u32 (encU v.toNat) v
  s32 : ∀ v, D.s32 (encS v.toInt) v
  s64 : ∀ v, D.s64 (encS v.toInt) v
  reserved : ∀ {b v}, D.reserved b v → D.reserved (encU v.toNat) v

theorem canonical_code : Canonical .code where
  le := ⟨id, id, id, id, id, id⟩
  u32 _ := encU_spec _
  s32 _ := encS_spec _
  s64 _ := encS_spec _
  reserved _ := encU_spec _

theorem inRange_toInt {N : Nat} (h : 0 < N) (v : BitVec N) : InRange N v.toInt := by
  have h1 := BitVec.two_mul_toInt_lt (x := v)
  have h2 := BitVec.le_two_mul_toInt (x := v)
  have h3 := two_pow_pred h
  exact ⟨by omega, by omega⟩

theorem encS_length_le (i : Int) : ∀ k, InRange (7 * (k + 1)) i → (encS i).length ≤ k + 1 := by
  induction i using encS.induct with
  | case1 i h => intro k _; rw [encS, if_pos h]; simp
  | case2 i h ih =>
    intro k hk; rw [encS, if_neg h]
    cases k with
    | zero => exact (h ⟨hk.1, hk.2⟩).elim
    | succ k =>
      have := (inRange_scale (w := 7 * (k + 1)) (s := 7) (a := i % 128) (x := i / 128) (by omega) (by omega) (by omega)).mp
        (by
          rw [show i % 128 + i / 128 * 2 ^ 7 = i by omega, show 7 * (k + 1) + 7 = 7 * (k + 1 + 1) by omega]
          exact hk)
      have := ih k this
      simp only [List.length_cons]; omega

theorem canonical_w3c : Canonical .w3c where
  le := w3c_le_code
  u32 v := by
    obtain ⟨h1, h2⟩ := encU_spec v.toNat
    have h3 := encU_five v.isLt
    have := UN_of_group _ 32 h1 (by rw [h2]; exact v.isLt) (by omega)
    rw [h2] at this
    exact this
  s32 v := by
    obtain ⟨h1, h2⟩ := encS_spec v.toInt
    have h3 := encS_length_le _ 4 (inRange_mono (by decide) (inRange_toInt (by decide) v))
    have := SN_of_group _ 32 h1 (by rw [h2]; exact inRange_toInt (by decide) v) (by omega)
    rw [h2] at this
    exact this
  s64 v := by
    obtain ⟨h1, h2⟩ := encS_spec v.toInt
    have h3 := encS_length_le _ 9 (inRange_mono (by decide) (inRange_toInt (by decide) v))
    have := SN_of_group _ 64 h1 (by rw [h2]; exact inRange_toInt (by decide) v) (by omega)
    rw [h2] at this
    exact this
  reserved := by rintro b v ⟨rfl, rfl⟩; exact ⟨by decide +kernel, rfl⟩

/-! ## Vectors -/

section
variable {α : Type} {enc : α → List Byte} {G : List Byte → α → Prop}

theorem mem_flatMap_length {x : α} : ∀ {xs : List α}, x ∈ xs → (enc x).length ≤ (xs.flatMap enc).length
  | y :: ys, h => by
    rw [List.flatMap_cons, List.length_append]
    rcases List.mem_cons.mp h with rfl | h
    · omega
    · have := mem_flatMap_length h; omega

theorem length_flatMap_le (hp : ∀ x, 1 ≤ (enc x).length) : ∀ xs : List α, xs.length ≤ (xs.flatMap enc).length
  | [] => by simp
  | y :: ys => by
    rw [List.flatMap_cons, List.length_append, List.length_cons]
    have := hp y
    have := length_flatMap_le hp ys
    omega

theorem makes_seq : ∀ {xs : List α}, (∀ x ∈ xs, G (enc x) x) → GSeq G (xs.flatMap enc) xs
  | [], _ => .nil
  | x :: xs, h => by
    rw [List.flatMap_cons]
    exact .cons (h x List.mem_cons_self) (makes_seq fun y hy => h y (List.mem_cons_of_mem _ hy))

theorem makes_len {D : Dialect} (hD : Canonical D) {n : Nat} (h : n < 2 ^ 32) : D.u32 (encU n) (BitVec.ofNat 32 n) := by
  have := hD.u32 (BitVec.ofNat 32 n)
  rwa [BitVec.toNat_ofNat, Nat.mod_eq_of_lt h] at this

theorem makes_vec {D : Dialect} (hD : Canonical D) (hp : ∀ x, 1 ≤ (enc x).length) {xs : List α}
    (hG : ∀ x ∈ xs, (enc x).length < 2 ^ 32 → G (enc x) x) (hl : (encVec enc xs).length < 2 ^ 32) : GVec D G (encVec enc xs) xs := by
  unfold encVec at hl ⊢
  rw [List.length_append] at hl
  have h1 := length_flatMap_le hp xs
  have h2 : xs.length < 2 ^ 32 := by omega
  refine .mk (makes_len hD h2) (by rw [BitVec.toNat_ofNat, Nat.mod_eq_of_lt h2]) (makes_seq fun x hx => hG x hx ?_)
  have := mem_flatMap_length (enc := enc) hx
  omega

theorem makes_sized {D : Dialect} (hD : Canonical D) {b : List Byte} {x : α} (h : G b x) (hl : b.length < 2 ^ 32) :
    GSized D G (encSized b) x :=
  .mk (makes_len hD hl) (by rw [BitVec.toNat_ofNat, Nat.mod_eq_of_lt hl]) h

theorem least_seq (hG : ∀ b x, G b x → (enc x).length ≤ b.length) {b : List Byte} {xs : List α} (h : GSeq G b xs) :
    (xs.flatMap enc).length ≤ b.length := by
  induction h with
  | nil => simp
  | cons h1 _ ih =>
    have := hG _ _ h1
    simp only [List.flatMap_cons, List.length_append]; omega

theorem least_len {b : List Byte} {v : U32} (h : Dialect.code.u32 b v) : (encU v.toNat).length ≤ b.length :=
  encU_minimal _ _ h.1 h.2

theorem least_vec (hG : ∀ b x, G b x → (enc x).length ≤ b.length) {b : List Byte} {xs : List α} (h : GVec .code G b xs) :
    (encVec enc xs).length ≤ b.length := by
  cases h with
  | mk h1 h2 h3 =>
    have := least_seq hG h3
    have := least_len h1
    simp only [encVec, List.length_append, h2]; omega

theorem least_sized {f : α → List Byte} (hG : ∀ b x, G b x → (f x).length ≤ b.length) {b : List Byte} {x : α} (h : GSized .code G b x) :
    (encSized (f x)).length ≤ b.length := by
  cases h with
  | mk h1 h2 h3 =>
    have h4 := hG _ _ h3
    have := least_len h1
    have := encU_mono (h2 ▸ h4)
    simp only [encSized, List.length_append]; omega

theorem gseq_all {P : α → Prop} (hG : ∀ b x, G b x → P x) {b : List Byte} {xs : List α} (h : GSeq G b xs) : ∀ x ∈ xs, P x := by
  induction h with
  | nil => simp
  | cons h1 _ ih =>
    intro y hy
    rcases List.mem_cons.mp hy with rfl | hy
    · exact hG _ _ h1
    · exact ih y hy

theorem gvec_all {D : Dialect} {P : α → Prop} (hG : ∀ b x, G b x → P x) {b : List Byte} {xs : List α} (h : GVec D G b xs) : ∀ x ∈ xs, P x := by
  cases h with
  | mk _ _ h => exact gseq_all hG h

theorem gsized_all {D : Dialect} {P : α → Prop} (hG : ∀ b x, G b x → P x) {b : List Byte} {x : α} (h : GSized D G b x) : P x := by
  cases h with
  | mk _ _ h => exact hG _ _ h

end

/-! ## Values and types -/

theorem encByte_pos (b : Byte) : 1 ≤ (encByte b).length := Nat.le_refl 1

theorem encIdx_pos (i : Idx) : 1 ≤ (encIdx i).length := encU_pos _

theorem encVal_length (t : Val) : (encVal t).length = 1 := by cases t <;> rfl

theorem encVec_pos {α : Type} (enc : α → List Byte) (xs : List α) : 1 ≤ (encVec enc xs).length := by
  have := encU_pos xs.length
  simp only [encVec, List.length_append]; omega

theorem encRetVal_length (t : RetVal) : (encRetVal t).length = 1 := by cases t <;> simp [encRetVal, encVal_length]

variable {D : Dialect}

theorem least_byte {b : List Byte} {x : Byte} (h : GByte b x) : (encByte x).length ≤ b.length := by
  cases h; simp [encByte]

theorem makes_name (hD : Canonical D) {n : Name} (hn : IsUtf8 n) (hl : (encName n).length < 2 ^ 32) : GName D (encName n) n :=
  .mk (makes_vec hD encByte_pos (fun x _ _ => .mk x) hl) hn

theorem least_name {b : List Byte} {n : Name} (h : GName .code b n) : (encName n).length ≤ b.length := by
  cases h with
  | mk h _ => exact least_vec (G := GByte) (fun _ _ => least_byte) h

theorem gname_utf8 {b : List Byte} {n : Name} (h : GName D b n) : IsUtf8 n := by
  cases h with
  | mk _ h => exact h

theorem makes_val (t : Val) : GVal (encVal t) t := by cases t <;> constructor

theorem gval_length {b : List Byte} {t : Val} (h : GVal b t) : b.length = 1 := by cases h <;> rfl

theorem least_val {b : List Byte} {t : Val} (h : GVal b t) : (encVal t).length ≤ b.length := by
  rw [encVal_length, gval_length h]; omega

theorem makes_retVal {t : RetVal} (h : t.length ≤ 1) : GRetVal (encRetVal t) t := by
  match t, h with
  | [], _ => exact .empty
  | [t], _ => exact .val (makes_val t)

theorem gretVal_pos {b : List Byte} {t : RetVal} (h : GRetVal b t) : b.length = 1 := by
  cases h with
  | empty => rfl
  | val h => exact gval_length h

theorem makes_funcTy (hD : Canonical D) (t : FuncTy) (hl : (encFuncTy t).length < 2 ^ 32) : GFuncTy D (encFuncTy t) t := by
  have hl' := hl
  simp only [encFuncTy, List.length_append, List.length_cons] at hl'
  exact .mk (makes_vec hD (fun t => by rw [encVal_length]; omega) (fun x _ _ => makes_val x) (by omega))
    (makes_vec hD (fun t => by rw [encVal_length]; omega) (fun x _ _ => makes_val x) (by omega))

theorem least_funcTy {b : List Byte} {t : FuncTy} (h : GFuncTy .code b t) : (encFuncTy t).length ≤ b.length := by
  cases h with
  | mk h1 h2 =>
    have h1 := least_vec (G := GVal) (fun _ _ => least_val) h1
    have h2 := least_vec (G := GVal) (fun _ _ => least_val) h2
    simp only [encFuncTy, List.length_append, List.length_cons]; omega

theorem makes_limits (hD : Canonical D) (l : Limits) : GLimits D (encLimits l) l := by
  match l with
  | ⟨n, none⟩ => exact .min (hD.u32 n)
  | ⟨n, some m⟩ => exact .minMax (hD.u32 n) (hD.u32 m)

theorem least_limits {b : List Byte} {l : Limits} (h : GLimits .code b l) : (encLimits l).length ≤ b.length := by
  cases h with
  | min h => have := least_len h; simp only [encLimits, encIdx, List.length_cons]; omega
  | minMax h1 h2 =>
    have h1 := least_len h1
    have h2 := least_len h2
    simp only [encLimits, encIdx, List.length_append, List.length_cons]; omega

theorem makes_tableTy (hD : Canonical D) (t : TableTy) : GTableTy D (encTableTy t) t := by
  match t with
  | ⟨l, .funcRef⟩ => exact .mk .funcRef (makes_limits hD l)

theorem least_tableTy {b : List Byte} {t : TableTy} (h : GTableTy .code b t) : (encTableTy t).length ≤ b.length := by
  cases h with
  | mk h1 h2 =>
    have := least_limits h2
    cases h1
    simp only [encTableTy, encElemTy, List.length_append, List.length_cons, List.length_nil]; omega

theorem makes_memTy (hD : Canonical D) (t : MemTy) : GMemTy D (encLimits t.lim) t := .mk (makes_limits hD _)

theorem least_memTy {b : List Byte} {t : MemTy} (h : GMemTy .code b t) : (encLimits t.lim).length ≤ b.length := by
  cases h with
  | mk h => exact least_limits h

theorem makes_globalTy (t : GlobalTy) : GGlobalTy (encGlobalTy t) t := by
  match t with
  | ⟨.const, v⟩ => exact .mk (makes_val v) .const
  | ⟨.var, v⟩ => exact .mk (makes_val v) .var

theorem encMut_length (m : Mut) : (encMut m).length = 1 := by cases m <;> rfl

theorem least_globalTy {b : List Byte} {t : GlobalTy} (h : GGlobalTy b t) : (encGlobalTy t).length ≤ b.length := by
  cases h with
  | mk h1 h2 =>
    have := least_val h1
    have h3 := encMut_length
    cases h2 <;> simp only [encGlobalTy, List.length_append, h3, List.length_singleton] <;> omega

/-! ## Instructions -/

mutual

theorem makes_instr (hD : Canonical D) : ∀ i : Instr, (∀ j, Occurs j [i] → Writable D j) → (encInstr i).length < 2 ^ 32 →
    GInstr D (encInstr i) i
  | .block t b, h, hl => by
    simp only [encInstr] at hl ⊢
    refine .block (makes_retVal (h _ (.here (List.mem_singleton.mpr rfl))))
      (makes_instrs hD b (fun j hj => h j (.block (List.mem_singleton.mpr rfl) hj)) ?_)
    simp only [List.length_append, List.length_cons] at hl; omega
  | .loop t b, h, hl => by
    simp only [encInstr] at hl ⊢
    refine .loop (makes_retVal (h _ (.here (List.mem_singleton.mpr rfl))))
      (makes_instrs hD b (fun j hj => h j (.loop (List.mem_singleton.mpr rfl) hj)) ?_)
    simp only [List.length_append, List.length_cons] at hl; omega
  | .ifElse t a [], h, hl => by
    simp only [encInstr] at hl ⊢
    refine .ifThen (makes_retVal (h _ (.here (List.mem_singleton.mpr rfl))))
      (makes_instrs hD a (fun j hj => h j (.thn (List.mem_singleton.mpr rfl) hj)) ?_)
    simp only [List.length_append, List.length_cons] at hl; omega
  | .ifElse t a (i :: is), h, hl => by
    simp only [encInstr] at hl ⊢
    simp only [List.length_append, List.length_cons] at hl
    have h2 := makes_instrs hD (i :: is) (fun j hj => h j (.els (List.mem_singleton.mpr rfl) hj))
      (by simp only [encInstrs, List.length_append]; omega)
    refine .ifElse (makes_retVal (h _ (.here (List.mem_singleton.mpr rfl))))
      (makes_instrs hD a (fun j hj => h j (.thn (List.mem_singleton.mpr rfl) hj)) ?_) (by simpa only [encInstrs] using h2)
    omega
  | .elseMark, h, _ => (h _ (.here (List.mem_singleton.mpr rfl))).elim
  | .endMark, h, _ => (h _ (.here (List.mem_singleton.mpr rfl))).elim
  | .unreachable, _, _ => by simp only [encInstr]; exact .unreachable
  | .nop, _, _ => by simp only [encInstr]; exact .nop
  | .br l, _, _ => by simp only [encInstr]; exact .br (hD.u32 l)
  | .brIf l, _, _ => by simp only [encInstr]; exact .brIf (hD.u32 l)
  | .brTable ls l, _, hl => by
    simp only [encInstr] at hl ⊢
    simp only [List.length_append, List.length_cons] at hl
    exact .brTable (makes_vec hD encIdx_pos (fun x _ _ => hD.u32 x) (by omega)) (hD.u32 l)
  | .ret, _, _ => by simp only [encInstr]; exact .ret
  | .call l, _, _ => by simp only [encInstr]; exact .call (hD.u32 l)
  | .callIndirect t l, h, _ => by
    obtain ⟨b, hb⟩ := h _ (.here (List.mem_singleton.mpr rfl))
    simp only [encInstr]; exact .callIndirect (hD.u32 t) (hD.reserved hb)
  | .drop, _, _ => by simp only [encInstr]; exact .drop
  | .select, _, _ => by simp only [encInstr]; exact .select
  | .localGet l, _, _ => by simp only [encInstr]; exact .localGet (hD.u32 l)
  | .localSet l, _, _ => by simp only [encInstr]; exact .localSet (hD.u32 l)
  | .localTee l, _, _ => by simp only [encInstr]; exact .localTee (hD.u32 l)
  | .globalGet l, _, _ => by simp only [encInstr]; exact .globalGet (hD.u32 l)
  | .globalSet l, _, _ => by simp only [encInstr]; exact .globalSet (hD.u32 l)
  | .load op x y, _, _ => by simp only [encInstr]; exact .load op (hD.u32 x) (hD.u32 y)
  | .store op x y, _, _ => by simp only [encInstr]; exact .store op (hD.u32 x) (hD.u32 y)
  | .memSize l, h, _ => by
    obtain ⟨b, hb⟩ := h _ (.here (List.mem_singleton.mpr rfl))
    simp only [encInstr]; exact .memSize (hD.reserved hb)
  | .memGrow l, h, _ => by
    obtain ⟨b, hb⟩ := h _ (.here (List.mem_singleton.mpr rfl))
    simp only [encInstr]; exact .memGrow (hD.reserved hb)
  | .constI32 v, _, _ => by simp only [encInstr]; exact .constI32 (hD.s32 v)
  | .constI64 v, _, _ => by simp only [encInstr]; exact .constI64 (hD.s64 v)
  | .constF32 v, _, _ => by
    obtain ⟨h1, h2⟩ := leBytes_spec 4 v.toNat v.isLt
    simp only [encInstr]; exact .constF32 (.mk h1 h2)
  | .constF64 v, _, _ => by
    obtain ⟨h1, h2⟩ := leBytes_spec 8 v.toNat v.isLt
    simp only [encInstr]; exact .constF64 (.mk h1 h2)
  | .num op, _, _ => by simp only [encInstr]; exact .num op

theorem makes_instrs (hD : Canonical D) : ∀ e : List Instr, (∀ j, Occurs j e → Writable D j) → (encInstrs e).length < 2 ^ 32 →
    GInstrs D (encInstrs e) e
  | [], _, _ => by simp only [encInstrs]; exact .nil
  | i :: is, h, hl => by
    simp only [encInstrs] at hl ⊢
    rw [List.length_append] at hl
    exact .cons (makes_instr hD i (fun j hj => h j (occurs_split.mpr (.inl hj))) (by omega))
      (makes_instrs hD is (fun j hj => h j (occurs_split.mpr (.inr hj))) (by omega))

end

theorem encInstrs_cons (i : Instr) (is : List Instr) : encInstrs (i :: is) = encInstr i ++ encInstrs is := by simp only [encInstrs]

theorem least_instrs {b : List Byte} {x : List Instr} (h : GInstrs .code b x) : (encInstrs x).length ≤ b.length := by
  refine GInstrs.rec (D := .code) (motive_1 := fun b i _ => (encInstr i).length ≤ b.length)
    (motive_2 := fun b is _ => (encInstrs is).length ≤ b.length)
    ?_ ?_ ?_ ?_ ?_ ?_ ?_ ?_ ?_ ?_ ?_ ?_ ?_ ?_ ?_ ?_ ?_ ?_ ?_ ?_ ?_ ?_ ?_ ?_ ?_ ?_ ?_ ?_ ?_ ?_ h
  · simp [encInstr]
  · simp [encInstr]
  · intro b1 b2 t is h1 h2 ih
    have := gretVal_pos h1
    have := encRetVal_length t
    simp only [encInstr, List.length_append, List.length_cons]; omega
  · intro b1 b2 t is h1 h2 ih
    have := gretVal_pos h1
    have := encRetVal_length t
    simp only [encInstr, List.length_append, List.length_cons]; omega
  · intro b1 b2 t is h1 h2 ih
    have := gretVal_pos h1
    have := encRetVal_length t
    simp only [encInstr, List.length_append, List.length_cons]; omega
  · intro b1 b2 b3 t is js h1 h2 h3 ih ih2
    have := gretVal_pos h1
    have := encRetVal_length t
    cases js with
    | nil => simp only [encInstr, List.length_append, List.length_cons]; omega
    | cons j js =>
      rw [encInstrs_cons, List.length_append] at ih2
      simp only [encInstr, List.length_append, List.length_cons]; omega
  · intro b l h; have := least_len h; simp only [encInstr, encIdx, List.length_cons]; omega
  · intro b l h; have := least_len h; simp only [encInstr, encIdx, List.length_cons]; omega
  · intro b1 b2 ls l h1 h2
    have h1 := least_vec (enc := encIdx) (G := Dialect.code.u32) (fun _ _ => least_len) h1
    have h2 := least_len h2
    simp only [encInstr, List.length_append, List.length_cons, encIdx] at h1 ⊢; omega
  · simp [encInstr]
  · intro b l h; have := least_len h; simp only [encInstr, encIdx, List.length_cons]; omega
  · intro b1 b2 x y h1 h2
    have h1 := least_len h1
    have h2 := least_len h2
    simp only [encInstr, encIdx, List.length_append, List.length_cons]; omega
  · simp [encInstr]
  · simp [encInstr]
  · intro b l h; have := least_len h; simp only [encInstr, encIdx, List.length_cons]; omega
  · intro b l h; have := least_len h; simp only [encInstr, encIdx, List.length_cons]; omega
  · intro b l h; have := least_len h; simp only [encInstr, encIdx, List.length_cons]; omega
  · intro b l h; have := least_len h; simp only [encInstr, encIdx, List.length_cons]; omega
  · intro b l h; have := least_len h; simp only [encInstr, encIdx, List.length_cons]; omega
  · intro b1 b2 x y op h1 h2
    have h1 := least_len h1
    have h2 := least_len h2
    simp only [encInstr, encIdx, List.length_append, List.length_cons]; omega
  · intro b1 b2 x y op h1 h2
    have h1 := least_len h1
    have h2 := least_len h2
    simp only [encInstr, encIdx, List.length_append, List.length_cons]; omega
  · intro b l h; have := least_len h; simp only [encInstr, encIdx, List.length_cons]; omega
  · intro b l h; have := least_len h; simp only [encInstr, encIdx, List.length_cons]; omega
  · intro b v h; have := encS_minimal _ _ h.1 h.2; simp only [encInstr, List.length_cons]; omega
  · intro b v h; have := encS_minimal _ _ h.1 h.2; simp only [encInstr, List.length_cons]; omega
  · intro b v h
    have := (leBytes_spec 4 v.toNat v.isLt).1
    cases h with
    | mk h _ => simp only [encInstr, List.length_cons]; omega
  · intro b v h
    have := (leBytes_spec 8 v.toNat v.isLt).1
    cases h with
    | mk h _ => simp only [encInstr, List.length_cons]; omega
  · simp [encInstr]
  · simp [encInstrs]
  · intro b bs i is h1 h2 ih1 ih2
    simp only [encInstrs, List.length_append]; omega

theorem ginstr_writable {b : List Byte} {i : Instr} (h : GInstr D b i) : Writable D i := by
  cases h with
  | block h _ => exact gretVal_length h
  | loop h _ => exact gretVal_length h
  | ifThen h _ => exact gretVal_length h
  | ifElse h _ _ => exact gretVal_length h
  | callIndirect _ h => exact ⟨_, h⟩
  | memSize h => exact ⟨_, h⟩
  | memGrow h => exact ⟨_, h⟩
  | _ => trivial

theorem makes_expr (hD : Canonical D) {e : Expr} (h : ∀ j, Occurs j e → Writable D j) (hl : (encExpr e).length < 2 ^ 32) :
    GExpr D (encExpr e) e := by
  simp only [encExpr, List.length_append] at hl
  exact .mk (makes_instrs hD e h (by omega))

theorem least_expr {b : List Byte} {e : Expr} (h : GExpr .code b e) : (encExpr e).length ≤ b.length := by
  cases h with
  | mk h =>
    have := least_instrs h
    simp only [encExpr, List.length_append, List.length_cons]; omega

theorem gexpr_writable {b : List Byte} {e : Expr} (h : GExpr D b e) : ∀ j, Occurs j e → Writable D j := by
  cases h with
  | mk h =>
    intro j hj
    obtain ⟨_, h⟩ := ginstrs_occurs hj h
    exact ginstr_writable h

/-! ## Items -/

theorem makes_importDesc (hD : Canonical D) (d : ImportDesc) : GImportDesc D (encImportDesc d) d := by
  cases d with
  | func i => exact .func (hD.u32 i)
  | table t => exact .table (makes_tableTy hD t)
  | mem t => exact .mem (makes_memTy hD t)
  | global t => exact .global (makes_globalTy t)

theorem least_importDesc {b : List Byte} {d : ImportDesc} (h : GImportDesc .code b d) : (encImportDesc d).length ≤ b.length := by
  cases h with
  | func h => have := least_len h; simp only [encImportDesc, encIdx, List.length_cons]; omega
  | table h => have := least_tableTy h; simp only [encImportDesc, List.length_cons]; omega
  | mem h => have := least_memTy h; simp only [encImportDesc, List.length_cons]; omega
  | global h => have := least_globalTy h; simp only [encImportDesc, List.length_cons]; omega

theorem makes_import (hD : Canonical D) {i : Import} (h : IsUtf8 i.module ∧ IsUtf8 i.name) (hl : (encImport i).length < 2 ^ 32) :
    GImport D (encImport i) i := by
  simp only [encImport, List.length_append] at hl
  exact .mk (makes_name hD h.1 (by omega)) (makes_name hD h.2 (by omega)) (makes_importDesc hD _)

theorem least_import {b : List Byte} {i : Import} (h : GImport .code b i) : (encImport i).length ≤ b.length := by
  cases h with
  | mk h1 h2 h3 =>
    have := least_name h1
    have := least_name h2
    have := least_importDesc h3
    simp only [encImport, List.length_append]; omega

theorem gimport_utf8 {b : List Byte} {i : Import} (h : GImport D b i) : IsUtf8 i.module ∧ IsUtf8 i.name := by
  cases h with
  | mk h1 h2 h3 => exact ⟨gname_utf8 h1, gname_utf8 h2⟩

theorem encImport_pos (i : Import) : 1 ≤ (encImport i).length := by
  have := encVec_pos encByte i.module
  simp only [encImport, encName, List.length_append]; omega

theorem makes_exportDesc (hD : Canonical D) (d : ExportDesc) : GExportDesc D (encExportDesc d) d := by
  cases d with
  | func i => exact .func (hD.u32 i)
  | table i => exact .table (hD.u32 i)
  | mem i => exact .mem (hD.u32 i)
  | global i => exact .global (hD.u32 i)

theorem least_exportDesc {b : List Byte} {d : ExportDesc} (h : GExportDesc .code b d) : (encExportDesc d).length ≤ b.length := by
  cases h <;> rename_i h <;> have := least_len h <;> simp only [encExportDesc, encIdx, List.length_cons] <;> omega

theorem makes_export (hD : Canonical D) {i : Export} (h : IsUtf8 i.name) (hl : (encExport i).length < 2 ^ 32) :
    GExport D (encExport i) i := by
  simp only [encExport, List.length_append] at hl
  exact .mk (makes_name hD h (by omega)) (makes_exportDesc hD _)

theorem least_export {b : List Byte} {i : Export} (h : GExport .code b i) : (encExport i).length ≤ b.length := by
  cases h with
  | mk h1 h2 =>
    have := least_name h1
    have := least_exportDesc h2
    simp only [encExport, List.length_append]; omega

theorem gexport_utf8 {b : List Byte} {i : Export} (h : GExport D b i) : IsUtf8 i.name := by
  cases h with
  | mk h1 h2 => exact gname_utf8 h1

theorem encExport_pos (i : Export) : 1 ≤ (encExport i).length := by
  have := encVec_pos encByte i.name
  simp only [encExport, encName, List.length_append]; omega

theorem encLimits_pos (l : Limits) : 1 ≤ (encLimits l).length := by
  unfold encLimits; split <;> simp <;> omega

theorem encTable_pos (t : Table) : 1 ≤ (encTable t).length := by
  have := encLimits_pos t.ty.lim
  simp only [encTable, encTableTy, List.length_append]; omega

theorem makes_table (hD : Canonical D) (t : Table) : GTable D (encTable t) t := .mk (makes_tableTy hD _)

theorem least_table {b : List Byte} {t : Table} (h : GTable .code b t) : (encTable t).length ≤ b.length := by
  cases h with
  | mk h => exact least_tableTy h

theorem makes_mem (hD : Canonical D) (t : Mem) : GMem D (encMem t) t := .mk (makes_memTy hD _)

theorem least_mem {b : List Byte} {t : Mem} (h : GMem .code b t) : (encMem t).length ≤ b.length := by
  cases h with
  | mk h => exact least_memTy h

theorem encExpr_pos (e : Expr) : 1 ≤ (encExpr e).length := by simp [encExpr]

theorem makes_global (hD : Canonical D) {g : Global} (h : ∀ j, Occurs j g.init → Writable D j) (hl : (encGlobal g).length < 2 ^ 32) :
    GGlobal D (encGlobal g) g := by
  simp only [encGlobal, List.length_append] at hl
  exact .mk (makes_globalTy _) (makes_expr hD h (by omega))

theorem least_global {b : List Byte} {g : Global} (h : GGlobal .code b g) : (encGlobal g).length ≤ b.length := by
  cases h with
  | mk h1 h2 =>
    have := least_globalTy h1
    have := least_expr h2
    simp only [encGlobal, List.length_append]; omega

theorem gglobal_writable {b : List Byte} {g : Global} (h : GGlobal D b g) : ∀ j, Occurs j g.init → Writable D j := by
  cases h with
  | mk _ h => exact gexpr_writable h

theorem encGlobal_pos (g : Global) : 1 ≤ (encGlobal g).length := by
  have := encExpr_pos g.init
  simp only [encGlobal, List.length_append]; omega

theorem makes_elem (hD : Canonical D) {g : Elem} (h : ∀ j, Occurs j g.offset → Writable D j) (hl : (encElem g).length < 2 ^ 32) :
    GElem D (encElem g) g := by
  simp only [encElem, List.length_append] at hl
  exact .mk (hD.u32 _) (makes_expr hD h (by omega)) (makes_vec hD encIdx_pos (fun x _ _ => hD.u32 x) (by omega))

theorem least_elem {b : List Byte} {g : Elem} (h : GElem .code b g) : (encElem g).length ≤ b.length := by
  cases h with
  | mk h1 h2 h3 =>
    have := least_len h1
    have := least_expr h2
    have := least_vec (enc := encIdx) (G := Dialect.code.u32) (fun _ _ => least_len) h3
    simp only [encElem, List.length_append]; simp only [encIdx]; omega

theorem gelem_writable {b : List Byte} {g : Elem} (h : GElem D b g) : ∀ j, Occurs j g.offset → Writable D j := by
  cases h with
  | mk _ h _ => exact gexpr_writable h

theorem encElem_pos (g : Elem) : 1 ≤ (encElem g).length := by
  have := encExpr_pos g.offset
  simp only [encElem, List.length_append]; omega

theorem makes_data (hD : Canonical D) {g : Data} (h : ∀ j, Occurs j g.offset → Writable D j) (hl : (encData g).length < 2 ^ 32) :
    GData D (encData g) g := by
  simp only [encData, List.length_append] at hl
  exact .mk (hD.u32 _) (makes_expr hD h (by omega)) (makes_vec hD encByte_pos (fun x _ _ => .mk x) (by omega))

theorem least_data {b : List Byte} {g : Data} (h : GData .code b g) : (encData g).length ≤ b.length := by
  cases h with
  | mk h1 h2 h3 =>
    have := least_len h1
    have := least_expr h2
    have := least_vec (G := GByte) (fun _ _ => least_byte) h3
    simp only [encData, List.length_append]; simp only [encIdx]; omega

theorem gdata_writable {b : List Byte} {g : Data} (h : GData D b g) : ∀ j, Occurs j g.offset → Writable D j := by
  cases h with
  | mk _ h _ => exact gexpr_writable h

theorem encData_pos (g : Data) : 1 ≤ (encData g).length := by
  have := encExpr_pos g.offset
  simp only [encData, List.length_append]; omega

/-! ## Runs of locals -/

theorem runs_expand : ∀ ts : List Val, expand (runs ts) = ts
  | [] => rfl
  | t :: ts => by
    have ih := runs_expand ts
    rw [runs]
    split
    · next h => rw [h] at ih; simp [expand] at ih ⊢; exact ih
    · next n u rs h =>
      rw [h] at ih
      split
      · next hc =>
        obtain ⟨rfl, _⟩ := hc
        simp only [expand, List.flatMap_cons] at ih ⊢
        rw [List.replicate_succ, List.cons_append, ih]
      · simp only [expand, List.flatMap_cons] at ih ⊢
        rw [ih]; rfl

theorem runs_bounds : ∀ ts : List Val, ∀ r ∈ runs ts, 1 ≤ r.1 ∧ r.1 < 2 ^ 32
  | [] => by simp [runs]
  | t :: ts => by
    have ih := runs_bounds ts
    rw [runs]
    split
    · simp
    · next n u rs h =>
      rw [h] at ih
      split
      · next hc =>
        intro r hr
        rcases List.mem_cons.mp hr with rfl | hr
        · exact ⟨by omega, hc.2⟩
        · exact ih r (List.mem_cons_of_mem _ hr)
      · intro r hr
        rcases List.mem_cons.mp hr with rfl | hr
        · exact ⟨by omega, Nat.one_lt_two_pow (by decide)⟩
        · exact ih r hr

/-- What becomes of the runs when `n` locals of type `t` are added. -/
def addRun (n : Nat) (t : Val) : List (Nat × Val) → List (Nat × Val)
  | [] => [(n, t)]
  | (k, u) :: rs =>
    if u = t then
      if k + n < 2 ^ 32 then (k + n, t) :: rs else (k + n - (2 ^ 32 - 1), t) :: (2 ^ 32 - 1, t) :: rs
    else (n, t) :: (k, u) :: rs

theorem runs_replicate (t : Val) (ts : List Val) : ∀ n, n + 1 < 2 ^ 32 → runs (List.replicate (n + 1) t ++ ts) = addRun (n + 1) t (runs ts)
  | 0, _ => by
    rw [List.replicate_succ, List.cons_append, List.replicate_zero, List.nil_append, runs]
    have hb := runs_bounds ts
    cases h : runs ts with
    | nil => rfl
    | cons r rs =>
      obtain ⟨k, u⟩ := r
      have hk := hb (k, u) (by rw [h]; exact List.mem_cons_self)
      simp only at hk
      simp only [addRun, Nat.zero_add]
      by_cases hu : u = t
      · subst hu
        by_cases hc : k + 1 < 2 ^ 32
        · simp [hc]
        · have : k = 2 ^ 32 - 1 := by omega
          subst this
          simp
      · simp [hu]
  | n + 1, hn => by
    have ih := runs_replicate t ts n (by omega)
    rw [List.replicate_succ, List.cons_append, runs, ih]
    have hb := runs_bounds ts
    cases h : runs ts with
    | nil => simp [addRun, hn]
    | cons r rs =>
      obtain ⟨k, u⟩ := r
      have hk := hb (k, u) (by rw [h]; exact List.mem_cons_self)
      simp only at hk
      simp only [addRun]
      by_cases hu : u = t
      · subst hu
        simp only [if_true]
        by_cases hc : k + (n + 1) < 2 ^ 32
        · rw [if_pos hc]
          simp only [true_and]
          by_cases hc' : k + (n + 1 + 1) < 2 ^ 32
          · rw [if_pos hc', if_pos (by omega)]; rfl
          · rw [if_neg hc', if_neg (by omega), show k + (n + 1) = 2 ^ 32 - 1 by omega,
              show k + (n + 1 + 1) - (2 ^ 32 - 1) = 1 by omega]
        · rw [if_neg hc, if_neg (by omega : ¬ k + (n + 1 + 1) < 2 ^ 32)]
          simp only [true_and]
          rw [if_pos (by omega), show k + (n + 1) - (2 ^ 32 - 1) + 1 = k + (n + 1 + 1) - (2 ^ 32 - 1) by omega]
      · rw [if_neg hu, if_neg hu]
        simp only [true_and]
        rw [if_pos hn]

theorem encRun_length (r : Nat × Val) : (encRun r).length = (encU r.1).length + 1 := by
  simp [encRun, encVal_length]

theorem addRun_cost {n : Nat} (t : Val) (hn : n < 2 ^ 32) (rs : List (Nat × Val)) (hr : ∀ r ∈ rs, r.1 < 2 ^ 32) :
    (addRun n t rs).length ≤ rs.length + 1 ∧
    ((addRun n t rs).flatMap encRun).length ≤ (rs.flatMap encRun).length + (encU n).length + 1 := by
  cases rs with
  | nil => simp [addRun, encRun_length]
  | cons r rs =>
    obtain ⟨k, u⟩ := r
    have hk := hr (k, u) List.mem_cons_self
    simp only at hk
    simp only [addRun]
    by_cases hu : u = t
    · rw [if_pos hu]
      by_cases hc : k + n < 2 ^ 32
      · rw [if_pos hc]
        have := encU_add k n
        simp only [List.length_cons, List.flatMap_cons, List.length_append, encRun_length]; omega
      · rw [if_neg hc]
        have hM := encU_five (show 2 ^ 32 - 1 < 2 ^ 32 by decide)
        have hs : (encU (k + n - (2 ^ 32 - 1))).length + 5 ≤ (encU k).length + (encU n).length := by
          by_cases hb : 2 ^ 28 ≤ n
          · have := encU_big hb
            have := encU_mono (show k + n - (2 ^ 32 - 1) ≤ k by omega)
            omega
          · have := encU_big (show 2 ^ 28 ≤ k by omega)
            have := encU_mono (show k + n - (2 ^ 32 - 1) ≤ n by omega)
            omega
        simp only [List.length_cons, List.flatMap_cons, List.length_append, encRun_length]; omega
    · rw [if_neg hu]
      simp only [List.length_cons, List.flatMap_cons, List.length_append, encRun_length]; omega

/-- No way to write down the locals is shorter. -/
theorem runs_least : ∀ rs : List (Nat × Val), (∀ r ∈ rs, r.1 < 2 ^ 32) →
    (runs (expand rs)).length ≤ rs.length ∧ ((runs (expand rs)).flatMap encRun).length ≤ (rs.flatMap encRun).length
  | [], _ => by simp [expand, runs]
  | (n, t) :: rs, h => by
    have ih := runs_least rs fun r hr => h r (List.mem_cons_of_mem _ hr)
    have hn := h (n, t) List.mem_cons_self
    simp only at hn
    have he : expand ((n, t) :: rs) = List.replicate n t ++ expand rs := rfl
    rw [he]
    cases n with
    | zero =>
      simp only [List.replicate_zero, List.nil_append, List.length_cons, List.flatMap_cons, List.length_append]; omega
    | succ n =>
      rw [runs_replicate t _ n hn]
      have := addRun_cost t hn (runs (expand rs)) fun r hr => (runs_bounds _ r hr).2
      simp only [List.length_cons, List.flatMap_cons, List.length_append, encRun_length]; omega

theorem encVec_mono {α : Type} {enc : α → List Byte} {xs ys : List α} (h1 : xs.length ≤ ys.length)
    (h2 : (xs.flatMap enc).length ≤ (ys.flatMap enc).length) : (encVec enc xs).length ≤ (encVec enc ys).length := by
  have := encU_mono h1
  simp only [encVec, List.length_append]; omega

theorem makes_run (hD : Canonical D) {r : Nat × Val} (h : r.1 < 2 ^ 32) : GLocals D (encRun r) r := by
  obtain ⟨n, t⟩ := r
  have := GLocals.mk (makes_len hD h) (makes_val t)
  rwa [BitVec.toNat_ofNat, Nat.mod_eq_of_lt h] at this

theorem least_run {b : List Byte} {r : Nat × Val} (h : GLocals .code b r) : (encRun r).length ≤ b.length := by
  cases h with
  | mk h1 h2 =>
    have := least_len h1
    have := least_val h2
    simp only [encRun, List.length_append]; omega

theorem grun_bound {b : List Byte} {r : Nat × Val} (h : GLocals D b r) : r.1 < 2 ^ 32 := by
  cases h with
  | mk h1 h2 => exact BitVec.isLt _

theorem makes_func (hD : Canonical D) {f : List Val × Expr} (h : ∀ j, Occurs j f.2 → Writable D j) (hn : D.locals f.1.length)
    (hl : (encFunc f).length < 2 ^ 32) : GFunc D (encFunc f) f := by
  obtain ⟨ts, e⟩ := f
  simp only [encFunc, List.length_append] at hl
  have h1 : GVec D (GLocals D) (encVec encRun (runs ts)) (runs ts) := makes_vec hD (fun r => by rw [encRun_length]; omega)
    (fun r hr _ => makes_run hD (runs_bounds ts r hr).2) (by omega)
  have h2 : GExpr D (encExpr e) e := makes_expr hD h (by omega)
  have := GFunc.mk h1 (by rw [runs_expand]; exact hn) h2
  rwa [runs_expand] at this

theorem least_func {b : List Byte} {f : List Val × Expr} (h : GFunc .code b f) : (encFunc f).length ≤ b.length := by
  cases h with
  | mk h1 _ h2 =>
    have := least_vec (G := GLocals .code) (fun _ _ => least_run) h1
    have := least_expr h2
    obtain ⟨g1, g2⟩ := runs_least _ (gvec_all (G := GLocals .code) (P := fun r => r.1 < 2 ^ 32) (fun _ _ => grun_bound) h1)
    have := encVec_mono g1 g2
    simp only [encFunc, List.length_append]; omega

theorem gfunc_writable {b : List Byte} {f : List Val × Expr} (h : GFunc D b f) :
    (∀ j, Occurs j f.2 → Writable D j) ∧ D.locals f.1.length := by
  cases h with
  | mk _ hn h => exact ⟨gexpr_writable h, hn⟩

/-! ## Sections and modules -/

theorem makes_section {α : Type} {G : List Byte → α → Prop} {enc : α → List Byte} (hD : Canonical D) (id : Byte) {xs : List α}
    (hp : ∀ x, 1 ≤ (enc x).length) (hG : ∀ x ∈ xs, (enc x).length < 2 ^ 32 → G (enc x) x) (hl : (encVec enc xs).length < 2 ^ 32) :
    GVecSection D id G (encSection id xs (encVec enc xs)) xs := by
  unfold encSection
  cases xs with
  | nil => exact .absent
  | cons x xs => exact .present (.mk (makes_sized hD (makes_vec hD hp hG hl) hl))

theorem encVec_nil {α : Type} (enc : α → List Byte) : (encVec enc []).length < 2 ^ 32 := by
  have := encU_five (show 0 < 2 ^ 32 by decide)
  simp only [encVec, List.flatMap_nil, List.append_nil, List.length_nil]; omega

/-- The content of a section fits, and the section is no longer than any other one with the same items. -/
theorem least_section {α : Type} {G : List Byte → α → Prop} {enc : α → List Byte} {id : Byte}
    (hG : ∀ b x, G b x → (enc x).length ≤ b.length) {b : List Byte} {xs : List α} (h : GVecSection .code id G b xs) :
    (encVec enc xs).length < 2 ^ 32 ∧ (encSection id xs (encVec enc xs)).length ≤ b.length := by
  cases h with
  | absent => exact ⟨encVec_nil enc, Nat.le_refl _⟩
  | present h =>
    cases h with
    | mk h =>
      have h1 := least_sized (f := encVec enc) (fun _ _ => least_vec hG) h
      refine ⟨?_, ?_⟩
      · cases h with
        | mk _ h2 h3 =>
          have := least_vec hG h3
          have := BitVec.isLt ‹U32›
          omega
      · unfold encSection
        split
        · simp
        · simp only [List.length_cons]; omega

theorem gvecSection_all {α : Type} {G : List Byte → α → Prop} {P : α → Prop} (hG : ∀ b x, G b x → P x) {id : Byte} {b : List Byte}
    {xs : List α} (h : GVecSection D id G b xs) : ∀ x ∈ xs, P x := by
  cases h with
  | absent => simp
  | present h =>
    cases h with
    | mk h => exact gsized_all (G := GVec D G) (P := fun xs => ∀ x ∈ xs, P x) (fun _ _ => gvec_all hG) h

theorem makes_start (hD : Canonical D) (s : Option Start) : GStartSection D (encStart s) s := by
  cases s with
  | none => exact .absent
  | some s =>
    have : (encIdx s.func).length < 2 ^ 32 := by
      have := encU_five s.func.isLt
      unfold encIdx; omega
    exact .present (.mk (makes_sized hD (.mk (hD.u32 s.func)) this))

theorem least_start {b : List Byte} {s : Option Start} (h : GStartSection .code b s) : (encStart s).length ≤ b.length := by
  cases h with
  | absent => simp [encStart]
  | @present b s h =>
    cases h with
    | mk h =>
      have := least_sized (f := fun s : Start => encIdx s.func) (fun b s h => by cases h with | mk h => exact least_len h) h
      simp only [encStart, List.length_cons]; omega

theorem pair_self : ∀ fs : List Func, pairFuncs (fs.map (·.ty)) (fs.map fun f => (f.locals, f.body)) = fs
  | [] => rfl
  | f :: fs => by
    have := pair_self fs
    simp only [pairFuncs] at this
    simp only [pairFuncs, List.map_cons, List.zipWith_cons_cons, this]

theorem pair_parts : ∀ (tys : List Idx) (codes : List (List Val × Expr)), codes.length = tys.length →
    (pairFuncs tys codes).map (·.ty) = tys ∧ ((pairFuncs tys codes).map fun f => (f.locals, f.body)) = codes
  | [], [], _ => ⟨rfl, rfl⟩
  | [], _ :: _, h => by simp at h
  | _ :: _, [], h => by simp at h
  | t :: tys, c :: codes, h => by
    obtain ⟨h1, h2⟩ := pair_parts tys codes (by simpa using h)
    simp only [pairFuncs] at h1 h2
    simp [pairFuncs, h1, h2]

theorem encSized_pos (b : List Byte) : 1 ≤ (encSized b).length := by
  have := encU_pos b.length
  simp only [encSized, List.length_append]; omega

theorem mem_exprs {m : Module} {e : Expr} : e ∈ exprsOf m ↔
    (∃ f ∈ m.funcs, f.body = e) ∨ (∃ g ∈ m.globals, g.init = e) ∨ (∃ g ∈ m.elem, g.offset = e) ∨ ∃ g ∈ m.data, g.offset = e := by
  simp only [exprsOf, List.mem_append, List.mem_map, or_assoc]

theorem encSection_map (i : Byte) {α β : Type} (f : α → β) (xs : List α) (c : List Byte) :
    encSection i (xs.map f) c = encSection i xs c := by simp [encSection]

theorem makes_module (hD : Canonical D) {m : Module} (h : Encodable D m) : GModule D (encModule m) m := by
  have e1 := makes_section hD 0x01 (G := GFuncTy D) (enc := encFuncTy) (xs := m.types) (fun t => by simp [encFuncTy])
    (fun x _ hx => makes_funcTy hD x hx) h.types_size
  have e2 := makes_section hD 0x02 (G := GImport D) (enc := encImport) (xs := m.imports) encImport_pos
    (fun x hm hx => makes_import hD (h.imports x hm) hx) h.imports_size
  have e3 := makes_section hD 0x03 (G := D.u32) (enc := encIdx) (xs := m.funcs.map Func.ty) encIdx_pos
    (fun x _ _ => hD.u32 x) h.tys_size
  have e4 := makes_section hD 0x04 (G := GTable D) (enc := encTable) (xs := m.tables) encTable_pos
    (fun x _ _ => makes_table hD x) h.tables_size
  have e5 := makes_section hD 0x05 (G := GMem D) (enc := encMem) (xs := m.mems) (fun m => encLimits_pos m.ty.lim)
    (fun x _ _ => makes_mem hD x) h.mems_size
  have e6 := makes_section hD 0x06 (G := GGlobal D) (enc := encGlobal) (xs := m.globals) encGlobal_pos
    (fun x hm hx => makes_global hD (h.exprs _ (mem_exprs.mpr (.inr (.inl ⟨x, hm, rfl⟩)))) hx) h.globals_size
  have e7 := makes_section hD 0x07 (G := GExport D) (enc := encExport) (xs := m.exports) encExport_pos
    (fun x hm hx => makes_export hD (h.exports x hm) hx) h.exports_size
  have e8 := makes_start hD m.start
  have e9 := makes_section hD 0x09 (G := GElem D) (enc := encElem) (xs := m.elem) encElem_pos
    (fun x hm hx => makes_elem hD (h.exprs _ (mem_exprs.mpr (.inr (.inr (.inl ⟨x, hm, rfl⟩))))) hx) h.elem_size
  have e10 := makes_section hD 0x0A (G := GSized D (GFunc D)) (enc := fun f => encSized (encFunc f))
    (xs := m.funcs.map fun f : Func => (f.locals, f.body)) (fun f => encSized_pos _)
    (fun x hm hx => by
      obtain ⟨f, hf, rfl⟩ := List.mem_map.mp hm
      have hx' : (encFunc (f.locals, f.body)).length < 2 ^ 32 := by simp only [encSized, List.length_append] at hx; omega
      exact makes_sized hD (makes_func hD (h.exprs _ (mem_exprs.mpr (.inl ⟨f, hf, rfl⟩))) (h.locals f hf) hx') hx') h.code_size
  have e11 := makes_section hD 0x0B (G := GData D) (enc := encData) (xs := m.data) encData_pos
    (fun x hm hx => makes_data hD (h.exprs _ (mem_exprs.mpr (.inr (.inr (.inr ⟨x, hm, rfl⟩))))) hx) h.data_size
  have e10' : GFuncs D (m.funcs.map (·.ty)) (encSection 0x0A (m.funcs.map fun f => (f.locals, f.body)) (contents m).code) m.funcs := by
    have := GFuncs.paired (tys := m.funcs.map (·.ty)) e10 (by simp)
    rw [pair_self] at this
    exact this
  have := GModule.mk .nil e1 .nil e2 .nil e3 .nil e4 .nil e5 .nil e6 .nil e7 .nil e8 .nil e9 .nil e10' .nil e11 .nil
  simp only [encSection_map, List.nil_append, List.append_nil] at this
  simp only [encModule, List.append_assoc] at this ⊢
  exact this

theorem least_funcs {tys : List Idx} {b3 b10 : List Byte} {fs : List Func} (e3 : GVecSection .code 0x03 Dialect.code.u32 b3 tys)
    (e10 : GFuncs .code tys b10 fs) :
    ((encVec encIdx (fs.map Func.ty)).length < 2 ^ 32 ∧ (encSection 0x03 fs (encVec encIdx (fs.map Func.ty))).length ≤ b3.length) ∧
    ((encVec (fun f => encSized (encFunc f)) (fs.map fun f : Func => (f.locals, f.body))).length < 2 ^ 32 ∧
      (encSection 0x0A fs (encVec (fun f => encSized (encFunc f)) (fs.map fun f : Func => (f.locals, f.body)))).length ≤ b10.length) := by
  cases e10 with
  | paired h hl =>
    obtain ⟨p1, p2⟩ := pair_parts _ _ hl
    have h3 := least_section (enc := encIdx) (G := Dialect.code.u32) (fun _ _ => least_len) e3
    have h10 := least_section (enc := fun f => encSized (encFunc f)) (G := GSized .code (GFunc .code))
      (fun _ _ => least_sized (G := GFunc .code) (fun _ _ => least_func)) h
    have p1' : (pairFuncs tys _).map Func.ty = tys := p1
    refine ⟨?_, ?_⟩
    · rw [p1', ← encSection_map 0x03 Func.ty, p1']; exact h3
    · rw [p2, ← encSection_map 0x0A (fun f : Func => (f.locals, f.body)), p2]; exact h10
  | missing _ => exact ⟨⟨encVec_nil _, by simp [encSection]⟩, encVec_nil _, by simp [encSection]⟩

theorem gfuncs_all {P : Func → Prop} {tys : List Idx} {b : List Byte} {fs : List Func} (hP : ∀ t b c, GFunc D b c → P ⟨t, c.1, c.2⟩)
    (h : GFuncs D tys b fs) : ∀ f ∈ fs, P f := by
  cases h with
  | paired h hl =>
    rename_i codes
    have hc := gvecSection_all (G := GSized D (GFunc D)) (P := fun c => ∀ t, P ⟨t, c.1, c.2⟩)
      (fun _ _ => gsized_all (G := GFunc D) (P := fun c => ∀ t, P ⟨t, c.1, c.2⟩) fun b c h t => hP t b c h) h
    intro f hf
    obtain ⟨i, hi, rfl⟩ := List.getElem_of_mem hf
    simp only [pairFuncs, List.getElem_zipWith]
    exact hc _ (List.getElem_mem _) _
  | missing _ => simp

theorem module_length {s : List Byte} {m : Module} (h : GModule .code s m) : (encModule m).length ≤ s.length ∧
    ((contents m).types.length < 2 ^ 32 ∧ (contents m).imports.length < 2 ^ 32 ∧
      (contents m).tys.length < 2 ^ 32 ∧ (contents m).tables.length < 2 ^ 32 ∧ (contents m).mems.length < 2 ^ 32 ∧
      (contents m).globals.length < 2 ^ 32 ∧ (contents m).exports.length < 2 ^ 32 ∧ (contents m).elem.length < 2 ^ 32 ∧
      (contents m).code.length < 2 ^ 32 ∧ (contents m).data.length < 2 ^ 32) := by
  cases h with
  | mk _ e1 _ e2 _ e3 _ e4 _ e5 _ e6 _ e7 _ e8 _ e9 _ e10 _ e11 _ =>
    obtain ⟨a1, c1⟩ := least_section (G := GFuncTy .code) (fun _ _ => least_funcTy) e1
    obtain ⟨a2, c2⟩ := least_section (G := GImport .code) (fun _ _ => least_import) e2
    obtain ⟨a4, c4⟩ := least_section (G := GTable .code) (fun _ _ => least_table) e4
    obtain ⟨a5, c5⟩ := least_section (G := GMem .code) (fun _ _ => least_mem) e5
    obtain ⟨a6, c6⟩ := least_section (G := GGlobal .code) (fun _ _ => least_global) e6
    obtain ⟨a7, c7⟩ := least_section (G := GExport .code) (fun _ _ => least_export) e7
    have c8 := least_start e8
    obtain ⟨a9, c9⟩ := least_section (G := GElem .code) (fun _ _ => least_elem) e9
    obtain ⟨⟨a3, c3⟩, a10, c10⟩ := least_funcs e3 e10
    obtain ⟨a11, c11⟩ := least_section (G := GData .code) (fun _ _ => least_data) e11
    refine ⟨?_, a1, a2, a3, a4, a5, a6, a7, a9, a10, a11⟩
    have d1 : (encSection 0x01 m.types (contents m).types).length ≤ _ := c1
    have d2 : (encSection 0x02 m.imports (contents m).imports).length ≤ _ := c2
    have d3 : (encSection 0x03 m.funcs (contents m).tys).length ≤ _ := c3
    have d4 : (encSection 0x04 m.tables (contents m).tables).length ≤ _ := c4
    have d5 : (encSection 0x05 m.mems (contents m).mems).length ≤ _ := c5
    have d6 : (encSection 0x06 m.globals (contents m).globals).length ≤ _ := c6
    have d7 : (encSection 0x07 m.exports (contents m).exports).length ≤ _ := c7
    have d9 : (encSection 0x09 m.elem (contents m).elem).length ≤ _ := c9
    have d10 : (encSection 0x0A m.funcs (contents m).code).length ≤ _ := c10
    have d11 : (encSection 0x0B m.data (contents m).data).length ≤ _ := c11
    clear c1 c2 c3 c4 c5 c6 c7 c9 c10 c11 a1 a2 a3 a4 a5 a6 a7 a9 a10 a11
    simp only [encModule, List.length_append, List.length_cons, List.length_nil]
    omega

/-- Conversely all modules in the grammar are encodable. -/
theorem encodable_of_grammar (hD : Canonical D) {s : List Byte} {m : Module} (h : GModule D s m) : Encodable D m := by
  obtain ⟨_, a1, a2, a3, a4, a5, a6, a7, a9, a10, a11⟩ := module_length (gmodule_mono hD.le h)
  cases h with
  | mk _ g1 _ g2 _ g3 _ g4 _ g5 _ g6 _ g7 _ g8 _ g9 _ g10 _ g11 _ =>
    clear g1 g3 g4 g5 g8
    have n2 := gvecSection_all (G := GImport D) (P := fun i => IsUtf8 i.module ∧ IsUtf8 i.name) (fun _ _ => gimport_utf8) g2
    have n6 := gvecSection_all (G := GGlobal D) (P := fun g => ∀ j, Occurs j g.init → Writable D j) (fun _ _ => gglobal_writable) g6
    have n7 := gvecSection_all (G := GExport D) (P := fun e => IsUtf8 e.name) (fun _ _ => gexport_utf8) g7
    have n9 := gvecSection_all (G := GElem D) (P := fun g => ∀ j, Occurs j g.offset → Writable D j) (fun _ _ => gelem_writable) g9
    have n10 := gfuncs_all (P := fun f => (∀ j, Occurs j f.body → Writable D j) ∧ D.locals f.locals.length)
      (fun _ _ _ h => gfunc_writable h) g10
    have n11 := gvecSection_all (G := GData D) (P := fun g => ∀ j, Occurs j g.offset → Writable D j) (fun _ _ => gdata_writable) g11
    refine ⟨n2, n7, ?_, fun f hf => (n10 f hf).2, a1, a2, a3, a4, a5, a6, a7, a9, a10, a11⟩
    intro e he
    rcases mem_exprs.mp he with ⟨f, hf, rfl⟩ | ⟨f, hf, rfl⟩ | ⟨f, hf, rfl⟩ | ⟨f, hf, rfl⟩
    · exact (n10 f hf).1
    · exact n6 f hf
    · exact n9 f hf
    · exact n11 f hf

end Whasm
