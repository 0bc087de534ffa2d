import Verif.Lemmas.Debug
import Verif.Lemmas.InstrGrammar

/-!
# Reading back names, instructions and modules
-/

namespace Whasm
open Spec

/-! ## Names -/

theorem nameChars_encode (c : Char) (r : List Byte) : nameChars (String.utf8EncodeChar c ++ r) = c :: nameChars r := by
  have hc : c.val.toNat < 0xD800 ∨ (0xDFFF < c.val.toNat ∧ c.val.toNat < 0x110000) := c.valid
  have hv : Char.ofNat c.val.toNat = c := Char.ofNat_toNat c
  unfold String.utf8EncodeChar
  generalize c.val.toNat = v at hc hv
  simp only
  split
  · rw [List.cons_append, List.nil_append, nameChars.eq_def]
    simp only
    rw [if_pos (by rw [u8_lt, toNat_ofNat_lt (by omega)]; exact Nat.lt_succ_of_le ‹_›), toNat_ofNat_lt (by omega), hv]
  split
  · simp only [List.cons_append, List.nil_append]
    rw [nameChars.eq_def]
    simp only [u8_lt, toNat_ofNat_lt (show v / 64 % 32 + 192 < 256 by omega),
      toNat_ofNat_lt (show v % 64 + 128 < 256 by omega), UInt8.toNat_ofNat]
    rw [if_neg (by omega), if_pos (by omega), show (v / 64 % 32 + 192) % 32 * 64 + (v % 64 + 128) % 64 = v by omega, hv]
  split
  · simp only [List.cons_append, List.nil_append]
    rw [nameChars.eq_def]
    simp only [u8_lt, toNat_ofNat_lt (show v / 4096 % 16 + 224 < 256 by omega),
      toNat_ofNat_lt (show v % 64 + 128 < 256 by omega), toNat_ofNat_lt (show v / 64 % 64 + 128 < 256 by omega), UInt8.toNat_ofNat]
    rw [if_neg (by omega), if_neg (by omega), if_pos (by omega),
      show (v / 4096 % 16 + 224) % 16 * 4096 + (v / 64 % 64 + 128) % 64 * 64 + (v % 64 + 128) % 64 = v by omega, hv]
  · simp only [List.cons_append, List.nil_append]
    rw [nameChars.eq_def]
    simp only [u8_lt, toNat_ofNat_lt (show v / 262144 % 8 + 240 < 256 by omega),
      toNat_ofNat_lt (show v / 4096 % 64 + 128 < 256 by omega),
      toNat_ofNat_lt (show v % 64 + 128 < 256 by omega), toNat_ofNat_lt (show v / 64 % 64 + 128 < 256 by omega), UInt8.toNat_ofNat]
    rw [if_neg (by omega), if_neg (by omega), if_neg (by omega),
      show (v / 262144 % 8 + 240) % 8 * 262144 + (v / 4096 % 64 + 128) % 64 * 4096 + (v / 64 % 64 + 128) % 64 * 64 + (v % 64 + 128) % 64 = v
        by omega, hv]

theorem nameChars_flatMap (cs : List Char) : nameChars (cs.flatMap String.utf8EncodeChar) = cs := by
  induction cs with
  | nil => rfl
  | cons c cs ih => rw [List.flatMap_cons, nameChars_encode, ih]

theorem nameChars_inj {n k : Name} (hn : IsUtf8 n) (hk : IsUtf8 k) (h : nameChars n = nameChars k) : n = k := by
  obtain ⟨cs, rfl⟩ := hn
  obtain ⟨ds, rfl⟩ := hk
  rw [nameChars_flatMap, nameChars_flatMap] at h
  rw [h]

/-- Reading one escaped character. -/
def unescape : List Char → Option (Char × List Char)
  | [] => none
  | x :: r =>
    if x = '"' then none
    else if x = '\\' then
      match r with
      | [] => none
      | k :: r =>
        if k = '0' then some ('\x00', r)
        else if k = 't' then some ('\t', r)
        else if k = 'r' then some ('\r', r)
        else if k = 'n' then some ('\n', r)
        else if k = '"' then some ('"', r)
        else if k = '\\' then some ('\\', r)
        else some (Char.ofNat (valueOf 16 ((r.drop 1).takeWhile identChar)), ((r.drop 1).dropWhile identChar).drop 1)
    else some (x, r)

theorem takeWhile_cut {p : Char → Bool} {c : Char} {r : List Char} (hc : p c = false) : ∀ {a : List Char}, a.all p = true →
    (a ++ c :: r).takeWhile p = a ∧ (a ++ c :: r).dropWhile p = c :: r
  | [], _ => by simp [hc]
  | x :: a, h => by
      rw [List.all_cons, Bool.and_eq_true] at h
      have := takeWhile_cut (r := r) hc h.2
      rw [List.cons_append, List.takeWhile_cons_of_pos h.1, List.dropWhile_cons_of_pos h.1, this.1, this.2]
      exact ⟨rfl, rfl⟩

theorem unescape_escape (std : StdText) (c : Char) (r : List Char) : unescape (escapeChar std c ++ r) = some (c, r) := by
  unfold escapeChar
  split
  · next h => rw [h]; rfl
  split
  · next h => rw [h]; rfl
  split
  · next h => rw [h]; rfl
  split
  · next h => rw [h]; rfl
  split
  · next h => rw [h]; rfl
  split
  · next h => rw [h]; rfl
  next hq hb =>
  split
  · show some (Char.ofNat (valueOf 16 ((digitsOf 16 (c.toNat + 1) c.toNat ++ ['}'] ++ r).takeWhile identChar)),
      ((digitsOf 16 (c.toNat + 1) c.toNat ++ ['}'] ++ r).dropWhile identChar).drop 1) = _
    rw [List.append_assoc]
    have := takeWhile_cut (p := identChar) (c := '}') (r := r) (by decide) (digits_all (base := 16) (by omega) (by omega) (c.toNat + 1) c.toNat)
    show some (Char.ofNat (valueOf 16 ((digitsOf 16 (c.toNat + 1) c.toNat ++ '}' :: r).takeWhile identChar)),
      ((digitsOf 16 (c.toNat + 1) c.toNat ++ '}' :: r).dropWhile identChar).drop 1) = _
    rw [this.1, this.2, digits_value (by omega) (by omega) _ _ (Nat.lt_succ_self _), Char.ofNat_toNat]
    rfl
  · show unescape (c :: r) = _
    rw [unescape.eq_def]
    simp only
    rw [if_neg hq, if_neg hb]

theorem unescape_quote (r : List Char) : unescape ('"' :: r) = none := rfl

theorem escaped_cut (std : StdText) : ∀ (cs ds : List Char) (r r' : List Char),
    cs.flatMap (escapeChar std) ++ '"' :: r = ds.flatMap (escapeChar std) ++ '"' :: r' → cs = ds ∧ r = r'
  | [], [], _, _, h => ⟨rfl, (List.cons.inj h).2⟩
  | [], d :: ds, r, r', h => by
      have := congrArg unescape h
      rw [List.flatMap_cons, List.append_assoc, unescape_escape] at this
      exact absurd ((unescape_quote r).symm.trans this) (by simp)
  | c :: cs, [], r, r', h => by
      have := congrArg unescape h
      rw [List.flatMap_cons, List.append_assoc, unescape_escape] at this
      exact absurd (this.trans (unescape_quote r')) (by simp)
  | c :: cs, d :: ds, r, r', h => by
      have := congrArg unescape h
      rw [List.flatMap_cons, List.flatMap_cons, List.append_assoc, List.append_assoc, unescape_escape, unescape_escape,
        Option.some.injEq, Prod.mk.injEq] at this
      have h2 := escaped_cut std cs ds r r' this.2
      exact ⟨by rw [this.1, h2.1], h2.2⟩

theorem sep_name (std : StdText) : Sep (dbgName std) nameChars := by
  intro x y r r' h
  have e : ∀ n (r : List Char), dbgName std n ++ ',' :: r = '"' :: ((nameChars n).flatMap (escapeChar std) ++ '"' :: ',' :: r) := by
    intro n r; simp [dbgName]
  rw [e, e, List.cons.injEq] at h
  have h := escaped_cut std _ _ _ _ h.2
  exact ⟨h.1, (List.cons.inj h.2).2⟩

/-! ## Types and indices -/

theorem sep_idx {s : String} (hw : Word (text s)) : Sep (dbgIdx s) id := Sep.tuple1 hw sep_nat

theorem word_atom {α : Type} {pr : α → List Char} (hw : ∀ x, Word (pr x)) (inj : ∀ x y, pr x = pr y → x = y) : Sep pr id :=
  Sep.atom (fun x => all_imp ident_notComma (hw x)) inj

theorem sep_val : Sep dbgVal id := by
  refine word_atom (fun x => by cases x <;> decide +kernel) (fun x y h => ?_)
  cases x <;> cases y <;> first | rfl | exact absurd (text_inj h) (by decide)

theorem sep_vals : Sep dbgVals id := by
  have := sep_val.list
  rw [show List.map (id : Val → Val) = id from List.map_id_fun] at this
  exact this

theorem sep_retVal : Sep dbgRetVal id := Sep.tuple1 (by decide +kernel) sep_vals

theorem sep_elemTy : Sep dbgElemTy id := by
  refine word_atom (fun x => by cases x; decide +kernel) (fun x y _ => ?_)
  cases x; cases y; rfl

theorem sep_mut : Sep dbgMut id := by
  refine word_atom (fun x => by cases x <;> decide +kernel) (fun x y h => ?_)
  cases x <;> cases y <;> first | rfl | exact absurd (text_inj h) (by decide)

theorem sep_limits : Sep dbgLimits id := by
  intro x y r r' h
  have h := struct_sep h
  have h1 := raw_field sep_nat h.1
  have h2 := raw_field sep_nat.option h1.2
  obtain ⟨a, b⟩ := x
  obtain ⟨c, d⟩ := y
  rw [Option.map_id, id, id] at h2
  simp only [id] at h1
  have e : b = d := h2.1
  exact ⟨by rw [id, id, h1.1, e], h.2⟩

theorem sep_funcTy : Sep dbgFuncTy id := by
  intro x y r r' h
  have h := struct_sep h
  have h1 := raw_field sep_vals h.1
  have h2 := raw_field sep_vals h1.2
  obtain ⟨a, b⟩ := x
  obtain ⟨c, d⟩ := y
  simp only [id] at h1 h2
  exact ⟨by rw [id, id, h1.1, h2.1], h.2⟩

theorem sep_tableTy : Sep dbgTableTy id := by
  intro x y r r' h
  have h := struct_sep h
  have h1 := raw_field sep_limits h.1
  obtain ⟨a, b⟩ := x
  obtain ⟨c, d⟩ := y
  cases b
  cases d
  simp only [id] at h1
  exact ⟨by rw [id, id, h1.1], h.2⟩

theorem sep_memTy : Sep dbgMemTy id := by
  intro x y r r' h
  have h := struct_sep h
  have h1 := raw_field sep_limits h.1
  obtain ⟨a⟩ := x
  obtain ⟨c⟩ := y
  simp only [id] at h1
  exact ⟨by rw [id, id, h1.1], h.2⟩

theorem sep_globalTy : Sep dbgGlobalTy id := by
  intro x y r r' h
  have h := struct_sep h
  have h1 := raw_field sep_mut h.1
  have h2 := raw_field sep_val h1.2
  obtain ⟨a, b⟩ := x
  obtain ⟨c, d⟩ := y
  simp only [id] at h1 h2
  exact ⟨by rw [id, id, h1.1, h2.1], h.2⟩

/-! ## Instructions -/

def instrClass : Instr → Nat
  | .unreachable => 0
  | .nop => 1
  | .block _ _ => 2
  | .loop _ _ => 3
  | .ifElse _ _ _ => 4
  | .elseMark => 5
  | .endMark => 6
  | .br _ => 7
  | .brIf _ => 8
  | .brTable _ _ => 9
  | .ret => 10
  | .call _ => 11
  | .callIndirect _ _ => 12
  | .drop => 13
  | .select => 14
  | .localGet _ => 15
  | .localSet _ => 16
  | .localTee _ => 17
  | .globalGet _ => 18
  | .globalSet _ => 19
  | .load _ _ _ => 20
  | .store _ _ _ => 21
  | .memSize _ => 22
  | .memGrow _ => 23
  | .constI32 _ => 24
  | .constI64 _ => 25
  | .constF32 _ => 26
  | .constF64 _ => 27
  | .num _ => 28

def instrTag : Instr → Nat × Nat
  | .load op a b => (instrClass (.load op a b), (loadOpcode op).toNat)
  | .store op a b => (instrClass (.store op a b), (storeOpcode op).toNat)
  | .num op => (instrClass (.num op), (numOpcode op).toNat)
  | i => (instrClass i, 0)

/-- The characters of a name read as the digits of a number. -/
def nameKey (s : String) : Nat := (text s).foldl (fun a c => a * 128 + c.toNat) 0

/-- The keys of the names in `structure/instr.rs`, with the number of the constructor in the model and the opcode within a group. -/
def tagTable : List (Nat × Nat × Nat) := [
  (0x157772cb871e8c38b665, 0, 0), (0x13b7f0, 1, 0), (0x42d9bf1eb, 2, 0), (0x99bf7f0, 3, 0), (0x24e6, 4, 0), (0x8bb39e5, 5, 0),
  (0x117764, 6, 0), (0x2172, 7, 0), (0x85ca4e6, 8, 0), (0x10b954c38b665, 9, 0), (0x2965e9d796e, 10, 0), (0x878766c, 11, 0),
  (0x878766c93bb269e5971f4, 12, 0), (0x89cb7f0, 13, 0), (0x29e5d9971f4, 14, 0), (0x99bf1e1d91f2f4, 15, 0), (0x99bf1e1d94f2f4, 16, 0),
  (0x99bf1e1d9532e5, 17, 0), (0x47d9bf161d91f2f4, 18, 0), (0x47d9bf161d94f2f4, 19, 0), (0x1259b299bf0e4, 20, 40),
  (0x125b3499bf0e4, 20, 41), (0x1199b299bf0e4, 20, 42), (0x119b3499bf0e4, 20, 43), (0x4966ca66fc391c53, 20, 44),
  (0x4966ca66fc391c55, 20, 45), (0x24b365337e1c8c5b53, 20, 46), (0x24b365337e1c8c5b55, 20, 47), (0x496cd266fc391c53, 20, 48),
  (0x496cd266fc391c55, 20, 49), (0x24b669337e1c8c5b53, 20, 50), (0x24b669337e1c8c5b55, 20, 51), (0x24b669337e1c8cd953, 20, 52),
  (0x24b669337e1c8cd955, 20, 53), (0x92cd953e9bf965, 21, 54), (0x92d9a53e9bf965, 21, 55), (0x8ccd953e9bf965, 21, 56),
  (0x8cd9a53e9bf965, 21, 57), (0x4966ca9f4dfcb2b8, 21, 58), (0x24b3654fa6fe5958b6, 21, 59), (0x496cd29f4dfcb2b8, 21, 60),
  (0x24b6694fa6fe5958b6, 21, 61), (0x24b6694fa6fe5959b2, 21, 62), (0x1372eda7a7d65, 22, 0), (0x1372ed8fcb7f7, 23, 0),
  (0x87bf773e9259b2, 24, 0), (0x87bf773e925b34, 25, 0), (0x87bf773e9199b2, 26, 0), (0x87bf773e919b34, 27, 0), (0x24b365178fa, 28, 69),
  (0x4966ca2f1, 28, 70), (0x4966ca765, 28, 71), (0x24b36533a53, 28, 72), (0x24b36533a55, 28, 73), (0x24b3651fa53, 28, 74),
  (0x24b3651fa55, 28, 75), (0x24b365332d3, 28, 76), (0x24b365332d5, 28, 77), (0x24b3651f2d3, 28, 78), (0x24b3651f2d5, 28, 79),
  (0x24b669178fa, 28, 80), (0x496cd22f1, 28, 81), (0x496cd2765, 28, 82), (0x24b66933a53, 28, 83), (0x24b66933a55, 28, 84),
  (0x24b6691fa53, 28, 85), (0x24b6691fa55, 28, 86), (0x24b669332d3, 28, 87), (0x24b669332d5, 28, 88), (0x24b6691f2d3, 28, 89),
  (0x24b6691f2d5, 28, 90), (0x4666ca2f1, 28, 91), (0x4666ca765, 28, 92), (0x4666ca674, 28, 93), (0x4666ca3f4, 28, 94),
  (0x4666ca665, 28, 95), (0x4666ca3e5, 28, 96), (0x466cd22f1, 28, 97), (0x466cd2765, 28, 98), (0x466cd2674, 28, 99),
  (0x466cd23f4, 28, 100), (0x466cd2665, 28, 101), (0x466cd23e5, 28, 102), (0x24b3650f67a, 28, 103), (0x24b3650fa7a, 28, 104),
  (0x4966ca86fe18f774, 28, 105), (0x24b36507264, 28, 106), (0x24b3654fae2, 28, 107), (0x24b36537aec, 28, 108),
  (0x1259b289a7b53, 28, 109), (0x1259b289a7b55, 28, 110), (0x1259b2a5976d3, 28, 111), (0x1259b2a5976d5, 28, 112),
  (0x24b36507764, 28, 113), (0x4966ca7f2, 28, 114), (0x24b365637f2, 28, 115), (0x24b3654f46c, 28, 116), (0x1259b2a7a3953, 28, 117),
  (0x1259b2a7a3955, 28, 118), (0x1259b2a5bfa6c, 28, 119), (0x1259b2a5bfa72, 28, 120), (0x24b6690f67a, 28, 121), (0x24b6690fa7a, 28, 122),
  (0x496cd286fe18f774, 28, 123), (0x24b66907264, 28, 124), (0x24b6694fae2, 28, 125), (0x24b66937aec, 28, 126),
  (0x125b3489a7b53, 28, 127), (0x125b3489a7b55, 28, 128), (0x125b34a5976d3, 28, 129), (0x125b34a5976d5, 28, 130),
  (0x24b66907764, 28, 131), (0x496cd27f2, 28, 132), (0x24b669637f2, 28, 133), (0x24b6694f46c, 28, 134), (0x125b34a7a3953, 28, 135),
  (0x125b34a7a3955, 28, 136), (0x125b34a5bfa6c, 28, 137), (0x125b34a5bfa72, 28, 138), (0x23336507173, 28, 139), (0x2333653b2e7, 28, 140),
  (0x1199b287974ec, 28, 141), (0x8ccd946d9bf7f2, 28, 142), (0x8ccd954e5d7763, 28, 143), (0x2333653b2e1e5979f4, 28, 144),
  (0x1199b2a7c7974, 28, 145), (0x23336507264, 28, 146), (0x2333654fae2, 28, 147), (0x23336537aec, 28, 148), (0x233365134f6, 28, 149),
  (0x233365374ee, 28, 150), (0x233365370f8, 28, 151), (0x1199b287bf879e7a73ee, 28, 152), (0x23366907173, 28, 153),
  (0x2336693b2e7, 28, 154), (0x119b3487974ec, 28, 155), (0x8cd9a46d9bf7f2, 28, 156), (0x8cd9a54e5d7763, 28, 157),
  (0x2336693b2e1e5979f4, 28, 158), (0x119b34a7c7974, 28, 159), (0x23366907264, 28, 160), (0x2336694fae2, 28, 161),
  (0x23366937aec, 28, 162), (0x233669134f6, 28, 163), (0x233669374ee, 28, 164), (0x233669370f8, 28, 165),
  (0x119b3487bf879e7a73ee, 28, 166), (0x24b3655f961e125b34, 28, 167), (0x92cd954e5d77638ccd953, 28, 168),
  (0x92cd954e5d77638ccd955, 28, 169), (0x92cd954e5d77638cd9a53, 28, 170), (0x92cd954e5d77638cd9a55, 28, 171),
  (0x496cd22f8e99776492cd953, 28, 172), (0x496cd22f8e99776492cd955, 28, 173), (0x92d9a54e5d77638ccd953, 28, 174),
  (0x92d9a54e5d77638ccd955, 28, 175), (0x92d9a54e5d77638cd9a53, 28, 176), (0x92d9a54e5d77638cd9a55, 28, 177),
  (0x2333650f7eeed9797492cd953, 28, 178), (0x2333650f7eeed9797492cd955, 28, 179), (0x2333650f7eeed9797492d9a53, 28, 180),
  (0x2333650f7eeed9797492d9a55, 28, 181), (0x8ccd944cbb77f4cb19b34, 28, 182), (0x2336690f7eeed9797492cd953, 28, 183),
  (0x2336690f7eeed9797492cd955, 28, 184), (0x2336690f7eeed9797492d9a53, 28, 185), (0x2336690f7eeed9797492d9a55, 28, 186),
  (0x466cd2872dfb77f4cb199b2, 28, 187), (0x4966ca965d3bba65e5c3965e9199b2, 28, 188), (0x496cd2965d3bba65e5c3965e919b34, 28, 189),
  (0x4666ca965d3bba65e5c3965e9259b2, 28, 190), (0x466cd2965d3bba65e5c3965e925b34, 28, 191)]

/-- A word, with its entry in the table. -/
def Known (s : String) (t : Nat × Nat) : Prop := tagTable.lookup (nameKey s) = some t ∧ Word (text s)

instance (s : String) (t : Nat × Nat) : Decidable (Known s t) := inferInstanceAs (Decidable (_ ∧ _))

theorem known_load (op : LoadOp) : Known (loadName op) (20, (loadOpcode op).toNat) := by cases op <;> decide +kernel

theorem known_store (op : StoreOp) : Known (storeName op) (21, (storeOpcode op).toNat) := by cases op <;> decide +kernel

theorem known_num (op : NumOp) : Known (numName op) (28, (numOpcode op).toNat) := by cases op <;> decide +kernel

theorem known_instr : ∀ i : Instr, Known (instrName i) (instrTag i)
  | .load op _ _ => known_load op
  | .store op _ _ => known_store op
  | .num op => known_num op
  | .unreachable => (by decide +kernel : Known "Unreachable" (0, 0))
  | .nop => (by decide +kernel : Known "Nop" (1, 0))
  | .block _ _ => (by decide +kernel : Known "Block" (2, 0))
  | .loop _ _ => (by decide +kernel : Known "Loop" (3, 0))
  | .ifElse _ _ _ => (by decide +kernel : Known "If" (4, 0))
  | .elseMark => (by decide +kernel : Known "Else" (5, 0))
  | .endMark => (by decide +kernel : Known "End" (6, 0))
  | .br _ => (by decide +kernel : Known "Br" (7, 0))
  | .brIf _ => (by decide +kernel : Known "BrIf" (8, 0))
  | .brTable _ _ => (by decide +kernel : Known "BrTable" (9, 0))
  | .ret => (by decide +kernel : Known "Return" (10, 0))
  | .call _ => (by decide +kernel : Known "Call" (11, 0))
  | .callIndirect _ _ => (by decide +kernel : Known "CallIndirect" (12, 0))
  | .drop => (by decide +kernel : Known "Drop" (13, 0))
  | .select => (by decide +kernel : Known "Select" (14, 0))
  | .localGet _ => (by decide +kernel : Known "LocalGet" (15, 0))
  | .localSet _ => (by decide +kernel : Known "LocalSet" (16, 0))
  | .localTee _ => (by decide +kernel : Known "LocalTee" (17, 0))
  | .globalGet _ => (by decide +kernel : Known "GlobalGet" (18, 0))
  | .globalSet _ => (by decide +kernel : Known "GlobalSet" (19, 0))
  | .memSize _ => (by decide +kernel : Known "MemSize" (22, 0))
  | .memGrow _ => (by decide +kernel : Known "MemGrow" (23, 0))
  | .constI32 _ => (by decide +kernel : Known "ConstI32" (24, 0))
  | .constI64 _ => (by decide +kernel : Known "ConstI64" (25, 0))
  | .constF32 _ => (by decide +kernel : Known "ConstF32" (26, 0))
  | .constF64 _ => (by decide +kernel : Known "ConstF64" (27, 0))

theorem word_instr (i : Instr) : Word (text (instrName i)) := (known_instr i).2

theorem tag_of_name {i j : Instr} (h : instrName i = instrName j) : instrTag i = instrTag j := by
  have hi := (known_instr i).1
  rw [h, (known_instr j).1] at hi
  exact (Option.some.inj hi).symm

theorem loadOpcode_inj {a b : LoadOp} (h : (loadOpcode a).toNat = (loadOpcode b).toNat) : a = b := by
  have : ∀ op : LoadOp, loadTable.lookup (loadOpcode op).toNat = some op := by intro op; cases op <;> rfl
  have ha := this a
  rw [h, this b] at ha
  exact (Option.some.inj ha).symm

theorem storeOpcode_inj {a b : StoreOp} (h : (storeOpcode a).toNat = (storeOpcode b).toNat) : a = b := by
  have : ∀ op : StoreOp, storeTable.lookup (storeOpcode op).toNat = some op := by intro op; cases op <;> rfl
  have ha := this a
  rw [h, this b] at ha
  exact (Option.some.inj ha).symm

theorem numOpcode_inj {a b : NumOp} (h : (numOpcode a).toNat = (numOpcode b).toNat) : a = b := by
  have : ∀ op : NumOp, numTable.lookup (numOpcode op).toNat = some op := by intro op; cases op <;> rfl
  have ha := this a
  rw [h, this b] at ha
  exact (Option.some.inj ha).symm

theorem notComma_all {l : List Char} (h : ',' ∉ l) : l.all notComma = true := by
  rw [List.all_eq_true]
  intro x hx
  rw [notComma, bne_iff_ne]
  intro e; subst e; exact h hx

theorem sep_f32 {std : StdText} (hs : StdOk std) : Sep std.f32 (fun v => if datum32 v = .nan then (0x7FC00000 : F32) else v) := by
  refine Sep.atom (fun v => notComma_all (hs.comma32 v)) (fun v w h => ?_)
  rcases (hs.same32 v w).mp h with h | h
  · rw [h]
  · rw [if_pos h.1, if_pos h.2]

theorem sep_f64 {std : StdText} (hs : StdOk std) : Sep std.f64 (fun v => if datum64 v = .nan then (0x7FF8000000000000 : F64) else v) := by
  refine Sep.atom (fun v => notComma_all (hs.comma64 v)) (fun v w h => ?_)
  rcases (hs.same64 v w).mp h with h | h
  · rw [h]
  · rw [if_pos h.1, if_pos h.2]

theorem sep_listRaw : Sep dbgList raw := fun _ _ _ _ h => list_sep h

theorem sep_exprText : Sep (fun vs => dbgTuple (text "Expr") [dbgList vs]) raw := Sep.tuple1 (by decide +kernel) sep_listRaw

theorem sep_constText : Sep (fun vs => dbgTuple (text "ConstExpr") [dbgList vs]) raw := Sep.tuple1 (by decide +kernel) sep_listRaw

mutual

theorem instr_inj {std : StdText} (hs : StdOk std) : ∀ (i j : Instr), instrName i = instrName j →
    raw (instrFields std i) = raw (instrFields std j) → blind i = blind j
  | .unreachable, j, hn, hr => by
      have ht := tag_of_name hn
      cases j
      case unreachable =>
        rfl
      all_goals exact absurd (congrArg Prod.fst ht) (by simp [instrTag, instrClass])
  | .nop, j, hn, hr => by
      have ht := tag_of_name hn
      cases j
      case nop =>
        rfl
      all_goals exact absurd (congrArg Prod.fst ht) (by simp [instrTag, instrClass])
  | .block t b, j, hn, hr => by
      have ht := tag_of_name hn
      cases j
      case block t' b' =>
        have h1 := raw_sep sep_retVal hr
        have h2 := raw_sep sep_exprText h1.2
        simp only [id] at h1
        simp only [blind]
        rw [h1.1, instrs_inj hs b b' h2.1]
      all_goals exact absurd (congrArg Prod.fst ht) (by simp [instrTag, instrClass])
  | .loop t b, j, hn, hr => by
      have ht := tag_of_name hn
      cases j
      case loop t' b' =>
        have h1 := raw_sep sep_retVal hr
        have h2 := raw_sep sep_exprText h1.2
        simp only [id] at h1
        simp only [blind]
        rw [h1.1, instrs_inj hs b b' h2.1]
      all_goals exact absurd (congrArg Prod.fst ht) (by simp [instrTag, instrClass])
  | .ifElse t a b, j, hn, hr => by
      have ht := tag_of_name hn
      cases j
      case ifElse t' a' b' =>
        have h1 := raw_sep sep_retVal hr
        have h2 := raw_sep sep_exprText h1.2
        have h3 := raw_sep sep_exprText h2.2
        simp only [id] at h1
        simp only [blind]
        rw [h1.1, instrs_inj hs a a' h2.1, instrs_inj hs b b' h3.1]
      all_goals exact absurd (congrArg Prod.fst ht) (by simp [instrTag, instrClass])
  | .elseMark, j, hn, hr => by
      have ht := tag_of_name hn
      cases j
      case elseMark =>
        rfl
      all_goals exact absurd (congrArg Prod.fst ht) (by simp [instrTag, instrClass])
  | .endMark, j, hn, hr => by
      have ht := tag_of_name hn
      cases j
      case endMark =>
        rfl
      all_goals exact absurd (congrArg Prod.fst ht) (by simp [instrTag, instrClass])
  | .br x, j, hn, hr => by
      have ht := tag_of_name hn
      cases j
      case br x' =>
        have := (raw_sep (sep_idx (s := "Label") (by decide +kernel)) hr).1
        simp only [id] at this; rw [this]
      all_goals exact absurd (congrArg Prod.fst ht) (by simp [instrTag, instrClass])
  | .brIf x, j, hn, hr => by
      have ht := tag_of_name hn
      cases j
      case brIf x' =>
        have := (raw_sep (sep_idx (s := "Label") (by decide +kernel)) hr).1
        simp only [id] at this; rw [this]
      all_goals exact absurd (congrArg Prod.fst ht) (by simp [instrTag, instrClass])
  | .brTable xs x, j, hn, hr => by
      have ht := tag_of_name hn
      cases j
      case brTable xs' x' =>
        have h1 := raw_sep (sep_idx (s := "Label") (by decide +kernel)).list hr
        have h2 := raw_sep (sep_idx (s := "Label") (by decide +kernel)) h1.2
        rw [List.map_id, List.map_id] at h1
        simp only [id] at h2
        rw [h1.1, h2.1]
      all_goals exact absurd (congrArg Prod.fst ht) (by simp [instrTag, instrClass])
  | .ret, j, hn, hr => by
      have ht := tag_of_name hn
      cases j
      case ret =>
        rfl
      all_goals exact absurd (congrArg Prod.fst ht) (by simp [instrTag, instrClass])
  | .call x, j, hn, hr => by
      have ht := tag_of_name hn
      cases j
      case call x' =>
        have := (raw_sep (sep_idx (s := "Func") (by decide +kernel)) hr).1
        simp only [id] at this; rw [this]
      all_goals exact absurd (congrArg Prod.fst ht) (by simp [instrTag, instrClass])
  | .callIndirect x y, j, hn, hr => by
      have ht := tag_of_name hn
      cases j
      case callIndirect x' y' =>
        have h1 := raw_sep (sep_idx (s := "Type") (by decide +kernel)) hr
        have h2 := raw_sep (sep_idx (s := "Table") (by decide +kernel)) h1.2
        simp only [id] at h1 h2
        rw [h1.1, h2.1]
      all_goals exact absurd (congrArg Prod.fst ht) (by simp [instrTag, instrClass])
  | .drop, j, hn, hr => by
      have ht := tag_of_name hn
      cases j
      case drop =>
        rfl
      all_goals exact absurd (congrArg Prod.fst ht) (by simp [instrTag, instrClass])
  | .select, j, hn, hr => by
      have ht := tag_of_name hn
      cases j
      case select =>
        rfl
      all_goals exact absurd (congrArg Prod.fst ht) (by simp [instrTag, instrClass])
  | .localGet x, j, hn, hr => by
      have ht := tag_of_name hn
      cases j
      case localGet x' =>
        have := (raw_sep (sep_idx (s := "Local") (by decide +kernel)) hr).1
        simp only [id] at this; rw [this]
      all_goals exact absurd (congrArg Prod.fst ht) (by simp [instrTag, instrClass])
  | .localSet x, j, hn, hr => by
      have ht := tag_of_name hn
      cases j
      case localSet x' =>
        have := (raw_sep (sep_idx (s := "Local") (by decide +kernel)) hr).1
        simp only [id] at this; rw [this]
      all_goals exact absurd (congrArg Prod.fst ht) (by simp [instrTag, instrClass])
  | .localTee x, j, hn, hr => by
      have ht := tag_of_name hn
      cases j
      case localTee x' =>
        have := (raw_sep (sep_idx (s := "Local") (by decide +kernel)) hr).1
        simp only [id] at this; rw [this]
      all_goals exact absurd (congrArg Prod.fst ht) (by simp [instrTag, instrClass])
  | .globalGet x, j, hn, hr => by
      have ht := tag_of_name hn
      cases j
      case globalGet x' =>
        have := (raw_sep (sep_idx (s := "Global") (by decide +kernel)) hr).1
        simp only [id] at this; rw [this]
      all_goals exact absurd (congrArg Prod.fst ht) (by simp [instrTag, instrClass])
  | .globalSet x, j, hn, hr => by
      have ht := tag_of_name hn
      cases j
      case globalSet x' =>
        have := (raw_sep (sep_idx (s := "Global") (by decide +kernel)) hr).1
        simp only [id] at this; rw [this]
      all_goals exact absurd (congrArg Prod.fst ht) (by simp [instrTag, instrClass])
  | .load op a b, j, hn, hr => by
      have ht := tag_of_name hn
      cases j
      case load op' a' b' =>
        have h1 := raw_sep sep_nat hr
        have h2 := raw_sep sep_nat h1.2
        simp only [id] at h1 h2
        rw [h1.1, h2.1, loadOpcode_inj (Prod.mk.inj ht).2]
      all_goals exact absurd (congrArg Prod.fst ht) (by simp [instrTag, instrClass])
  | .store op a b, j, hn, hr => by
      have ht := tag_of_name hn
      cases j
      case store op' a' b' =>
        have h1 := raw_sep sep_nat hr
        have h2 := raw_sep sep_nat h1.2
        simp only [id] at h1 h2
        rw [h1.1, h2.1, storeOpcode_inj (Prod.mk.inj ht).2]
      all_goals exact absurd (congrArg Prod.fst ht) (by simp [instrTag, instrClass])
  | .memSize x, j, hn, hr => by
      have ht := tag_of_name hn
      cases j
      case memSize x' =>
        have := (raw_sep (sep_idx (s := "Mem") (by decide +kernel)) hr).1
        simp only [id] at this; rw [this]
      all_goals exact absurd (congrArg Prod.fst ht) (by simp [instrTag, instrClass])
  | .memGrow x, j, hn, hr => by
      have ht := tag_of_name hn
      cases j
      case memGrow x' =>
        have := (raw_sep (sep_idx (s := "Mem") (by decide +kernel)) hr).1
        simp only [id] at this; rw [this]
      all_goals exact absurd (congrArg Prod.fst ht) (by simp [instrTag, instrClass])
  | .constI32 v, j, hn, hr => by
      have ht := tag_of_name hn
      cases j
      case constI32 v' =>
        have h1 := raw_sep sep_int hr
        simp only [id] at h1
        rw [h1.1]
      all_goals exact absurd (congrArg Prod.fst ht) (by simp [instrTag, instrClass])
  | .constI64 v, j, hn, hr => by
      have ht := tag_of_name hn
      cases j
      case constI64 v' =>
        have h1 := raw_sep sep_int hr
        simp only [id] at h1
        rw [h1.1]
      all_goals exact absurd (congrArg Prod.fst ht) (by simp [instrTag, instrClass])
  | .constF32 v, j, hn, hr => by
      have ht := tag_of_name hn
      cases j
      case constF32 v' =>
        have h1 := raw_sep (sep_f32 hs) hr
        simp only [blind]
        rw [h1.1]
      all_goals exact absurd (congrArg Prod.fst ht) (by simp [instrTag, instrClass])
  | .constF64 v, j, hn, hr => by
      have ht := tag_of_name hn
      cases j
      case constF64 v' =>
        have h1 := raw_sep (sep_f64 hs) hr
        simp only [blind]
        rw [h1.1]
      all_goals exact absurd (congrArg Prod.fst ht) (by simp [instrTag, instrClass])
  | .num op, j, hn, hr => by
      have ht := tag_of_name hn
      cases j
      case num op' =>
        rw [numOpcode_inj (Prod.mk.inj ht).2]
      all_goals exact absurd (congrArg Prod.fst ht) (by simp [instrTag, instrClass])

theorem instrs_inj {std : StdText} (hs : StdOk std) : ∀ (is js : List Instr), raw (dbgInstrs std is) = raw (dbgInstrs std js) →
    blindL is = blindL js
  | [], [], _ => rfl
  | [], j :: js, h => by
      rw [dbgInstrs, dbgInstrs, raw_cons] at h
      exact absurd (congrArg List.length h) (by simp [raw])
  | i :: is, [], h => by
      rw [dbgInstrs, dbgInstrs, raw_cons] at h
      exact absurd (congrArg List.length h) (by simp [raw])
  | i :: is, j :: js, h => by
      rw [dbgInstrs, dbgInstrs, raw_cons, raw_cons] at h
      have h := tuple_sep (word_instr i) (word_instr j) h
      rw [blindL, blindL, instr_inj hs i j (text_inj h.1) h.2.1, instrs_inj hs is js (List.cons.inj h.2.2).2]

end

theorem name_blind (i : Instr) : instrName (blind i) = instrName i := by cases i <;> rfl

theorem f32_blind {std : StdText} (hs : StdOk std) (v : F32) : std.f32 (if datum32 v = .nan then (0x7FC00000 : F32) else v) = std.f32 v := by
  split
  · next h => exact (hs.same32 _ _).mpr (Or.inr ⟨by decide +kernel, h⟩)
  · rfl

theorem f64_blind {std : StdText} (hs : StdOk std) (v : F64) :
    std.f64 (if datum64 v = .nan then (0x7FF8000000000000 : F64) else v) = std.f64 v := by
  split
  · next h => exact (hs.same64 _ _).mpr (Or.inr ⟨by decide +kernel, h⟩)
  · rfl

mutual

theorem fields_blind {std : StdText} (hs : StdOk std) : ∀ (i : Instr), instrFields std (blind i) = instrFields std i
  | .unreachable => rfl
  | .nop => rfl
  | .block t b => by simp only [blind, instrFields]; rw [fieldsL_blind hs b]
  | .loop t b => by simp only [blind, instrFields]; rw [fieldsL_blind hs b]
  | .ifElse t a b => by simp only [blind, instrFields]; rw [fieldsL_blind hs a, fieldsL_blind hs b]
  | .elseMark => rfl
  | .endMark => rfl
  | .br x => rfl
  | .brIf x => rfl
  | .brTable xs x => rfl
  | .ret => rfl
  | .call x => rfl
  | .callIndirect x y => rfl
  | .drop => rfl
  | .select => rfl
  | .localGet x => rfl
  | .localSet x => rfl
  | .localTee x => rfl
  | .globalGet x => rfl
  | .globalSet x => rfl
  | .load op a b => rfl
  | .store op a b => rfl
  | .memSize x => rfl
  | .memGrow x => rfl
  | .constI32 v => rfl
  | .constI64 v => rfl
  | .constF32 v => by
      simp only [blind, instrFields]
      rw [f32_blind hs]
  | .constF64 v => by
      simp only [blind, instrFields]
      rw [f64_blind hs]
  | .num op => rfl

theorem fieldsL_blind {std : StdText} (hs : StdOk std) : ∀ (is : List Instr), dbgInstrs std (blindL is) = dbgInstrs std is
  | [] => rfl
  | i :: is => by rw [blindL, dbgInstrs, dbgInstrs, name_blind, fields_blind hs i, fieldsL_blind hs is]

end

end Whasm
