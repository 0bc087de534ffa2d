import Verif.Model.BinaryModule
import Verif.Model.Declarative
import Verif.Lemmas.DecEq

/-!
# The tests of the crate, on the model

The documentation tests and unit tests of `whasm/src/binary/**` and `whasm/src/grammar/**`, evaluated on the model. They prove no property; they are
evidence that the model computes what the authors of the crate wrote down. Each citation is the line of the opening fence of the documentation
test, or of `#[test]`. The remaining input is given where it is more than the test asserts.

Simplifications: floats are given by their IEEE bits (PI is `0x40490FDB` and `0x400921FB54442D18`), strings by their UTF-8 bytes. `DErr` does not
tell the errors of `grammar/**` apart, so `grammar/core/error.rs:5` only keeps that there is an error.

Left out, because there is nothing to evaluate: what only defines types or functions (`grammar/core/derive.rs:7, 92, 124, 172, 224, 236, 288, 337, 367`,
`grammar/core/mod.rs:21`, `grammar/core/error.rs:20`), `Byte::unwrap` (`binary/core/byte.rs:30, 116`), and the layout of `Byte` in memory
(`grammar/core/byte.rs:102, 107, 114`).
-/

namespace Whasm

-- binary/core/array.rs:8, 119, 126
example : parseN 4 parseByte [0x01, 0x02, 0x03, 0x04] = (.ok [0x01, 0x02, 0x03, 0x04], []) := by decide +kernel
example : parseN 0 parseByte [] = (.ok [], []) := by decide +kernel

-- binary/core/byte.rs:21, 102; 39, 109; binary/core/traits.rs:16
example : parseByte [0x8E] = (.ok 0x8E, []) := by decide +kernel
example : parseByte [] = (.error .unexpectedEndOfFile, []) := by decide +kernel
example : parseByte [0x2A] = (.ok 42, []) := by decide +kernel

-- binary/core/float.rs:10, 58; 20, 65
example : parseF32 [0xDB, 0x0F, 0x49, 0x40] = (.ok 0x40490FDB, []) := by decide +kernel
example : parseF64 [0x18, 0x2D, 0x44, 0x54, 0xFB, 0x21, 0x09, 0x40] = (.ok 0x400921FB54442D18, []) := by decide +kernel

-- binary/core/signed.rs:8, 19, 29
example : parseI8 [0x56] = (.ok (-42), []) := by decide +kernel
example : parseI8 [0xD6, 0xFF, 0x7F] = (.ok (-42), []) := by decide +kernel
example : (parseI8 [0xD6, 0x7E]).1 = .error .outOfRangeSignedInteger := by decide +kernel

-- binary/core/signed.rs:108, 115, 122, 130, 137, 145, 152, 159, 166
example : parseI8 [0x7E] = (.ok (-2), []) := by decide +kernel
example : parseI8 [0xFE, 0x7F] = (.ok (-2), []) := by decide +kernel
example : parseI8 [0xFE, 0xFF, 0x7F] = (.ok (-2), []) := by decide +kernel
example : (parseI8 [0x83, 0x3E]).1 = .error .outOfRangeSignedInteger := by decide +kernel
example : (parseI8 [0xFF, 0x7B]).1 = .error .outOfRangeSignedInteger := by decide +kernel
example : parseI8 [0x2A] = (.ok 42, []) := by decide +kernel
example : parseI8 [0xEA, 0x00] = (.ok 106, []) := by decide +kernel
example : (parseI8 [0xD6, 0x81, 0x80, 0x00]).1 = .error .outOfRangeSignedInteger := by decide +kernel
example : (parseI8 [0xD6, 0xFE, 0x80, 0x7F]).1 = .error .outOfRangeSignedInteger := by decide +kernel

-- binary/core/unsigned.rs:8, 18, 28
example : parseU8 [0x2A] = (.ok 42, []) := by decide +kernel
example : parseU8 [0xAA, 0x80, 0x00] = (.ok 42, []) := by decide +kernel
example : (parseU8 [0xAA, 0x02]).1 = .error .outOfRangeUnsignedInteger := by decide +kernel

-- binary/core/unsigned.rs:100, 107, 115, 123, 130
example : parseU8 [0x03] = (.ok 3, []) := by decide +kernel
example : parseU8 [0x83, 0x00] = (.ok 3, []) := by decide +kernel
example : (parseU8 [0x83, 0x10]).1 = .error .outOfRangeUnsignedInteger := by decide +kernel
example : parseU8 [0x8E, 0x81, 0x80, 0x00] = (.ok 142, []) := by decide +kernel
example : (parseU8 [0x8E, 0x82, 0x80, 0x00]).1 = .error .outOfRangeUnsignedInteger := by decide +kernel

-- binary/core/sized.rs:13, 24, 34
example : parseSized (parseN 2 parseByte) [0x02, 0x2A, 0x2B] = (.ok [0x2A, 0x2B], []) := by decide +kernel
example : (parseSized parseByte [0x02, 0x2A, 0x2B]).1 = .error .sizeMissmatch := by decide +kernel
example : (do let _ ← parseSized parseConsume; parseByte : P Byte) [0x02, 0x2A, 0x2B, 0x2C] = (.ok 0x2C, []) := by decide +kernel

-- binary/core/sized.rs:96, 103, 110
example : parseSized (parseN 2 parseByte) [0x02, 0x01, 0x02] = (.ok [0x01, 0x02], []) := by decide +kernel
example : (parseSized (parseN 2 parseByte) [0x03, 0x01, 0x02, 0x03]).1 = .error .sizeMissmatch := by decide +kernel
example : (parseSized parseConsume [0x02, 0x01, 0x02]).1 = .ok 2 := by decide +kernel

-- binary/core/string.rs:7
example : parseString [0x11, 0x48, 0x65, 0x6C, 0x6C, 0x6F, 0x20, 0x57, 0x6F, 0x72, 0x6C, 0x64, 0x21, 0x20, 0xF0, 0x9F, 0x92, 0x96] =
    (.ok [0x48, 0x65, 0x6C, 0x6C, 0x6F, 0x20, 0x57, 0x6F, 0x72, 0x6C, 0x64, 0x21, 0x20, 0xF0, 0x9F, 0x92, 0x96], []) := by decide +kernel

-- binary/core/traits.rs:42 (the variants numbered), 84, 97
example : (do
    let id ← parseByte
    if id = 0x01 then pure 1 else if id = 0x02 then pure 2 else if id = 0x03 then pure 3 else pure 0 : P Nat) [0x03] = (.ok 3, []) := by
  decide +kernel
example : parseByte [0x8E] = (.ok 0x8E, []) ∧ parseU8 [0x8E, 0x00] = (.ok 0x0E, []) := by decide +kernel
example : (do let _ ← parseByte; parseByte : P Byte) [0x00, 0x2A] = (.ok 42, []) := by decide +kernel

-- binary/core/vec.rs:28, 107; 37; 46
example : parseVec parseU8 [0x04, 0x01, 0x02, 0x03, 0x04] = (.ok [0x01, 0x02, 0x03, 0x04], []) := by decide +kernel
example : parseCompactVec parseU8 [0x02, 0x01, 0x02, 0x03, 0x04] = (.ok [0x02, 0x04, 0x04, 0x04], []) := by decide +kernel
example : parseUnwrappingVec id parseByte [0x03, 0x2A, 0x8A, 0x42] = (.ok [0x2A, 0x8A, 0x42], []) := by decide +kernel

-- binary/core/vec.rs:114, 121
example : parseCompactVec parseU8 [0x02, 0x02, 0x2A, 0x03, 0x8E, 0x01] = (.ok [42, 42, 142, 142, 142], []) := by decide +kernel
example : parseUnwrappingVec id parseByte [0x03, 0x2A, 0x2A, 0x2A] = (.ok [42, 42, 42], []) := by decide +kernel

/-- The file of `binary/module.rs:190` and `grammar/mod.rs:69`. -/
def testFile : List Byte := [
  0x00, 0x61, 0x73, 0x6d, 0x01, 0x00, 0x00, 0x00, 0x01, 0x85, 0x80, 0x80, 0x80, 0x00, 0x01, 0x60,
  0x00, 0x01, 0x7f, 0x03, 0x82, 0x80, 0x80, 0x80, 0x00, 0x01, 0x00, 0x04, 0x84, 0x80, 0x80, 0x80,
  0x00, 0x01, 0x70, 0x00, 0x00, 0x06, 0x81, 0x80, 0x80, 0x80, 0x00, 0x00, 0x07, 0x88, 0x80, 0x80,
  0x80, 0x00, 0x01, 0x04, 0x74, 0x65, 0x73, 0x74, 0x00, 0x00, 0x0a, 0x8a, 0x80, 0x80, 0x80, 0x00,
  0x01, 0x84, 0x80, 0x80, 0x80, 0x00, 0x00, 0x41, 0x2a, 0x0b]

-- binary/module.rs:190
example : parseModule testFile = (.ok {
    types := [{ params := [], results := [.i32] }]
    funcs := [{ ty := 0, locals := [], body := [.constI32 42] }]
    tables := [{ ty := { lim := { min := 0, max := none }, elem := .funcRef } }]
    mems := [], globals := [], elem := [], data := [], start := none, imports := []
    exports := [{ name := [0x74, 0x65, 0x73, 0x74], desc := .func 0 }] }, []) := by decide +kernel

end Whasm

namespace Whasm.Decl

/-- Did it fail? -/
def isErr {α : Type} : Except DErr α → Bool
  | .error _ => true
  | .ok _ => false

-- grammar/core/byte.rs:9, 27, 95; 36
example : dByte [0x8E] = .ok (0x8E, []) := rfl
example : isErr ((do let _ ← dByte; dByte : Q Byte) [0x00]) = true := rfl

-- grammar/core/array.rs:10, 127; 120
example : dN 4 dByte [0x01, 0x02, 0x03, 0x04] = .ok ([0x01, 0x02, 0x03, 0x04], []) := rfl
example : dN 0 dByte [] = .ok ([], []) := rfl

-- grammar/core/float.rs:10, 47; 54
example : dF32 [0xDB, 0x0F, 0x49, 0x40] = .ok (0x40490FDB, []) := rfl
example : dF64 [0x18, 0x2D, 0x44, 0x54, 0xFB, 0x21, 0x09, 0x40] = .ok (0x400921FB54442D18, []) := rfl

-- grammar/core/signed.rs:4, 15, 25, 35
example : ofP parseI8 [0x56] = .ok (-42, []) := rfl
example : ofP parseI8 [0xD6, 0xFF, 0x7F] = .ok (-42, []) := rfl
example : isErr (ofP parseI8 [0xD6, 0xFF]) = true := rfl
example : isErr (ofP parseI8 [0xD6, 0x7E]) = true := rfl

-- grammar/core/signed.rs:117, 124, 131, 139, 146, 154, 161, 168, 175
example : ofP parseI8 [0x7E] = .ok (-2, []) := rfl
example : ofP parseI8 [0xFE, 0x7F] = .ok (-2, []) := rfl
example : ofP parseI8 [0xFE, 0xFF, 0x7F] = .ok (-2, []) := rfl
example : isErr (ofP parseI8 [0x83, 0x3E]) = true := rfl
example : isErr (ofP parseI8 [0xFF, 0x7B]) = true := rfl
example : ofP parseI8 [0x2A] = .ok (42, []) := rfl
example : ofP parseI8 [0xEA, 0x00] = .ok (106, []) := rfl
example : isErr (ofP parseI8 [0xD6, 0x81, 0x80, 0x00]) = true := rfl
example : isErr (ofP parseI8 [0xD6, 0xFE, 0x80, 0x7F]) = true := rfl

-- grammar/core/unsigned.rs:4, 15, 25, 35
example : ofP parseU8 [0x2A] = .ok (42, []) := rfl
example : ofP parseU8 [0xAA, 0x80, 0x00] = .ok (42, []) := rfl
example : isErr (ofP parseU8 [0xAA, 0x80]) = true := rfl
example : isErr (ofP parseU8 [0xAA, 0x02]) = true := rfl

-- grammar/core/unsigned.rs:110, 117, 125, 133, 140
example : ofP parseU8 [0x03] = .ok (3, []) := rfl
example : ofP parseU8 [0x83, 0x00] = .ok (3, []) := rfl
example : isErr (ofP parseU8 [0x83, 0x10]) = true := rfl
example : ofP parseU8 [0x8E, 0x81, 0x80, 0x00] = .ok (142, []) := rfl
example : isErr (ofP parseU8 [0x8E, 0x82, 0x80, 0x00]) = true := rfl

-- grammar/core/vec.rs:14; 77; 21, 84
example : dVec dByte [0x04, 0x01, 0x02, 0x03, 0x04] = .ok ([0x01, 0x02, 0x03, 0x04], []) := rfl
example : dVec (ofP parseU8) [0x04, 0x01, 0x02, 0x03, 0x04] = .ok ([0x01, 0x02, 0x03, 0x04], []) := rfl
example : dVecVec (ofP parseU8) [0x02, 0x02, 0x2A, 0x03, 0x8E, 0x01] = .ok ([42, 42, 142, 142, 142], []) := rfl

-- grammar/core/list.rs:9, 29; 39; 77
example : dList dByte [0x01, 0x02, 0x03, 0x04] = .ok ([0x01, 0x02, 0x03, 0x04], []) := rfl
example : isErr (dList dF32 [0x00, 0x00, 0x00, 0x00, 0x05, 0x06]) = true := rfl
example : dList (ofP parseU8) [0x2A, 0xAA, 0x00, 0xAA, 0x80, 0x00] = .ok ([42, 42, 42], []) := rfl

-- grammar/core/error.rs:5
example : isErr (dF32 [0x00]) = true := rfl

-- grammar/core/string.rs:8, 32, 40
example : dString [0x11, 0x48, 0x65, 0x6C, 0x6C, 0x6F, 0x20, 0x57, 0x6F, 0x72, 0x6C, 0x64, 0x21, 0x20, 0xF0, 0x9F, 0x92, 0x96] =
    .ok ([0x48, 0x65, 0x6C, 0x6C, 0x6F, 0x20, 0x57, 0x6F, 0x72, 0x6C, 0x64, 0x21, 0x20, 0xF0, 0x9F, 0x92, 0x96], []) := rfl
example : dString [0x0C, 0x48, 0x65, 0x6C, 0x6C, 0x6F, 0x20, 0x57, 0x6F, 0x72, 0x6C, 0x64, 0x21] =
    .ok ([0x48, 0x65, 0x6C, 0x6C, 0x6F, 0x20, 0x57, 0x6F, 0x72, 0x6C, 0x64, 0x21], []) := rfl
example : dString [0x0A, 0x48, 0x65, 0x61, 0x72, 0x74, 0x20, 0xF0, 0x9F, 0x92, 0x96] =
    .ok ([0x48, 0x65, 0x61, 0x72, 0x74, 0x20, 0xF0, 0x9F, 0x92, 0x96], []) := rfl

/-! ### `grammar/core/derive.rs`. Structs are tuples, variants are numbered. -/

/-- `ProgrammingLanguage`, `grammar/core/derive.rs:26-34`: 4 with the edition, 5, 6. -/
def dProgramming : Q (Nat × Nat) := dEnum [disc 0x04 do let e ← dU32; pure (4, e.toNat), disc 0x05 (pure (5, 0)), disc 0x06 (pure (6, 0))]

/-- `Language`, `grammar/core/derive.rs:17-24`: 0, 1, 2, or a `ProgrammingLanguage`. -/
def dLanguage : Q (Nat × Nat) := dEnum [disc 0x00 (pure (0, 0)), disc 0x01 (pure (1, 0)), disc 0x02 (pure (2, 0)), ⟨fun _ => true, dProgramming, true⟩]

-- 39
example : (do let n ← dString; let a ← dU32; let l ← dVec dLanguage; pure (n, a, l) : Q (Name × U32 × List (Nat × Nat)))
    [0x03, 0x4A, 0x6F, 0x65, 0x2A, 0x02, 0x00, 0x04, 0xE2, 0x0F] = .ok (([0x4A, 0x6F, 0x65], 42, [(0, 0), (4, 2018)]), []) := rfl

/-- `MyStruct`, `grammar/core/derive.rs:96-99`; also `Struct` and `TupleStruct`, lines 416-419 and 482-483. -/
def dMyStruct : Q (U32 × Name) := do let a ← dU32; let n ← dString; pure (a, n)

-- 106; 421, 485 (bytes remain)
example : dMyStruct [0x2A, 0x04, 0x74, 0x65, 0x73, 0x74] = .ok ((42, [0x74, 0x65, 0x73, 0x74]), []) := rfl
example : dMyStruct [0x2A, 0x02, 0x34, 0x32, 0x03, 0x01, 0x02, 0x03] = .ok ((42, [0x34, 0x32]), [0x03, 0x01, 0x02, 0x03]) := rfl

-- 141
example : dEnum [disc 0x01 (pure (1, 0, [])), disc 0x02 do let x ← dMyStruct; pure (2, x), disc 0x03 do let x ← dMyStruct; pure (3, x)]
    [0x03, 0x2A, 0x04, 0x74, 0x65, 0x73, 0x74] = .ok (((3, 42, [0x74, 0x65, 0x73, 0x74]) : Nat × U32 × Name), []) := rfl

-- 184, 199
example : dSized dString [0x05, 0x04, 0x74, 0x65, 0x73, 0x74] = .ok ([0x74, 0x65, 0x73, 0x74], []) := rfl
example : isErr (dSized dString [4, 0x04, 0x74, 0x65, 0x73, 0x74, 0x00]) = true ∧
    isErr (dSized dString [6, 0x04, 0x74, 0x65, 0x73, 0x74, 0x00]) = true := ⟨rfl, rfl⟩

-- 459, 468, 475
example : dSized dU32 [0x04, 0xAA, 0x80, 0x80, 0x00] = .ok (42, []) := rfl
example : isErr (dSized dU32 [0x05, 0xAA, 0x80, 0x80, 0x00, 0x00]) = true := rfl
example : isErr (dSized dU32 [0x04, 0xAA, 0x80, 0x80, 0x80, 0x00]) = true := rfl

-- 248, 263, 437, 446
example : dMatching (fun l => l == [1, 2, 3, 4]) (dN 4 (ofP parseU8)) [0x01, 0x02, 0x03, 0x04] = .ok ([0x01, 0x02, 0x03, 0x04], []) := rfl
example : isErr (dMatching (fun x => x == 42) (ofP parseU8) [0x6F]) = true := rfl
example : dMatching (fun x => x == 42) dU32 [0x2A] = .ok (42, []) := rfl
example : isErr (dMatching (fun x => x == 42) dU32 [0x2B]) = true := rfl

/-- `SomeEnum`, `grammar/core/derive.rs:292-295`. -/
def dSome : Q Nat := dEnum [⟨fun x => decide (x ≤ 0x10) || x == 0x80, pure 1, false⟩, ⟨fun x => decide (0x60 < x), pure 2, false⟩]

-- 300, 315
example : dSome [0x80] = .ok (1, []) := rfl
example : isErr (dSome [0x20]) = true := rfl

-- 350, 387
example : dEnum [disc 0x00 (pure none), ⟨fun x => decide (0x10 ≤ x) && decide (x ≤ 0x7F), do let b ← dByte; pure (some b), true⟩] [0x2A] =
    .ok (some 42, []) := rfl
example : dEnum [disc 0x00 (pure (1, 0)), ⟨fun _ => true, dEnum [disc 0x01 (pure (2, 1)), disc 0x02 (pure (2, 2))], true⟩] [0x01] =
    .ok (((2, 1) : Nat × Nat), []) := rfl

/-- `Enum`, `grammar/core/derive.rs:492-496`. -/
def dTestEnum : Q (Nat × BitVec 8) := dEnum [
  ⟨fun x => decide (0x11 ≤ x) && decide (x ≤ 0x21), do let v ← ofP parseU8; pure (1, v), false⟩, disc 0x22 do let v ← ofP parseU8; pure (2, v)]

-- 498, 505
example : dTestEnum [0x11, 0x03] = .ok ((1, 0x03), []) := rfl
example : isErr (dTestEnum [0x55, 0x03]) = true := rfl

/-- `SizedEnum`, `grammar/core/derive.rs:512-517`. -/
def dTestSized : Q (Nat × U32) := dSizedEnum [disc 0x11 do let v ← dU32; pure (1, v), disc 0x22 do let v ← dU32; pure (2, v)]

-- 519, 526, 533
example : dTestSized [0x11, 0x04, 0xAA, 0x80, 0x80, 0x00] = .ok ((1, 42), []) := rfl
example : isErr (dTestSized [0x11, 0x05, 0xAA, 0x80, 0x80, 0x00, 0x00]) = true := rfl
example : isErr (dTestSized [0x11, 0x04, 0xAA, 0x80, 0x80, 0x80, 0x00]) = true := rfl

/-- `ForwardingEnum`, `grammar/core/derive.rs:540-545`: variant, variant of the inner `Enum` or 0, value. -/
def dTestForward : Q (Nat × Nat × BitVec 8) := dEnum [
  disc 0x33 do let v ← ofP parseU8; pure (1, 0, v), disc 0x44 do let v ← ofP parseU8; pure (2, 0, v),
  ⟨fun _ => true, do let e ← dTestEnum; pure (3, e), true⟩]

-- 547, 554
example : dTestForward [0x22, 0x03] = .ok ((3, 2, 0x03), []) := rfl
example : isErr (dTestForward [0x55, 0x03]) = true := rfl

/-! ### Instructions and modules -/

-- grammar/instr.rs:273, 280, 287, 298, 309
example : dExpr [0x01, 0x01, 0x01, 0x0B] = .ok ([.nop, .nop, .nop], []) := rfl
example : isErr (dExpr [0x01, 0x01, 0x01, 0x05, 0x01, 0x01, 0x0B]) = true := rfl
example : dIfOf (dInstrList 9) [0x40, 0x01, 0x01, 0x05, 0x01, 0x0B] = .ok (.ifElse [] [.nop, .nop] [.nop], []) := rfl
example : dIfOf (dInstrList 9) [0x40, 0x01, 0x01, 0x01, 0x0B] = .ok (.ifElse [] [.nop, .nop, .nop] [], []) := rfl
example : isErr (dIfOf (dInstrList 9) [0x40, 0x01, 0x01, 0x05, 0x01, 0x05]) = true := rfl

-- grammar/mod.rs:9, 18, 69
example : dModule [0x00, 0x61, 0x73, 0x6d, 0x01, 0x00, 0x00, 0x00] = .ok ([], []) := rfl
example : dModule [
    0x00, 0x61, 0x73, 0x6d, 0x01, 0x00, 0x00, 0x00, 0x01, 0x05, 0x01,
    0x60, 0x00, 0x01, 0x7f, 0x03, 0x02, 0x01, 0x00, 0x07, 0x08, 0x01,
    0x04, 0x6D, 0x61, 0x69, 0x6E, 0x00, 0x00, 0x0a, 0x0a, 0x01, 0x84,
    0x80, 0x80, 0x80, 0x00, 0x00, 0x41, 0x2a, 0x0b] =
    .ok ([.types [⟨[], [.i32]⟩], .funcs [0], .exports [⟨[0x6D, 0x61, 0x69, 0x6E], .func 0⟩], .code [⟨[], [.constI32 42]⟩]], []) := rfl
example : dModule testFile =
    .ok ([.types [⟨[], [.i32]⟩], .funcs [0], .tables [⟨⟨⟨0, none⟩, .funcRef⟩⟩], .globals [], .exports [⟨[0x74, 0x65, 0x73, 0x74], .func 0⟩],
      .code [⟨[], [.constI32 42]⟩]], []) := rfl

end Whasm.Decl
