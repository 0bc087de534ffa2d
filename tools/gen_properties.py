#!/usr/bin/env python3
"""Generates /verif/properties.jsonl (kept in git so that the list is easy to edit)."""
import json, os
P = []
def p(title, statement, quantifier, why, anchors):
    P.append(dict(id="C%02d" % (len(P)+1), title=title, statement=statement,
                  quantifier=quantifier, why_tests_cant=why, anchors=anchors))

U="whasm/src/binary/core/unsigned.rs"; S="whasm/src/binary/core/signed.rs"
V="whasm/src/binary/core/vec.rs"; Z="whasm/src/binary/core/sized.rs"
BI="whasm/src/binary/instr.rs"; BM="whasm/src/binary/module.rs"; BT="whasm/src/binary/ty.rs"
VI="whasm/src/validation/instr.rs"; VM="whasm/src/validation/module.rs"; VX="whasm/src/validation/idx.rs"
VS="whasm/src/validation/stacks.rs"; VT="whasm/src/validation/ty.rs"; VC="whasm/src/validation/context.rs"

p("Unsigned LEB-128 is decoded exactly",
  "Parsing a u8/u16/u32/u64 from any stream that begins with a complete LEB-128 group (bytes with the high bit set, then one without) returns Ok(v) exactly when the mathematical value of the group is v and fits the type, consumes exactly that group, and otherwise returns OutOfRangeUnsignedInteger.",
  "every integer width of 8 bits or more, every LEB-128 group of any length, every following stream",
  "LEB groups have unbounded length (padding is allowed) and values span 2^64; the overflow test happens on shifted, truncated words, so boundary values matter at each width.",
  [U+": parse_unsigned_leb_128", U+": impl WasmBinaryParse for u8/u16/u32/u64"])
p("Signed LEB-128 is decoded exactly",
  "Parsing an i8/i16/i32/i64 from any stream that begins with a complete LEB-128 group returns Ok(v) exactly when the two's-complement value of the group (sign bit = bit 6 of the last byte) is v and lies in [-2^(N-1), 2^(N-1)), consumes exactly that group, and otherwise returns OutOfRangeSignedInteger.",
  "every signed width of 8 bits or more, every group of any length, every following stream",
  "sign extension, partial last group and sign-padding bytes interact differently at each width; sampling misses the boundary combinations.",
  [S+": parse_signed_leb_128"])
p("Unterminated integers never decode",
  "If the stream ends before a byte without the high bit is seen, parsing an integer returns an error: UnexpectedEndOfFile if the stream could still have been completed to an in-range number, the out-of-range error only if no completion could be in range.",
  "every finite stream without a terminating byte, every width",
  "The set of truncated streams is infinite and the early-failure point depends on arithmetic over the whole prefix.",
  [U+": parse_unsigned_leb_128", S+": parse_signed_leb_128"])
p("Integer round trip and padding insensitivity",
  "For every value of an unsigned or signed type, its minimal LEB-128 encoding, and every encoding obtained from it by adding any number of redundant sign/zero groups, decodes to that value.",
  "every value of every integer type, every amount of padding, every following stream",
  "2^64 values times unbounded padding.",
  [U+": module docs, parse_unsigned_leb_128", S+": module docs, parse_signed_leb_128"])
p("Integers accept every encoding allowed by the WebAssembly specification, and only those",
  "The set of byte sequences accepted for an integer of N bits is the set given by the WebAssembly 1.0 grammar uN/sN (at most ceil(N/7) bytes).",
  "all byte sequences, all widths",
  "Needs a statement about all byte sequences on both sides; the second half is false of the code (over-long encodings are accepted), which tests of short inputs do not show.",
  [U+": module docs lines 15-23", S+": module docs lines 15-24"])
p("A Byte consumes exactly one element",
  "Parsing a Byte returns the next element and leaves the rest of the stream untouched; on an empty stream it returns UnexpectedEndOfFile and consumes nothing. A fixed array [T; n] is exactly n consecutive T.",
  "all streams, all element parsers, every array size 0..8",
  "A universally quantified frame condition on the remaining stream.",
  ["whasm/src/binary/core/byte.rs: Byte", "whasm/src/binary/core/array.rs"])
p("Floats are read as little-endian bit patterns",
  "Parsing f32 (f64) succeeds iff at least 4 (8) bytes remain, consumes exactly those, and yields the float whose IEEE-754 bit pattern is those bytes read little-endian; every bit pattern, NaN payloads included, is reachable and preserved.",
  "all 2^32 / 2^64 bit patterns, all following streams",
  "2^64 bit patterns.",
  ["whasm/src/binary/core/float.rs: parse_float_iee754"])
p("Strings are exactly the length-prefixed valid UTF-8 sequences",
  "Parsing a String succeeds exactly when a u32 length n is followed by n bytes that are the UTF-8 encoding of some sequence of Unicode scalar values, and returns that sequence; if the n bytes are present but are not valid UTF-8 the error is InvalidUtf8Encoding.",
  "all byte streams",
  "Validity must hold for every byte sequence, including overlong forms and surrogates.",
  ["whasm/src/binary/core/string.rs", "whasm/src/binary/core/error.rs: From<FromUtf8Error>"])
p("Vec<T> holds exactly the announced number of elements in order",
  "Parsing Vec<T> (or UnwrappingVec<T>) succeeds with xs exactly when the stream is a u32 n followed by n consecutive encodings of the elements of xs, in order, n = xs.len(); the first failing element's error is returned unchanged.",
  "every element type, every length up to 2^32-1, every stream",
  "Length and element contents are unbounded.",
  [V+": Vec<T>, UnwrappingVec<T>"])
p("CompactVec<T> is the expansion of its runs",
  "Parsing CompactVec<T> yields the concatenation of K_i copies of v_i for the announced (K_i, v_i) pairs; its length is the sum of the K_i.",
  "every list of runs, every element type, every stream",
  "Run counts range to 2^32-1 for each of up to 2^32-1 runs.",
  [V+": CompactVec<T>"])
p("Sized<T> confines and fully consumes its content",
  "Parsing Sized<T> with announced size n succeeds exactly when T, given only the next n bytes, succeeds and consumes all n of them; on success and on failure no byte after those n is consumed; if T succeeds without consuming n bytes the error is SizeMissmatch.",
  "every content parser, every size, every stream (also truncated)",
  "Quantifies over all content parsers and streams, including reads at the boundary.",
  [Z+": Sized<T>"])
p("Consume skips exactly a sized payload",
  "Parsing Sized<Consume> with size n succeeds iff n bytes are available, reports count = n, and leaves the stream right after them.",
  "all sizes and streams",
  "Unbounded sizes; truncation at each point.",
  [Z+": Consume"])
p("Parsers only move forward",
  "Whatever the outcome, after parsing any element (integers, floats, strings, vectors, types, instructions, expressions, module parts, modules) the remaining stream is a suffix of the original stream: nothing is duplicated, reordered or un-read.",
  "all element types and all streams, success or error",
  "Universal frame condition over every stream and every error point.",
  ["whasm/src/binary/core/traits.rs: WasmBinary::parse", BI, BM, BT])
p("A successful parse does not depend on what follows",
  "For every element other than Consume and Module: if parsing succeeds on a stream consuming a prefix p, it succeeds with the same value and consumption on p followed by anything else; hence no encoding is a proper prefix of another encoding.",
  "all streams, all continuations",
  "Quantifies over pairs of streams.",
  ["whasm/src/binary/core/*", BI, BT, BM])
p("Parsing terminates and never panics on finite input",
  "Parsing a module, expression or instruction from any finite stream returns Ok or one of the listed errors: no panic (no unwrap of None, no out-of-bounds index, no shift overflow) and no endless loop.",
  "all finite byte streams",
  "All inputs of all sizes; termination is a liveness property.",
  [BI+": SubExpr, IfInstr, Instr", BM+": Module", U, S])
p("Opcodes map to the WebAssembly 1.0 instruction set",
  "The first byte of an instruction selects exactly the instruction to which the WebAssembly 1.0 opcode table assigns it; every other byte is rejected with InvalidVariantId carrying that byte and consuming only it.",
  "all 256 first bytes, all following streams",
  "Immediates after the opcode are unbounded; 172 opcodes against a table.",
  [BI+": impl WasmBinaryParse for instr::Instr", "whasm/src/structure/instr.rs: Instr"])
p("Expressions are parsed exactly according to the grammar",
  "Parsing Expr succeeds with value e consuming bytes b exactly when (b, e) is in the WebAssembly expression grammar: a sequence of instructions closed by 0x0B, where blocks, loops and ifs nest, an if has an optional else part (absent = empty), and immediates follow their opcodes in order; the grammar is that of the document except that integers may be LEB-128 groups of any length (C05) and any u32 may stand for a reserved zero byte (C54). Every encoding of the document's own grammar is accepted.",
  "all byte streams, all nesting depths",
  "Recursive grammar with unbounded nesting.",
  [BI+": Expr, SubExpr, IfInstr, Instr"])
p("Parsed expressions contain no stray End or Else",
  "No expression returned by the parser (function bodies, constant expressions) contains the pseudo-instructions End or Else, at any nesting depth; and every block type it contains has at most one result.",
  "all byte streams, all nesting depths",
  "Invariant on unboundedly deep results.",
  [BI+": SubExpr, IfInstr", BT+": RetVal"])
p("Misplaced else is rejected",
  "An else (0x05) closing anything other than the first part of an if is rejected with UnexpectedOpcode: else at the end of an expression, block or loop body gives instr \"Else\", a second else inside an if gives instr \"Unknown\".",
  "all instruction sequences before the misplaced else, all streams after it",
  "The instruction sequence before the error is unbounded.",
  [BI+": Expr::parse, IfInstr::parse"])
p("Types are parsed exactly according to the grammar",
  "Value types, element types, block types, limits, mutability, function, table, memory and global types parse successfully exactly on their WebAssembly 1.0 encodings and with the value they denote; any other tag byte is reported by InvalidVariantId with that byte and the name of the type.",
  "all byte streams",
  "Function types contain vectors of unbounded length; limits contain padded integers.",
  [BT])
p("A module must start with the magic number and version",
  "Parsing a module whose first four bytes are not 00 61 73 6D fails with InvalidPreambleMagic (UnexpectedEndOfFile if fewer than four exist); if the next four are not 01 00 00 00 it fails with InvalidPreambleVersion; only then is anything else inspected.",
  "all byte streams",
  "Universal over the rest of the stream.",
  [BM+": Module::parse lines 15-22"])
p("Sections appear in order and at most once",
  "In every accepted module the non-custom section ids are strictly increasing and in 1..11; the first section whose id is not larger than an earlier non-custom id makes parsing fail with UnexpectedSectionId{id}, and an id above 11 with InvalidSectionId{id}.",
  "all sequences of sections",
  "Unbounded section sequences with custom sections interleaved.",
  [BM+": Module::parse lines 27-68"])
p("Modules are parsed exactly according to the grammar",
  "Parsing a module from a stream succeeds with m exactly when the stream is a WebAssembly 1.0 binary module (preamble, optional sections in order, custom sections anywhere, sizes exact, types paired with bodies) denoting m, and the whole stream is consumed; the grammar is that of the document except for the four liberties of C05 (integers of any length), C26 (missing code section), C29 (number of locals) and C54 (reserved bytes). Every module of the document's own grammar is accepted with the module it denotes.",
  "all byte streams and all modules",
  "Bidirectional statement over all modules.",
  [BM+": Module::parse", BI, BT, V, Z])
p("Custom sections do not change the result",
  "Inserting any number of well-formed custom sections before, between or after the other sections of an accepted module leaves the parse result unchanged.",
  "all accepted modules, all custom sections, all insertion points",
  "Quantifies over all modules and insertion points.",
  [BM+": Module::parse lines 42-45"])
p("Bodies are paired with the types of the function section",
  "If a code section is present, its number of bodies equals the number of entries of the function section (0 if absent), and the i-th parsed function carries the i-th type index; otherwise parsing fails.",
  "all modules",
  "Unbounded numbers of functions.",
  [BM+": Module::parse lines 55-64, module::Func::parse"])
p("A function section without matching code section is rejected",
  "A module whose function section announces n > 0 functions but that has no code section is rejected.",
  "all modules",
  "Absence of a check is only visible on inputs no test contains; false of the code (the declared functions are silently dropped).",
  [BM+": Module::parse lines 48, 55-64"])
p("Every well-formed module has an encoding that parses back to it",
  "There is an encoder such that for every module value that fits the format (section contents shorter than 2^32 bytes, names valid UTF-8, no pseudo-instructions, block types of at most one result) parsing its output returns exactly that module. No other module is ever the result of parsing, and no shorter input gives the same module.",
  "all well-formed modules",
  "Round trip over all modules.",
  [BM, BI, BT, "whasm/src/structure/module.rs"])
p("A truncated expression is an end-of-file error",
  "Parsing Expr or Instr from any proper prefix of an accepted encoding returns UnexpectedEndOfFile.",
  "all accepted encodings, all cut points",
  "Every cut point of every encoding.",
  [BI])
p("Parsed sizes are bounded by the input, except for runs of locals",
  "The number of instructions and the nesting depth of a parsed expression are at most the number of bytes consumed; the number of locals of a parsed function is NOT bounded by the input size nor by 2^32-1 as WebAssembly requires.",
  "all byte streams",
  "Needs inputs that would allocate gigabytes; statement over all inputs.",
  [V+": CompactVec", BM+": module::Func", BI])
p("Accepted function bodies are well typed",
  "If validation accepts a module obtained from the parser, every function body has, in the declarative WebAssembly 1.0 type system (memory alignment excepted), the type [] -> results in the context of the module's index spaces, the function's parameters and locals, and its result type.",
  "all modules, all function bodies of any length and depth",
  "Soundness of a type checker with stack polymorphism: all programs.",
  [VI+": impl Validate for instr::Instr / Expr", VS, VM+": module::Func"])
p("Well-typed function bodies are accepted",
  "Every function body that is well typed in the declarative WebAssembly 1.0 type system is accepted by validation.",
  "all modules and function bodies",
  "Completeness over all programs. False as it stands (a branch to the function's own label is rejected); proved for bodies that do not name that label.",
  [VI, VX+": idx::Label", VS])
p("Validation never panics",
  "Validating any module value, parsed or built by hand, returns Ok or Err: the unwrap, index and subtraction operations inside cannot panic.",
  "all module values, including hand-built ones with misplaced End/Else",
  "All values, all interpreter states reachable while validating.",
  [VS+": pop_operand, unreachable", VX, VI, VM])
p("Instructions cannot touch operands of enclosing blocks",
  "While a block body is validated, no instruction of the body removes or changes operands that were on the stack when the block was entered, nor changes enclosing frames.",
  "all expressions, all stack contents at block entry",
  "Frame property over all stacks and bodies.",
  [VS+": pop_operand, pop_frame, unreachable", VI])
p("Accepted modules have no dangling index",
  "In an accepted module every index (type, function, table, memory, global, local, label; in code, exports, imports, elements, data, start and constant expressions) is within its index space.",
  "all accepted modules, all positions of all bodies",
  "All positions at all depths.",
  [VX, VI, VM])
p("Index spaces list imports before definitions",
  "Function, table, memory and global index spaces used by validation consist of the imported entities in import order followed by the module's own in definition order; exports and calls resolve through them.",
  "all modules",
  "All mixes of imports and definitions.",
  [VC+": Context::from, use_*"])
p("Exports have distinct names",
  "Validation succeeds only if all export names are pairwise distinct, and no module is rejected for duplicate names when they are distinct.",
  "all lists of exports",
  "The check sorts and dedups; correctness over all lists.",
  [VM+": Module::validate lines 78-86"])
p("Limits are well formed",
  "In an accepted module every table and memory limit (defined or imported) has min <= max, and memory limits do not exceed 65535 pages; the specification's bound is 65536, so a memory of exactly 65536 pages is wrongly rejected.",
  "all modules, all 2^64 (min,max) pairs",
  "Boundary values of 32-bit pairs.",
  [VT+": Limits, Table, Mem"])
p("The start function takes and returns nothing",
  "In an accepted module the start function, if any, has an index in the function index space and type [] -> [].",
  "all modules",
  "All index spaces and types.",
  [VM+": module::Start"])
p("Validation returns the types of imports and exports in order",
  "On success the returned lists have one entry per import/export, in order, each being the external type of that import/export in the module's index spaces.",
  "all accepted modules",
  "Unbounded lists, mixed kinds.",
  [VM+": result::Module, Import, Export, Module::validate lines 60-69"])
p("Constant expressions are single constants or immutable globals",
  "An initializer or offset is accepted exactly when it consists of one instruction: a constant of the required type or a global.get of an immutable global of that type in the context used.",
  "all constant expressions, all contexts",
  "All instruction sequences of any length.",
  [VI+": ConstExpr", VM+": Global, Elem, Data"])
p("Global initializers refer to imported globals only",
  "In an accepted module a global.get inside a global initializer refers to an imported immutable global.",
  "all modules",
  "False of the code: initializers are checked against the module's own globals, self reference included, and imported globals are not visible.",
  [VM+": Module::validate lines 33-34, 48-50"])
p("At most one table and one memory",
  "An accepted module has at most one table and at most one memory, counting imports.",
  "all modules",
  "False of the code: imports are not counted; proved for the module's own tables and memories.",
  [VM+": Module::validate lines 71-76"])
p("Memory access alignment is checked",
  "A load or store whose alignment exponent exceeds the natural alignment of the access is rejected.",
  "all memory instructions, all alignments",
  "False of the code: the check is commented out; proved: the immediates have no influence at all on the verdict.",
  [VI+": validate_load, validate_store"])
p("Function types have at most one result",
  "Every function type in an accepted module has at most one result.",
  "all modules", "Unbounded lists of types.",
  [VT+": ty::Func", VM+": Module::validate lines 36-38"])
p("Functions are validated independently of one another",
  "Whether a function body is accepted depends only on the module's declarations and on that body: after each successful item the validation state is back to its initial value, so reordering or repeating bodies with the same declarations does not change their individual verdicts, and the module's code passes iff each body passes alone.",
  "all modules, all orders of bodies",
  "State leakage shows only for particular sequences.",
  [VM+": module::Func::validate, Global, Elem, Data", VC])
p("Immutable globals are never assigned",
  "An accepted function body contains no global.set of an immutable global, at any depth, reachable or not.",
  "all bodies", "All positions at all depths, including dead code.",
  [VI+": GlobalSet"])
p("Hand-built End is always rejected, hand-built Else is not",
  "A function body value that contains the pseudo-instruction End at any depth is rejected by validation; a stray Else can be accepted.",
  "all hand-built bodies", "All values of a recursive type.",
  [VI+": End, Else", VM+": module::Func::validate"])
p("The parser-then-validate pipeline establishes specification validity",
  "For every byte stream: if parsing and validation both succeed, the module satisfies every clause of WebAssembly 1.0 module validity except the listed ones (alignment, global initializer scope, number of imported tables/memories).",
  "all byte streams", "End-to-end statement over all inputs.",
  ["parser/src/main.rs: main", BM, VM])
p("Specification-valid modules are accepted",
  "Every module that is valid by the WebAssembly 1.0 specification is accepted by validation.",
  "all modules", "False as it stands (function-level branch, 65536-page memories, imported globals in global initializers); proved for modules avoiding these.",
  [VM, VI, VT, VX])
p("Constants do not influence validation",
  "Replacing the operand of any numeric constant or the immediates of any memory access leaves the validation verdict unchanged.",
  "all modules, all replacements", "All values of all immediates.",
  [VI])
p("Code after an unconditional branch is checked with a polymorphic stack",
  "After unreachable, br, br_table or return the remaining instructions of the block may assume any operands below those they push; but operands they push themselves are still type-checked and the block result must still match.",
  "all instruction sequences", "Stack polymorphism over all programs.",
  [VS+": unreachable, pop_operand", VI])
p("The command line tool prints only modules that parse and validate",
  "The tool reads the file named by the last non-flag argument, fails with exit code 1 on a missing name, unreadable file, parse error or validation error, and prints the module iff -p/--print was given anywhere and both phases succeed.",
  "all argument lists, all file contents", "All argument orders and all file contents.",
  ["parser/src/main.rs: main, Config::new"])
p("Equality of parsed modules is reflexive",
  "A module compares equal (==) to itself, and modules parsed from equal bytes compare equal.",
  "all modules", "False of the code for modules containing NaN constants (derived PartialEq on f32/f64); proved for modules without NaN constants.",
  ["whasm/src/structure/instr.rs: derive(PartialEq)", "whasm/src/structure/module.rs"])
p("Reserved bytes must be zero",
  "memory.size, memory.grow and call_indirect are accepted only with a reserved byte 0x00 in place of the memory or table index.",
  "all byte streams",
  "False of the code: any u32 of any encoded length is accepted there and kept as an index; the theorem says exactly what is accepted.",
  [BI+": 0x11, 0x3F, 0x40"])
p("Different parse errors have different messages",
  "Two parse errors with different data are displayed as different messages, so that the message identifies the error.",
  "all pairs of parse errors",
  "False of the code: OutOfRangeSignedInteger and OutOfRangeUnsignedInteger have the same message; the theorem says this is the only such pair among the errors the parser can return.",
  ["whasm/src/binary/core/error.rs: Error"])
p("The command line tool reports phase, file and error, and is silent on success",
  "On failure the tool prints one report naming the phase that failed (usage, opening, parsing, validating), the file, and the message of the error returned by that phase, and exits with a non-zero code; on success it prints nothing but the module, and that only if asked.",
  "all argument lists, all file systems, all file contents", "All argument lists and file contents.",
  ["parser/src/main.rs: main"])
p("Behaviour does not depend on the width of usize",
  "Parsing vectors and strings and looking up labels gives the same result whatever the width (at least 32 bits) of usize and whether or not overflow checks are on.",
  "all widths of at least 32 bits, both kinds of build, all byte streams, all contexts",
  "False of the code on 32-bit targets: label 0xFFFFFFFF and vector counts of at least 2^31 panic there; the theorems say this is the whole difference.",
  ["whasm/src/validation/idx.rs: idx::Label::validate", V+": Vec::with_capacity"])
p("Memory reserved for a vector is bounded by the input",
  "The number of elements for which Vec::parse reserves memory is at most the number of bytes of input.",
  "all byte streams, all element parsers",
  "False of the code: a five-byte count reserves memory for 2^32-1 elements; true if the vector is then parsed successfully.",
  [V+": Vec::with_capacity"])
p("The declarative grammar and the parsers agree on all parts of a module",
  "The declarative description of the binary format in whasm/src/grammar and the hand-written parsers accept the same byte strings, with the same value and the same remaining input: for types, names, vectors, sized elements, expressions with all opcodes, and all elements of sections. The declarative one never reaches its unreachable!().",
  "all byte streams", "All byte streams; the declarative parser is not even compiled.",
  ["whasm/src/grammar/ty.rs", "whasm/src/grammar/instr.rs", "whasm/src/grammar/section.rs", "whasm/src/grammar/core/vec.rs", BI, BM])
p("Module::parse accepts what the declarative grammar accepts in the right order with matching counts",
  "Module::parse accepts a byte string iff the declarative Module does, the sections other than custom ones have strictly increasing numbers, and a code section has as many bodies as there are types in the function section; the result is the module denoted by the list of sections.",
  "all byte streams", "All byte streams; the declarative parser is not even compiled.",
  ["whasm/src/grammar/module.rs", "whasm/src/grammar/section.rs", BM+": Module::parse"])
p("Functions of accepted modules never get stuck",
  "If a module was parsed and Module::validate returned Ok, then every call of one of its functions with arguments of the declared types, in a store that fits the module and after any history of calls, either returns values of the declared result types, or traps, or does not return. It never meets a missing or wrongly typed operand, an unknown index or label, or an instruction that is none; immutable globals keep their values, memories never shrink and stay within their limits.",
  "all byte streams, all machines (numeric operators, host functions, memory growth), all stores, all arguments, all histories of calls, any number of steps",
  "Executions are unbounded; the property quantifies over all programs, all inputs and all behaviours of the host.",
  [VM+": ValidationEntry for Module", VI+": Instr::validate", VS])
p("Accepted modules can be instantiated",
  "If a module was parsed and Module::validate returned Ok, then instantiating it with imports of the declared types gives a store that fits the module, or fails because a segment does not fit, or traps or does not return in the start function; it never gets stuck, and no later call does.",
  "all byte streams, all machines, all imports, all histories of calls",
  "False of the code: global initializers may refer to the module's own globals, and references to imported globals are resolved wrongly, so that a global of type i32 can hold an i64; true for modules whose global initializers refer to imported globals of the right type only.",
  [VM+": globals are validated in a context with the module's own globals"])
p("Definitions can be appended to an accepted module",
  "If Module::validate returns Ok for a module, then for the module with further types, functions, tables, memories, globals, segments and exports appended (and a start function if there was none) it returns Ok iff the new definitions are valid in the extended module, there is still at most one table and one memory, and the names of all exports are distinct. The types of the imports and of the previous exports are then reported as before. This does not hold for further imports.",
  "all accepted modules, all additional definitions",
  "All pairs of modules and additions; indices anywhere in the old bodies must keep their meaning.",
  [VM+": ValidationEntry for Module", VX])
p("The printed text determines the module",
  "Two modules with UTF-8 names (in particular two parsed ones) are printed alike by println!(\"{:#?}\", module) iff they differ at most in the bits of NaN constants. If a run of the tool printed a module, then a run with the same standard output also printed a module, the same one up to the bits of NaN constants; no error message looks like a module.",
  "all modules with UTF-8 names, all command lines and file contents, all ways of writing floats that keep different floats other than NaNs apart",
  "All pairs of modules; an ambiguity would need two modules nobody thought of comparing.",
  ["parser/src/main.rs: println!(\"{:#?}\", module)", "whasm/src/structure/ty.rs", "whasm/src/structure/idx.rs", "whasm/src/structure/instr.rs", "whasm/src/structure/module.rs"])
p("A cut-off module is an end of input, other errors are final",
  "If an accepted module is cut after some of its sections, the rest is accepted as the module without the missing sections; if it is cut anywhere else the error is an unexpected end of input with nothing left, except that it is a size mismatch in a custom section after its name. Conversely an error other than these two, or any error that leaves bytes unread, is reported unchanged whatever bytes follow.",
  "all accepted modules and all positions of the cut; all rejected byte streams and all continuations",
  "All prefixes of all modules and all continuations of all rejected streams; tests try some positions of some files.",
  [BM+": Module::parse", Z+": Sized", Z+": Consume"])
p("The shortest binary of a module is unique",
  "Of all byte strings that are parsed to a given module whose functions have fewer than 2^32 locals each, exactly one has minimal length: the one with shortest integers and sizes, no custom or empty sections, no empty else, and maximal runs of locals. With more locals there can be two.",
  "all byte streams, all modules",
  "All byte strings for all modules; two different shortest binaries would have to be found.",
  [BM+": Module::parse", U, S, BI, Z+": Sized"])
p("Parsing depends only on the bytes before the iterator's first None",
  "Whatever iterator is passed to Module::parse or to the parse function of any element: the result is that of the bytes yielded before the first None; next is never called after None; an element that is parsed successfully leaves the iterator right after its bytes, also if the iterator goes on for ever.",
  "all iterators (any state, ending or not, fused or not), all element types",
  "All iterators, in particular ones that misbehave after None or at the edge of nested windows of Take; tests use slices.",
  ["whasm/src/binary/core/traits.rs: WasmBinaryParse", Z+": Take, Inspect", BM+": Peekable"])
p("Module::parse returns on every iterator",
  "Module::parse returns after finitely many calls of next, whatever the iterator.",
  "all iterators, also endless ones",
  "False of the code: an integer padded for ever, or custom sections without end, keep it running; true for all iterators that end, and the theorems say exactly on which endless ones it returns (always an error).",
  [U, BM+": Module::parse"])
p("Floats are read as little-endian numbers on every host",
  "f32::parse and f64::parse return the float whose little-endian representation is the next 4 or 8 bytes, whatever the byte order of the host.",
  "all byte streams, hosts of either byte order",
  "False of the code on big-endian hosts, where the bytes are taken as a big-endian number (the function writes them into memory in the order read); tests are not run on such hosts.",
  ["whasm/src/binary/core/float.rs: parse_float_iee754"])
p("Modules linked by the reported types never get stuck",
  "Modules are instantiated one after the other in a common store, each with imports chosen among the earlier exports and host objects only by comparing the types returned by Module::validate; between that, exported functions are called with arguments of the reported types. No instantiation and no call ever gets stuck, exports have the types reported, results of calls have the types reported.",
  "all sequences of accepted modules, all choices of imports, all calls and arguments, all host functions that keep the store well formed",
  "All histories of all programs; a test runs one. False of the code because of global initializers (disagreement 5): two accepted modules confuse an i64 with an i32. True for modules whose initializers follow the document.",
  [VM+": Module::validate", VX, VC])
p("Nested code does not exhaust the native stack",
  "Some stack of a usual size (room for fewer than 2^30 nested blocks) is enough for Module::parse on every input and for Module::validate on every parsed module: they return, they do not abort the process.",
  "all byte streams, all stack sizes",
  "False of the code: both functions recurse once per nested block without a limit, so for every such stack there is a valid module of three bytes per block, plus 36, that aborts the process. The theorems say exactly when: iff some expression is nested deeper than there is room; half the input length, or 2^31 blocks, is always enough; a stack that is too small never changes a result.",
  [BI+": SubExpr, IfInstr, Instr", VI+": Expr, Instr"])
p("A rejected part does not change later verdicts of the same context",
  "A caller that validates the parts of a module (functions, globals, segments, types, ...) one by one with one Context gets on each part the verdict it would get at first, also after another part was rejected.",
  "all modules, all histories of validations of parsed parts, all next parts",
  "All histories. False of the code: a rejected function, global or segment leaves its frame on the stacks, and from then on every part with code is rejected. The theorems say exactly what survives: declarations and verdicts on parts without code; nothing is accepted that was not accepted at first; nothing changes before the first rejection.",
  [VM+": Func, Global, Elem, Data", VS, VC+": Context", "whasm/src/validation/mod.rs: Validate"])
p("No history of calls on a Context panics",
  "Starting from Context::default() or Context::from(module), any sequence of calls of the public functions on the context and its stacks (validate on any item, pushing and popping operands and frames, use_* functions), going on after errors, does not panic.",
  "all sequences of calls with all arguments",
  "pop_operand unwraps the result of popping a possibly empty stack, and labels are looked up by a subtraction: that both are safe depends on an invariant of all histories, also after errors.",
  [VS+": Stacks", VC+": Context", VX, VI, VM])
p("The verdict does not depend on the order and numbering of the definitions",
  "If a module has the same parts as another one, in any order, with all indices (of types, functions, tables, memories, globals and locals) adapted so that they denote the same, with other names of imports, and with other but equally distinct names of exports, then Module::validate accepts the one iff it accepts the other, and reports the same types.",
  "all pairs of modules, all renumberings",
  "All modules and all renumberings, also of rejected modules. False of the code: initializers of globals are resolved in the list of the module's own globals, so the order of these decides. True if no initializer reads a global, or more generally if the same is found there.",
  [VM+": Module::validate, Global", VX, VC+": Context"])
p("Unused definitions can be removed",
  "A module that consists of parts of an accepted module with indices adapted is accepted; in particular an accepted module without an unused function (which may call itself), type, global, table, memory, export or segment.",
  "all accepted modules, all closed parts of them",
  "All modules and all choices of parts: dead-code elimination must not make a module invalid. False of the code for globals, for the same reason; proved for functions and types without a condition, and for all parts if initializers find the same.",
  [VM+": Module::validate, Global", VX, VI])
p("The time of validation is proportional to the size of the module",
  "There is a number k such that Module::validate takes at most k (n + 1) steps on every module with n parts (definitions, parameters, results, locals, instructions, labels, elements).",
  "all modules, valid or not",
  "Asymptotic statement on all modules; a test measures some. False of the code: for each function all parameters of its type are copied into the context, and each call pops them, so n functions that share a type with n parameters take n^2 steps, from 5 n + 44 bytes. Proved: the factor is the largest number of parameters of a type plus 13, for all parsed modules.",
  [VM+": Module::validate, Func", VS+": Stacks", VI+": Expr, ConstExpr, Instr", VC+": Context::from"])
p("The context of validation is never larger than proportional to the size of the module",
  "While Module::validate runs, the vectors of its contexts have together at most 5 n entries, for every module with n parts whose block types have one result at most (all parsed modules), valid or not; so at most 5 for each byte and local variable of the input. For an accepted module the largest context has at least the types, the definitions and imports of all index spaces, and the parameters, locals and nested blocks of any one of the functions.",
  "all modules, valid or not; all byte streams",
  "A bound at every moment of every run: unreachable code can push operands without popping any, and locals and parameters of functions are only removed again if the function was accepted.",
  [VM+": Module::validate, Func", VS+": Stacks", VI+": Instr", VC+": Context"])
p("Errors of the parser are accurate",
  "If Module::parse returns an error, the error is a true statement about the bytes it has read: the sections before the one at fault are a complete module, and the bytes read end in what the error names: a byte that begins no item of the type named, an integer that got out of range with the last byte, a name that is not UTF-8, an else in place of an end, a section number that is unknown or out of order, a content that is shorter than its size, or the end of the input or of a part with a size. The values in the error (byte, type name, section number) are those of that item.",
  "all byte streams that are rejected",
  "All rejected inputs, with all places and kinds of faults; a test has some malformed files. False of the code: a code section with another number of bodies than the function section announces is reported as an end of file with input left. Proved for all other errors, and that this is the only exception.",
  ["whasm/src/binary/core/error.rs: Error", BM+": Module", Z+": Sized", BI+": Instr, SubExpr, IfInstr"])
p("The time of parsing is proportional to the length of the input",
  "There is a number k < 2^26 such that Module::parse takes at most k (n + 1) steps (calls of next, also by adapters, calls of parse functions, bytes looked at, elements pushed) on every input of n bytes, accepted or not.",
  "all byte streams",
  "Asymptotic statement on all inputs, also rejected ones; a test measures some. False of the code: a run of local variables is expanded, so 30 bytes take more than 2^32 steps. Proved: apart from that at most 12 steps for each byte read, so 12 n + l for a module with l local variables.",
  ["whasm/src/binary/core/vec.rs: Vec, UnwrappingVec, CompactVec", Z+": Sized, Consume", BM+": Module", BI+": SubExpr, Instr"])
p("Every input that is not a module has exactly one fault by the grammar, and it is the one reported",
  "For every byte stream that is not a module there is exactly one place and one kind of fault, as defined by the grammar alone (reading from left to right, everything complete before the fault follows the grammar; a part with a size ends where its size is reached): Module::parse stops at that place, with all bytes after it unread, and returns the error of that kind with the values of the item at fault. Conversely Module::parse returns an error only for such a fault.",
  "all byte streams, all errors, all positions",
  "An equivalence on all byte streams: which of several faults is reported, and where, is fixed for every input; a test compares the errors of some malformed files. That the fault of a wrong number of bodies is called an end of file is C78.",
  ["whasm/src/binary/core/error.rs: Error", BM+": Module", Z+": Sized", BI+": Instr, SubExpr, IfInstr", "whasm/src/binary/core/vec.rs: Vec, UnwrappingVec, CompactVec"])
p("Replacing code by code of the same types keeps the verdict",
  "If pieces of code in the function bodies of an accepted module are replaced by code that has all their types (in the contexts of the module), any number of times and at any depth, Module::validate accepts the result with the same types of imports and exports; if the types are the same, the outcome is the same for every module. This holds for the rules of optimisers: dead code after a jump, constant folding, decisions on constants, unused values, local.tee. Conversely, code that can stand for another piece in all surroundings has all its types. A prefix, suffix or part of a body can be completed to an accepted one iff it can be with unreachable.",
  "all accepted modules, all pieces of code, all surroundings, all rules that keep types",
  "A statement on all programs with a hole and all sequences of rewriting steps; the converse quantifies over all surroundings. It would fail if validation of an instruction depended on anything but the operand types, the labels and the definitions, e.g. if the state unreachable leaked out of a block.",
  [VI+": Expr, Instr", VS+": Stacks", VM+": Func, Module::validate"])

p("Parsing needs memory in proportion to the input",
 "If every vector can hold a fixed multiple of the length of the input, Module::parse returns what it returns with unlimited memory: it does not panic (capacity overflow) nor abort the process (out of memory).",
 "all byte streams, all limits on the lengths of vectors of each element type",
 "False of the code in two ways: a vector count in 5 bytes reserves memory for 2^32-1 elements before any is read, and a run of local variables of 6 bytes is expanded to 2^32-1. The theorems say what is true for all inputs and limits: too little memory never changes a result; an accepted input fails iff some vector of the module is too long, and if there is room for as many elements as bytes then only local variables can be; the requests together are bounded from both sides; no input below 8 MB exceeds isize::MAX on 64-bit targets, and on 32-bit targets only more than 2^30 local variables do. A fuzzer with the usual limits on input size and memory reports the aborts but not the absence of others.",
 [V+": Vec, UnwrappingVec, CompactVec", BI+": SubExpr", BM+": Module::parse"])

p("Every state in the execution of an accepted module has a next one or is an end",
 "By the reduction rules of the document (sections 4.4 and 4.5.5): in every state that a call of a function of an accepted module with arguments of the right types can get into, exactly one rule applies, unless only values are left, which then have the result types, or execution has trapped. In each of these states the store is well formed, its immutable globals are those of the start and no memory is smaller than in any state before; and each function called on the way, also a host function, gets arguments of the types of its parameters. The interpreter used for C61 computes exactly what the rules say, for accepted modules and others.",
 "all accepted modules, all functions, arguments and well-formed stores, all numeric operators and host functions that keep the types, all reachable states",
 "A statement on all reachable states of all executions, also those that never end; a test executes some programs to the end. It would fail if the validator accepted a single instruction whose rule can lack an operand, a label, a local variable or an index in some reachable state.",
 [VI+": Expr, Instr", VM+": Func, Module::validate", VS+": Stacks"])

p("What validation knows at a place in the code is what is there at run time",
 "If execution of a function of an accepted module gets to a place in its body, then validation got to that place with the frame not marked unreachable, with exactly as many operands in the frame as there are values of the block at run time, all of known type, and these are the types of the values; the local variables have their types. Execution never gets to a place that Stacks marks unreachable. Each state in which an instruction of the body comes next is at such a place.",
 "all accepted modules, functions, places in the body at any depth, all arguments, stores and executions, also those that never end",
 "Relates every intermediate state of the validator with every state of every execution; a compiler in one pass relies on it. Tests see verdicts only, not the operand stack in the middle of a body, and a validator may give right verdicts with a stack that is off, e.g. with frames whose height is wrong in dead code.",
 [VS+": Stacks", VI+": Expr, Instr", VM+": Func"])

p("Validation knows as much as there is to know about the code it has seen, and fails as early as possible",
 "Inside any frames: after code that validation goes through, the operand stack and the flag unreachable describe exactly the types that the code can deliver for operands admitted before (by the typing rules of the document), neither more nor less; and code is rejected iff it has no type for any admitted operands. In a module whose other parts are accepted, validation of a body gets to a place, at any depth, iff there is an accepted body that begins in the same way.",
 "all contexts with at least one frame, all code without stray End and Else, all types, all places in all bodies",
 "Quantifies over all types that the code can have, and over all completions of a body: that an error comes at the first instruction that nothing can repair cannot be seen from finitely many continuations. A validator that is too lax in dead code may still give the right verdicts for whole bodies on every test.",
 [VS+": Stacks", VI+": Expr, Instr", VM+": Func"])

p("What is put together from accepted modules is accepted",
 "A module put together from parts of accepted modules, with the indices changed so that each denotes what it denoted before, at most one table and memory and different names of the exports, is accepted: imports of one may have become definitions of another, also mutually. In particular: an accepted module that imports functions of another accepted module, linked to it statically, is accepted, and has the imports of the library and the exports of both, with their types.",
 "all finite collections of accepted modules, all renumberings, also not injective, all ways to choose and order the parts; all libraries, programs and assignments of imports to functions of the same types",
 "Quantifies over all results of all linkers. It says that acceptance of a part depends on nothing of the module but the types of what the part refers to; a validator with any other dependence (e.g. on the position in the module, or on which definitions are imported) violates it, as this one does for initializers of globals.",
 [VM+": Module::validate, Func, Global", VI+": Expr, Instr", VX+": idx::Type, Func, Table, Mem, Global"])

p("The printed text is proportional to the file",
 "There is a factor below 2^34 such that for every file with a valid module without local variables, the option --print writes at most so many characters for each byte of the file.",
 "all files with valid modules, all ways to write numbers of a bounded length",
 "An asymptotic statement on all modules; a test prints some. False of the code: every line is indented by four characters for each level, so nested blocks take space quadratic in the depth, exactly 54 k^2 + 193 k + 416 characters for k blocks in a file of about 3 k bytes. Proved: at most 15 lines for each part of the module, plus 21; at most proportional to parts times depth, so at most quadratic in the length of the file; and at least 54 characters for the square of the depth.",
 ["whasm/src/structure/module.rs: derive(Debug)", "whasm/src/structure/instr.rs: derive(Debug)", "parser/src/main.rs: main"])

p("If there is stack enough to parse a file, there is for everything else",
 "If one level of nested blocks takes no more native stack in validation, in destructors and in printing than in the parser, then the tool exhausts the stack only on files on which the parser alone (without destructors) does, and otherwise does what it does with an unlimited stack. This includes the destructors of partial results that run in the parser when it gives up inside of blocks. For an accepted module, with any sizes of the stack frames, it is exactly known which depth is too much; and the condition is necessary.",
 "all byte streams, accepted or not; all arguments of the tool; all sizes of the stack and of the stack frames",
 "Destructors run on every path, in particular on each of the error paths out of the recursion; an overflow there needs an input that is both deeply nested and faulty in the right place, with a stack of just the right size. Overflow of the stack is an abort and no test can catch it.",
 [BI+": SubExpr, IfInstr, Expr, Instr", BM+": Module::parse", V+": Vec, UnwrappingVec", Z+": Sized", "whasm/src/structure/instr.rs: derive(Debug), drop glue", "parser/src/main.rs: main"])

p("The declarative grammar and the parsers fail for the same reason",
 "Where the hand-written parser of a part of a module fails, the declarative grammar fails with the corresponding error (end of input, unknown discriminant with that byte, integer out of range, UTF-8, misplaced else or end, size), and the other way round. For whole modules the same holds except that Module::parse also complains of sections out of order and of a wrong number of bodies; when it complains of these, and about which section, is stated exactly, and then the grammar may fail for another reason further on.",
 "all byte streams", "All byte streams; the declarative parser is not even compiled, and which of several faults is reported depends on the order of reading in both.",
 ["whasm/src/grammar/core/error.rs: Error", "whasm/src/grammar/core/derive.rs: derive(Grammar)", "whasm/src/grammar/instr.rs: Expr, If", "whasm/src/grammar/module.rs: Module", BM+": Module::parse", "whasm/src/binary/core/error.rs: Error"])

p("The printed text shows the module",
 "The text that the tool prints for a module is given line by line: all items of the module in the order of the struct, with every field under its name, four columns per level of nesting, instructions under the names that follow from their mnemonics in the specification, with their immediates in order, indices under the name of their index space, numbers in decimal (signed for the constants), and names by their characters with the usual escapes.",
 "all modules and files", "A test compares the text of a few modules; nearly two hundred instructions can each be called by another name, and a number, a column or an escape can be wrong for some values only.",
 ["parser/src/main.rs: main", "whasm/src/structure/instr.rs: Instr", "whasm/src/structure/module.rs: Module", "whasm/src/structure/ty.rs", "whasm/src/structure/idx.rs"])

p("The exit code says whether the file is a WebAssembly module",
 "If the tool is called with the name of a file that can be read, the exit code is 0 exactly if the file is, by the grammar and the validation rules of the WebAssembly 1.0 specification, a valid module.",
 "all files", "All files; the specification gives a grammar and typing rules for all of them, and the differences are in rare combinations of features.",
 ["parser/src/main.rs: main", BM+": Module::parse", VM+": Module::validate", VI+": Label", BI+": Instr"])

p("Modules that have been parsed can be compared",
 "If there was native stack enough to parse a module, and one level of blocks takes no more of it in the derived `==` than in the parser, then comparing it with any other module, on either side, is not aborted. For any two modules and any stack, `==` is aborted exactly if blocks have to be entered, up to the first difference, that do not fit, and otherwise gives what it gives with an unlimited stack.",
 "all pairs of modules, all sizes of the stack and of the frames", "Depends on the sizes of stack and frames and on pairs of modules, whose first difference may be anywhere.",
 ["whasm/src/structure/instr.rs: Expr, ConstExpr, Instr", "whasm/src/structure/module.rs: Module, Func, Global, Elem, Data", BM+": Module::parse", BI+": Instr"])

p("Which inputs exhaust the native stack",
 "With native stack for k nested blocks, the parser is aborted exactly on the inputs that begin like a module in which k + 1 blocks inside of each other are open: complete sections in order, then part of a section, within its size, with complete elements and instructions before each of the open blocks. Whatever follows makes no difference, the input need not be a module. On all other inputs the outcome is that with an unlimited stack. The same holds for the tool and the file it is given.",
 "all byte sequences, all sizes of the stack, all arguments and files", "Is a statement about all inputs, almost all of which are not modules, and about all sizes of the stack.",
 [BI+": Instr, Expr, IfInstr, SubExpr", BM+": Module::parse, Func, Global, Elem, Data", Z+": Sized", V+": Vec", "parser/src/main.rs: main"])

p("Which modules exhaust the native stack in validation",
 "With native stack for k nested blocks, validation of a module, valid or not, is aborted exactly if it gets into more than k blocks before it finds an error: the indices of function types and the function types are valid, so are the functions before some function f, and there is a place inside of more than k blocks up to which the body of f is the body of some valid function of the same type. Otherwise validation tells whether the module is valid. So for all arguments, files and bytes per level it is known when the tool is aborted.",
 "all modules without pseudo-instructions, valid or not; all sizes of the stack and of the frames in validation and printing; all arguments and files", "Speaks of all invalid modules, of all sizes of the stack and, for each place, of the existence of a valid body.",
 [VI+": Expr, Instr", VM+": Module::validate, Func", "parser/src/main.rs: main"])

p("The exit code can be relied on whatever the operating system does",
 "Arguments may be any bytes, a file may come in pieces of any size with interruptions, fail or never end, and standard output may stop taking bytes at any point. The exit code is 0 exactly if all arguments are Unicode, the named file has an end and holds a module that the crate accepts, and, if printing was asked for, standard output took the whole text. It is 1 only for what is not accepted, and then both lines were written. It is 101 only if an argument is not Unicode, there are no arguments at all, or standard output is full; what it got is then a beginning of the text. The process opens at most one file, the last argument that is not a flag, and writes nothing before it has been read to its end; if it has none, the process reads for ever.",
 "all argument vectors of bytes; all file systems and ways to deliver a file; all amounts of bytes that standard output takes; all texts of floats", "Tests run with a terminal or a pipe that takes everything and with files that are delivered at once; the claim is about every way the operating system may behave, and every byte at which output may break off.",
 ["parser/src/main.rs: main, Config::new"])

p("Validation needs memory in proportion to the input",
 "If each vector of validation can have as many entries as the input has bytes, up to a constant factor, then validation of what was read ends as it does with unlimited memory: no vector of types, functions, tables, memories, globals, parameters and local variables, operands, frames, results or names gets longer than that. (False of the code: a reference for each local variable is collected, which are written down as runs. What is proved is that these are the only reason, and for each amount of memory exactly when validation and the tool are aborted.)",
 "all byte sequences that can be parsed; all modules, valid or not; all widths of usize from 32 bits on; all limits of the vectors of parser and validator; all arguments and files", "Tests do not run out of memory; the claim compares all inputs with all amounts of memory.",
 [VM+": Context::from, Module::validate, Func, Global, Elem, Data", VS+": Stacks", VI+": Expr, Instr", VC+": Context", "parser/src/main.rs: main"])

p("The unsafe code writes only into the number it returns",
 "The only unsafe block of the crate, the writes through a raw pointer in parse_float_iee754, never has undefined behaviour: each pointer stays in the local variable, each write is inside of it, and all its bytes have a value when it is returned. Nothing outside of the variable is changed, whatever the iterator does between the writes, and the number is the one of which the bytes read are the image in memory. The bound of the loop cannot be larger.",
 "all iterators, with any effect on other memory; all contents of memory; all places of the variable; all sizes of numbers, all widths of usize, both byte orders", "Tests cannot observe that the behaviour of a run is undefined, and they see one place of one variable in one memory.",
 ["whasm/src/binary/core/float.rs: parse_float_iee754"])

p("What a module does not export stays its own",
 "Modules that the validator accepts share a store, linked by the types that it reports. Take any part of the store from which no way leads out, through the instances of its functions or the elements of its tables, and let it include all that can be imported and all that is new. Whatever modules are then added and whatever is called: no execution gets stuck, no table, memory, global or state of the host outside of the part changes in any byte, none of it becomes available, and what a new module exports is of the part. What the calls and instantiations return, and what they do to the part, does not depend on the rest. So two parts that have nothing in common do not notice each other.",
 "all accepted modules whose global initializers follow the document, all numbers of them and ways to link them; all stores, parts of them, hosts, histories of calls, arguments and amounts of fuel", "Speaks of all modules that may ever be added, all histories, and all pairs of stores that differ in what is hidden.",
 [VM+": Module::validate, Import, Export", VI+": Expr, Instr", VX+": indices", VC+": Context"])

p("Whatever the machine grants or refuses, the tool gives the right answer or none",
 "The process asks the machine for everything it needs: room for each vector of the parser, the validator and the file, native stack for each level of blocks while it parses, validates, prints and drops, and the calls of the operating system. The machine may grant or refuse each of these as it likes, depending on all that was asked for before; what it refuses is the end of the process. Then the requests are the same list on every machine; if all are granted the outcome is that of the process without limits (C95), and if not the process ends at the first that is refused, having written a beginning of what it would have written. So an exit code of 0 or 1 tells the truth on every machine. There are amounts that suffice for every file of n bytes, and smaller ones for a file that holds a module, in terms of its bytes, its local variables and its nested blocks; in turn an exit code of 0 means that the machine has granted room for the bytes of the file, for the elements of the module and of its index spaces, and one level of native stack per nested block to parse, to validate, to drop and, if asked for, to print it.",
 "all machines; all widths of usize above 32 bits, with and without checks of overflow; all argument vectors of bytes; all file systems and ways to deliver a file; all amounts of bytes that standard output takes; all texts of floats", "A test runs on one machine that grants almost everything; the claim is about every point at which memory, stack or the operating system may fail, in all combinations.",
 ["parser/src/main.rs: main, Config::new", BM+": Module::parse", BI+": Instr, Expr, IfInstr, SubExpr", V+": Vec", VM+": Module::validate", VI+": Expr, Instr", "whasm/src/structure/instr.rs: Expr, ConstExpr, Instr"])

p("One pass over the bytes of a body, without a tree, comes to the same verdict",
 "The appendix of the W3C document has an algorithm, used by engines, that validates code while it is read, opcode by opcode, with a stack of types and a stack of frames and without a tree of instructions. Given the labels and the alignment rule of the crate, the crate reads and accepts the bytes of a body exactly if this algorithm accepts them; at every place of the body both have the same two stacks, and both fail if one of them does before. With the rules of the document the algorithm decides validity by the document, so that the two verdicts are as far apart as the two sets of rules are and no further. The same holds for whole files: one pass over the bytes of a file, which keeps the declarations and never has the tree of a body, comes to the verdict of the crate and to its answer.",
 "all sequences of bytes as bodies and as files; all modules for the index spaces, all types of the function and all locals; all places of all bodies", "Compares two algorithms of different shape, one on trees and one on bytes, for all inputs; a test compares them on the inputs it has.",
 [VI+": Expr, Instr", BI+": Instr, Expr, IfInstr, SubExpr", VS+": push_frame, pop_frame, unreachable, pop_operand, push_operand", VM+": Func, Module::validate", BM+": Module::parse, Func"])

p("A file of a later version of WebAssembly is refused, or read as what it says",
 "Files of WebAssembly 2.0 and 3.0 begin with the same version number as those of 1.0. If the crate accepts a file, and the file by the documents of the later versions says something, then that is the module that the crate has read: the same types, imports, functions, tables, memories, globals, exports, start function, segments and code. What the crate does not know it refuses. (False of the code: the memory index of an access is read as part of an alignment, and forms of segments as indices of tables and memories. What is proved is that these are the only reasons, and that the rules of 1.0 exclude them.)",
 "all byte sequences; all modules and validity results; all readings of the file by the grammar of the later versions, in which unknown parts may be any bytes", "Compares two grammars on all files; there are unboundedly many later instructions, types, sections and segments, and a misreading is silent.",
 [BM+": Module::parse, Elem, Data, Func, Import, Export", BI+": Instr, Expr, ConstExpr", BT+": Val, Func, Limits, Table, Global", VM+": Module::validate, Elem, Data", VI+": Instr", VC+": Context"])

p("The operand stack of validation is the operand stack of execution",
 "If the crate accepts a module, then in every state of every execution of it (by the reduction rules of the document, also an endless one) every call that has not returned is an execution of the body of a function of the module; all its blocks together have exactly as many operands as the operand stack of the crate had when validation was at the next instruction of the body, and as many labels as there were frames; in the states in between, when a jump, a call or a trap is under way, no more than at some place. So the highest operand stack of validation is enough for a call; the number of instructions of the body is never less. With a bound on the size of bodies, all calls together have at most so many operands for each call that has not returned; the number of these calls has no bound.",
 "all modules accepted, all machines with an instance of the module (any host, any numeric operators of the right types), all stores, functions, arguments, numbers of steps, states and calls in them", "Relates the states of validation to all states of all executions, of unbounded length and depth; a test executes finitely many steps of a few modules.",
 [VI+": Expr, Instr", VS+": push_frame, pop_frame, unreachable, pop_operand, push_operand", VM+": Func, Module::validate", VT+": Func", VC+": Context"])

p("The text of a module on one line and the printed text tell the same, and the one on one line is not long",
 "Without the flag of `--print`, derived `Debug` writes a module on one line. Each of the two texts can be computed from the other by a function on texts that knows nothing of WebAssembly: line breaks at brackets and at commas outside of quotes, and back by dropping margins. So two modules have the same text on one line exactly if their printed texts are the same, that is if they differ at most in which NaN their constants are. The text on one line has no line break in it, whatever the names in the module are; it is never longer than the printed one; and its length is at most proportional to the number of parts of the module, or to the bytes of the file and its local variables, however deep the blocks are.",
 "all modules, also those that cannot be parsed or are not valid, with all names; all ways to write floats as words; all runs of the tool that print a module", "Holds for texts of unbounded length and depth and for all names, which may contain brackets, quotes, commas, escapes and line breaks.",
 ["whasm/src/structure/module.rs: Module, Func, Table, Mem, Global, Elem, Data, Start, Import, Export", "whasm/src/structure/instr.rs: Instr, Expr, ConstExpr", "whasm/src/structure/ty.rs: Val, RetVal, Func, Limits, Table, Mem, Global", "whasm/src/structure/idx.rs: indices", "parser/src/main.rs: main"])

p("A branch drops the operands that the frames of validation say, so execution needs no labels",
 "Think of the operands of all blocks of a call as one stack. If the crate accepts a module, then in every state of every execution of it (by the reduction rules of the document) in which an instruction comes next that does not jump, the operand stack of the crate at this place of the body holds the types of all operands of the call, those of the blocks around as well, and its frames are the labels of the state: the same types, and as height the number of operands below the label. A branch to a label leads, in as many steps as it leaves labels, to a state in which the operands are those that the frame of this label takes along, of its types, on the lowest ones up to its height; nothing else moves. Beginnings and ends of blocks move nothing but the condition of an if. So code compiled with the heights and types from the frames, with one stack and without labels, does what the rules do.",
 "all modules accepted, all machines with an instance of the module (any host, any numeric operators of the right types), all stores, functions, arguments, numbers of steps and states; all branches: br, br_if and br_table, out of any number of blocks, with any operands left over", "Relates the frames of validation to all states of all executions, of unbounded length and nesting; a height that is off by one shows only when a branch with operands left over is executed.",
 [VI+": Expr, Instr", VS+": push_frame, pop_frame, unreachable, pop_operand, push_operand", VM+": Func, Module::validate", VX+": Label", VC+": Context"])

p("A machine without labels that has the frames of validation as its table gives the results of the rules",
 "Engines execute code in place: for each call one place in the code and one stack of operands, no labels, and for branches a table made while the code is validated. Take such a machine, and as its table, for every place of a body and every label, the number of result types and the height of the frame that the crate has there. If the crate accepts a module, then a call of any of its functions with arguments of the right types returns the same values with the same store on this machine as by the reduction rules of the document, or traps with the same store, or goes on forever on both. In every state that the machine gets into there is exactly one next one unless it has ended: operands are there when they are needed, and the table has an entry for every branch; its operands are as many and of the types as the operand stack of the crate has at its place, so each operand has a place in memory that is known from validation. It never takes more steps than the rules.",
 "all modules accepted, all machines with an instance of the module (any host, any numeric operators of the right types), all stores, functions, arguments and numbers of steps; calls of functions of the module and of the host, direct and through tables", "Compares two ways to execute, one of them driven by the states of validation, on all executions of all accepted modules, also endless ones; a wrong entry shows only when its branch is taken with operands left over.",
 [VI+": Expr, Instr", VS+": push_frame, pop_frame, unreachable, pop_operand, push_operand", VM+": Func, Module::validate", VX+": Label", VC+": Context"])

p("Accepted code can be executed on words without types, and without checking anything that validation has checked",
 "Engines drop types at run time: operands and local variables are machine words, and nobody looks whether there are operands at all, or whether a label, local variable, global, function or memory exists. Take such a machine, on words of 64 bits, in which everything that is missing is zero; only what the rules of execution demand is checked, as the bounds of memories and tables. If the crate accepts a module, then a call of any of its functions with arguments of the right types returns on this machine the same values with the same store as by the reduction rules of the document, traps with the same store, or goes on forever, whichever the rules do. So every check that this machine omits is one that validation has made.",
 "all modules accepted, all machines with an instance of the module (any host, any numeric operators of the right types), all stores, functions, arguments and numbers of steps; calls of functions of the module and of the host, direct and through tables", "A check that validation has left out shows only in the execution of code that needs it; the claim is about all executions of all accepted modules, also endless ones.",
 [VI+": Expr, Instr", VS+": push_frame, pop_frame, unreachable, pop_operand, push_operand", VM+": Func, Module::validate", VX+": indices", VC+": Context"])

p("Accepted code can be executed as the opcodes of the file, with what one pass over them finds",
 "Engines that do not translate code execute the bytes of the file: no tree of instructions, a place is a number, branches go on after the end that belongs to the label or back to the opcode of a loop, and the one pass that validates leaves a table that says how many operands stay. Take such a machine, on words without types and without checks, on the opcodes of each body as they are written in the file (with an else left out or not), and the table that the algorithm of the appendix of the document makes in its pass over them. If the crate accepts a module, then a call of any of its functions returns on this machine the same values with the same store as by the reduction rules of the document, traps with the same store, or goes on forever, whichever the rules do. The machine is always at an opcode of the code of its function; if this is an instruction it has as many operands as the algorithm has there. So a file need not be parsed into trees to be validated and executed: if its declarations and opcodes pass in one pass, the crate reads and accepts it, and executing these opcodes by this table gives what the rules give for the module that the crate has read.",
 "all modules accepted, all ways to write their bodies as opcodes, all files that pass, all machines with an instance of the module (any host, any numeric operators of the right types), all stores, functions, arguments and numbers of steps", "Compares the tree that the crate builds with the opcodes of the file on all executions of all accepted modules, also endless ones; a wrong end or a wrong table entry shows only when its branch is taken.",
 ["whasm/src/binary/instr.rs: Expr, Instr", VI+": Expr, Instr", VS+": push_frame, pop_frame, unreachable, pop_operand, push_operand", VM+": Func, Module::validate", VX+": Label"])

p("Accepted code can be translated in one pass to code on registers, without a stack when it is executed",
 "Compilers that translate a body while they validate it give each operand a register: an instruction names the registers that it reads and writes, and a branch copies the values that it takes along to where they have to be. All that such a translation knows of an opcode, other than the opcode, is how many operands there are and what the frames say. Take the translation that has this from the stacks of the algorithm of the appendix of the document in its one pass over the opcodes of the file (with an else left out or not), and a machine for its code that has registers of 64 bits without types, no operand stack, no labels, and checks nothing that validation has checked. If the crate accepts a module, then a call of any of its functions returns on this machine the same values with the same store as by the reduction rules of the document, traps with the same store, or goes on forever, whichever the rules do. In every state the local variables are in the first registers and the operands in those after them. For a file that passes in one pass, the same holds of the code made from the opcodes that the pass has seen.",
 "all modules accepted, all ways to write their bodies as opcodes, all files that pass, all machines with an instance of the module (any host, any numeric operators of the right types), all stores, functions, arguments and numbers of steps", "Relates the number of operands that validation has at each opcode to all states of all executions of all accepted modules, also endless ones; a number that is off by one shows only when wrong registers are read in an execution that needs them.",
 ["whasm/src/binary/instr.rs: Expr, Instr", VI+": Expr, Instr", VS+": push_frame, pop_frame, unreachable, pop_operand, push_operand", VM+": Func, Module::validate", VX+": Label"])

p("The registers of all calls fit in one row of words, and how many each function needs is known from the one pass",
 "Compilers give each function a frame of a fixed size and lay the frames of all calls in one stack of words. Take the code on registers of C108, one row of words for all calls, and for each function as many registers as it has parameters and local variables and as the algorithm of the appendix of the document has operands at most at one of its opcodes. The registers of a call begin where its caller has put the arguments, so no argument is copied; only local variables are set to zero; the results of a call are left in its first registers. If the crate accepts a module, then a call of any of its functions returns on this machine the same values with the same store as by the reduction rules of the document, traps with the same store, or goes on forever, whichever the rules do, even if before each step all words beyond the registers of the call that is being executed are overwritten with anything. Registers of a call begin within those of its caller, so that with d calls and at most F registers for each function d * F words are enough. A function has fewer registers than parameters, local variables and opcodes, and a file has no fewer bytes than a function has opcodes. For a file that passes in one pass, the same holds of the opcodes that the pass has seen.",
 "all modules accepted, all ways to write their bodies as opcodes, all files that pass, all machines with an instance of the module (any host, any numeric operators of the right types), all stores, functions, arguments and numbers of steps; all contents of the words beyond the registers, before every step", "A frame that is too small shows only when the words beyond it are changed by something else at the wrong time; the claim is about all executions of all accepted modules, of any depth of calls, and all such changes.",
 ["whasm/src/binary/instr.rs: Expr, Instr", VI+": Expr, Instr", VS+": push_frame, pop_frame, unreachable, pop_operand, push_operand", VM+": Func, Module::validate", VX+": Label"])

p("A machine with a fixed number of words gives the results of the rules, or says that the words were not enough",
 "Engines have a stack of a fixed size and look whether there is room when a call begins. Take the code on registers of C108 and the numbers of registers of C109, and a machine whose memory for the operands, local variables and arguments of all calls is a list of W words; when a call begins whose registers are not within the list it stops, and nothing else is checked: what is read outside of the list is zero and what is written there is lost. If the crate accepts a module, then whatever this machine returns for a call of one of its functions is what the reduction rules of the document return, with the same store, and if it traps so do they. If it never finds that there is no room, it also does all that the rules do. If it finds that there is no room, then there is a state in the execution in which the number of calls times the largest number of registers of a function is more than W. For every call that ends by the rules there is a number of words from which on the machine ends in the same way. For a file that passes in one pass, the same holds of the opcodes that the pass has seen, and the number of words needed is bounded by the number of calls, of parameters and local variables, and of bytes in the file.",
 "all modules accepted, all ways to write their bodies as opcodes, all files that pass, all machines with an instance of the module (any host, any numeric operators of the right types), all stores, functions, arguments, numbers of steps and numbers of words", "That a check at the beginning of each call is enough is a claim about all places in all executions of all accepted modules; a function that needs one word more than it says loses it only if the call is the last that has room.",
 ["whasm/src/binary/instr.rs: Expr, Instr", VI+": Expr, Instr", VS+": push_frame, pop_frame, unreachable, pop_operand, push_operand", VM+": Func, Module::validate", VX+": Label"])

p("Validation, translation and the count of registers are one pass that looks at each opcode once",
 "C108 to C110 say what the code for registers is by where blocks end, which is further on in the file. A compiler that reads code as it arrives cannot look there: it validates an opcode, makes its instruction at once, names a block by the place where it begins, and enters where blocks end in a table when it comes there. Take this pass, which keeps of the code before an opcode only the stacks of the algorithm of the appendix of the document and the list of open blocks. It finds an error in a body exactly if the body is not valid by the rules of the crate; if it finds none, its code and its number of registers are those of C108 and C109. So the crate reads and accepts a file exactly if its sections can be read with the opcodes of bodies in a line, its declarations are valid and each body is translated; and the code that has been made, executed with W words, returns what the reduction rules of the document return for the module that the crate has read, traps if they do, or says that the words were not enough when there are so many calls that they may need more.",
 "all modules and files, all lists of opcodes, valid or not, all machines with an instance of the module (any host, any numeric operators of the right types), all stores, functions, arguments, numbers of steps and numbers of words", "A table that is filled in while the pass goes on is right only if every entry is written once and before it is used; the claim is about all bodies, of any size and depth of blocks.",
 ["whasm/src/binary/instr.rs: Expr, Instr", VI+": Expr, Instr", VS+": push_frame, pop_frame, unreachable, pop_operand, push_operand", VM+": Func, Module::validate", VX+": Label"])

p("Validation in one pass fails at the first opcode after which nothing can make the code valid",
 "Whoever validates the bytes of a body as they arrive wants to hear of an error at once, and to hear of none that could still be mended. Read any bytes as a sequence of opcodes, which need not end where a body ends. Then there are bytes that can follow so that all of them are a body that the crate reads and accepts, for a function of given type and local variables, exactly if the algorithm of the appendix of the document, with the rules of the crate, has found no error in the opcodes so far. No more than four bytes are needed for each block that is open and four for the function. The same holds of the document: bytes are the beginning of the binary of an expression that is well typed, in any context, exactly if the algorithm has found no error in their opcodes. If the bytes end within an opcode, both are so exactly if it has found none before this opcode and the bytes are the beginning of one in which it finds none. The pass of C111, which translates, stops at the first opcode after which nothing can be translated.",
 "all modules, types, local variables and contexts, all sequences of bytes, all bytes that can follow", "That an error is final is a claim about all continuations, of which there are infinitely many for each beginning; that the absence of an error is not too hopeful needs a continuation for every state that can be reached.",
 ["whasm/src/binary/instr.rs: Expr, Instr", VI+": Expr, Instr", VS+": push_frame, pop_frame, unreachable, pop_operand, push_operand", VM+": Func"])

p("Code that validation marks as unreachable is never executed and need not be translated",
 "The validator sets a mark in the frame of a block after `br`, `br_table`, `return` and `unreachable`, for the sake of the types of operands. Take a module that the crate accepts, with its code written as opcodes, and an opcode, not the `end` of a block, before which some frame of the algorithm is marked. No call of a function, with any arguments, from any store, on any machine, gets to this opcode, neither when the opcodes are executed in their sequence (C107) nor when they are translated to registers (C110). So whatever is put in place of the translation of such opcodes, also nothing, each step is the same, and their operands need no registers: it is enough to count those at the other opcodes. With such code and so many registers a machine with a fixed number of words has the results of the rules of the document, or there are so many calls that they may need more words; and what a file gives that is translated in this way in one pass (C111) is what the rules of the document give for the module that the crate reads. Of the `end` of a block the mark says nothing: that of an `if` without `else` is reached past a branch that ends in `unreachable`.",
 "all accepted modules, all ways to write their code as opcodes, all machines, stores, functions and arguments, all replacements of the marked code, any number of registers that is enough for the rest, any number of words and of steps", "That code is never executed is a claim about all executions; a test sees that one execution did not get there, and replacing code by other code needs equality of all states in between.",
 [VI+": Expr, Instr", VS+": push_frame, pop_frame, unreachable", VM+": Func"])

p("Translated code is never left, whatever is in memory",
 "Translate the opcodes of a function in the pass that validates them (C111). One instruction is made for each opcode; every branch, also where nothing is executed, is to one of the instructions of the same function; the last one is a return. Now execute code that has been made in this way for all functions of a machine, beginning at the first instruction of one of them, and let the store, all words of memory and the places of the registers change before each step in any way. Still the machine is at an instruction of the function that it executes after every number of steps, or has returned or trapped; and for each call that waits for another there is an instruction after the one that called, where it goes on. So the place need not be checked, even if something else writes to the memory of the machine. The code of every module that the crate accepts is of this kind.",
 "all modules, functions and sequences of opcodes that are translated, all machines, all changes of store and memory before each step, any number of steps", "Changes of memory before each step have no end of possibilities, and branches of code that is not executed are never seen by a test; the claim is about every instruction that is made and every state that the machine could be put in.",
 [VI+": Expr, Instr", VS+": push_frame, pop_frame, unreachable, pop_operand, push_operand", VM+": Func"])

p("The instructions that are made of a function use only the registers that were counted for it",
 "Translate the opcodes of a function in the pass that validates them (C111), which also counts the registers. Each instruction that is made of an opcode before which no control frame is marked as unreachable names only registers below that count: those that it reads, those that it writes, the operands that a branch copies and where it copies them to, for each label of a br_table, the arguments of a call, the place of its results, and the results of a return. These are all that matter: what an instruction does is the same whatever is in other registers, and it leaves them as they are. So if an executor has reserved the registers of a function when it is called it need not check their numbers. This is so of each function of a module that the crate accepts. For marked code it is not so: unreachable i32.add drop has an instruction with two registers where one is counted.",
 "all modules, functions and sequences of opcodes that are translated, all instructions that are made, all contents of registers and store", "Code that a test does not execute is not seen by it, and a register that is one too many is mostly there by chance; the claim is about each instruction of each function.",
 [VI+": Expr, Instr", VS+": push_frame, pop_frame, unreachable, pop_operand, push_operand", VM+": Func"])

here=os.path.dirname(os.path.abspath(__file__))
with open(os.path.join(here,"..","properties.jsonl"),"w") as f:
    for x in P: f.write(json.dumps(x, ensure_ascii=False)+"\n")
print(len(P))
