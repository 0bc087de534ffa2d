# Design of the verification of whasm

`whasm` (Rust, `/repo`) parses WebAssembly 1.0 binaries (`whasm/src/binary`), represents them
(`whasm/src/structure`) and validates them (`whasm/src/validation`); `parser/src/main.rs` is a
command line front end. The code is modelled in Lean 4 by hand, function by function, and the
properties of `properties.jsonl` are proved about that model.

## Layout

| directory (under `lean/Verif`) | content |
|---|---|
| `Model/`  | the model of the Rust code; every definition cites file and lines |
| `Spec/`   | independent specifications: LEB values (`Leb`), binary grammar (`Grammar`, `Opcodes`, `Sections`, `Items`, `Chain`), what is expected of any parser (`Parser`), a reference encoder (`Encode`), sizes and nesting (`Size`, `Depth`, `Occurs`), declarative typing (`Typing`), module validity (`Validity`), the same in one pass over the code (`Pass`, `PassFile`), files of later versions of WebAssembly (`Later`), modules out of sections (`Assemble`), errors that mean the same (`Reason`), what the printed text shows (`Show`), its two layouts (`Reflow`), files with valid modules (`Verdict`), one module in the store (`Alone`), the levels entered to compare modules (`Compare`), beginnings of modules with open blocks (`Open`), modules in which validation gets deep (`Deep`), or to a branch to the last label (`Width`), what a file holds that comes in pieces (`Process`), IEEE data (`Float`), command lines (`Cli`), the printed text (`Debug`), iterators (`Iterator`), execution (`Run`, `Reduce`, `Points`, `Space`, `Layout`, `Safety`, `Instantiate`), several modules in one store (`Link`), parts of it (`Isolate`), nesting (`Native`), other indices (`Renumber`), the size of a module (`Cost`), its vectors (`Memory`), those of its validation (`Room`), requests to a machine and budgets for them (`Grant`), what errors say (`Blame`), where an input stops being a module (`Fault`), replacing code (`Rewrite`), the beginnings of bodies (`Prefix`), parts of several modules (`Linker`), the length of the text (`Printed`), operands and labels in one stack (`Layout`), a machine without labels (`Flat`), one without types and checks (`Words`), one that executes the opcodes of the file (`Stream`), a translation to registers (`Registers`), the same with one row of words for all calls (`Frames`), with a fixed number of them (`Bounded`), the translation as a pass that looks at each opcode once (`OnePass`), what of it need not be translated (`Marked`), where its code may go on (`Confined`), and which registers it uses (`Extent`). No file of `Spec/` imports a parser or validator of `Model/`; they share only the data types (`Model/Structure`, `Model/Context`, `Model/DeclarativeTypes`, `Model/Kinds`, `Model/Place`, `Model/GrantTypes`) |
| `Lemmas/` | helper lemmas |
| `Props/`  | the property theorems, named `C<nn>_...`, each with `example`s showing a concrete instance |

## How the Rust is represented

* **Input.** A parser is generic over `Iterator<Item = u8>`; the model takes the finite list of
  bytes that the iterator will yield. `Model/Iter` is a second model of all parsers, in which the iterator is an arbitrary
  state machine (it may never end, and may go on after `None`) and the adaptors `Take`, `Inspect` and `Peekable` have their own state;
  C67 proves that both models agree.
* **Parsers.** `P α := List Byte → Except Error α × List Byte`: result and remaining input, *also
  on error* since the `&mut` iterator stays observable.
* **`?`** is the bind of `P`; `Result`/`Option` stay data. `&mut Context` becomes state passing.
* **Panics** are an explicit error value `Error.panic` / `VErr.panic` wherever the Rust can panic
  (shift amount too large, `unwrap` of `None`, slice index out of bounds, `usize` subtraction, `args[0]` of an empty
  argument vector). A Rust panic and a returned error are never confused.
* **Loops** that consume input (`SubExpr`, sections, LEB-128) are modelled by recursion on a fuel
  argument (LEB: on the list). Running out of fuel is the distinguished error `Error.fuel`, which does not
  exist in Rust. C15 proves that it never occurs, i.e. the loops terminate.
* **Integers.** `u8` is `UInt8`; `u32`, `i32`, ... are `BitVec n` with Rust's shift/mask operations;
  LEB-128 is modelled for any width N ≥ 8 (the Rust is generic, instantiated at 8/16/32/64).
  `usize` is unbounded `Nat`; where that matters is `Model/Target` (C57).
* **Floats** are their bit patterns on a little-endian host; big-endian hosts are in `Model/Target` (C69), the writes to the memory of a float in `Model/Raw` (C97).
* **Strings** are lists of bytes which the model checks for UTF-8 validity (a hand-written automaton
  for `String::from_utf8`, itself proved to accept exactly encodings of Unicode scalar values).
* **Instructions.** The 123 numeric instructions without immediate, 14 loads and 9 stores are grouped into
  three enumerations (`NumOp`, `LoadOp`, `StoreOp`), `Instr.num op` standing for the variant named `op`.
  Index newtypes `idx::*` are `BitVec 32`. `Vec`s are lists; stacks are lists with the top
  at the head.
* **Validation errors**: the crate has a single error, `UnexpectedEndOfFile`; it is `VErr.invalid`.
  The context after a *failed* validation (which `Module::validate` drops) is in `Model/Held.lean`, where all validation functions are modelled once more, with it (C72, C73).
* **Sorting.** `slice::sort` on export names is modelled by insertion sort with the byte-wise order of `str`; the order is
  total and antisymmetric, so every correct sort returns the same list.
* **Equality.** The derived `==` is modelled in `Model/Equality`; it is structural except for `f32`/`f64`, which
  use IEEE comparison on bit patterns.
* **Memory.** The main model has unlimited memory and native stack: a real run may abort where the model returns a result. What
  `Vec::with_capacity(n)` reserves is in `Model/Target` (C58); `Model/Native` has a bounded native stack, measured in nested blocks (C71). `Model/Memory` is the parser once more
  with a limit on the number of elements of each vector, by type of element, and a count of all requests (C82). A failed request is `Error.panic`, whether it is the panic of `capacity overflow` or the abort of the allocator.
  `Model/Room` is the validator once more in the same way, and the tool with both (C96). The memory of a vector is not taken from that of others.
  `Model/Grant` is the tool with all of these, and with the operating system, at once: every request is put to a machine that may refuse it (C99).
* **Time.** `Model/Metered` is the validation once more, counting steps and the entries of the context; C76_same_partial proves that it computes the same. `Model/Clock` is
  the parser once more, counting steps, and C79_same proves the same of it.

## Trusted base

* The Lean 4 kernel (4.33.0) and, for each theorem, at most the axioms `propext`, `Classical.choice`,
  `Quot.sound` (checked by `vcheck`). No own axioms, `sorry`, `native_decide` or `bv_decide`.
* That the model represents the Rust: modelled are `binary/core/{byte,array,float,signed,unsigned,sized,
  string,vec,error}.rs`, `binary/{idx,ty,instr,module}.rs`, `structure/*.rs`,
  `validation/*.rs`, and from `parser/src/main.rs` argument parsing, the control flow and the output of `main`.
* `whasm/src/grammar/**` is not part of the crate (`lib.rs` does not declare it and the derive crate it needs is absent). It is modelled in
  `Model/Declarative` from its source text, the derive macro by its documentation.
* `Model/Conformance.lean` evaluates the crate's own tests on the model: of the 142 documentation and unit tests in `binary/**` and `grammar/**`,
  all but those that only define types, unwrap a `Byte` or inspect memory layout (listed there). These are checks of single inputs, not proofs.
* Files, arguments and standard output are as in `Model/Process.lean` (C95): `std::env::args`, `read_to_end` and `println!` by their documentation; standard error and
  signals are not modelled. In the other models of the tool arguments are Unicode, files are whole and everything can be written. The native stack
  is that of parsing and validation in `Model/Native.lean` (C71), of destructors and `Debug` in `Model/Scope.lean` (C88), of `PartialEq` in `Model/Compare.lean` (C92). `usize` is unbounded and allocation
  unlimited except in `Model/Target.lean` (C57, C58) and `Model/Memory.lean` (C82), `Model/Width.lean` (C57), `Model/Room.lean` (C96). All limits together are in `Model/Grant.lean` (C99).
* External code modelled by its documented behaviour: `Iterator::{take, inspect, count, peekable}`,
  `String::from_utf8`, `slice::sort`, `Vec::{dedup, truncate, pop, last}`, `#[derive(Debug)]` with the builders
  and the `PadAdapter` of `core::fmt`, integer shifts of `num_traits::PrimInt`.
* `tools/check_tables.py` compares the tables of the model (opcodes, immediates, operand types, declarations, messages) with the text of the repository and looks at
  every citation. It is run by hand and is not a proof.
* That the specifications in `Spec/` say what the WebAssembly 1.0 document says.

## Dialects and rules

Two places of the WebAssembly document are parameterised so that one definition describes both the document and the code:

* `Dialect` (binary grammar). `.w3c` is chapter 5 of the document; `.code` is the same grammar with these liberties:
  integers of any length (C05), any `u32` in place of the reserved zero byte of `call_indirect`, `memory.size`, `memory.grow` (C54), a
  function section without code section that is dropped (C26), any total number of locals (C29). Theorems are exact for `.code`
  and give inclusion of `.w3c` (`*_w3c`).
* `Rules` (validity). `.w3c` is chapter 3; `.code` differs by: no alignment rule (C43), function label not a branch target (C31), memories of
  at most 65535 pages (C37), global initializers seeing the module's own globals instead of the imported ones (C41), imports not counted in the
  limit of one table and one memory (C42). `Rules.lax` is the document without
  the rules on alignment, on the scope of global initializers and on the counting of imports; it is what every accepted module satisfies (C48).

The specifications mention neither the parser state nor the validator's stacks.

## Properties: what is modelled and how it is proved

* **C01-C05 (LEB-128).** Model: the loops of `unsigned.rs`/`signed.rs` over `BitVec N`, for every N >= 8. Spec: `uval`/`sval`, the
  mathematical value of a byte group as natural/integer, and `UN`/`SN`, the recursive grammar of the document. Proof: loop invariant by
  induction on the group: accumulated result = value of the bytes so far, with the range condition carried. C05's "only those" half is false
  (over-long encodings): witnesses `C05_negation*`, exact equivalence for at most ceil(N/7) bytes in `_partial`.
* **C06, C07, C09, C10 (bytes, arrays, floats, vectors).** Induction on counts, for any element parser. Floats: little-endian sum of the bytes.
* **C08 (strings).** The UTF-8 automaton is proved sound and complete against `String.utf8EncodeChar`.
* **C11, C12 (Sized, Consume).** For an arbitrary content parser with the suffix property; all error cases described.
* **C13, C14, C15 (suffix, locality, no panic and termination), C28 (truncation).** Compositional predicates on parsers: `Forward`, `Good`
  (success does not look at what follows, every proper prefix of an accepted input gives UnexpectedEndOfFile), `Safe`, `NoFuel`; closed under bind,
  counted loops and `Sized`; induction on fuel for expressions. Modules are only `Safe`, not `Good`: a truncated custom section gives `SizeMissmatch`.
* **C16-C20, C23, C54 (grammar).** `Spec/Grammar` relates byte strings and values. Theorem form: `p s = (ok x, r) iff exists b, s = b ++ r and G b x`.
  Instructions by induction on fuel (soundness) and on the derivation (completeness). Modules: the section loop against the
  fixed-order optional-section grammar. C54 is false (`C54_negation`); the partial theorems say exactly what is accepted, and that after validation of a module with at most one memory and table the index is 0.
* **C21, C22, C24, C25, C26 (modules).** From C23 and direct analysis of the loop over raw sections (`RawSecs`). C26 is false: `C26_negation`.
* **C27 (round trip).** `Spec/Encode` is an encoder; its output is derivable in the grammar of both dialects, then C23. `Encodable` is shown to be
  exactly the set of modules in the range of the parser, and the encoding to be a shortest input for its module.
* **C29 (sizes).** Induction on the grammar; the bound on locals is false: family of witnesses with k*(2^32-1) locals from 6k+2 bytes.
* **C30, C31, C33, C51 (typing).** `Spec/Typing` is the declarative type system (section 3.3). Invariant: the operands above the height of the current
  frame, with the unreachable flag, denote a set of concrete stacks; soundness goes backwards over the body, completeness forwards.
* **C32 (no panic).** Invariant on all reachable stacks: heights of frames do not increase towards the bottom and the top one is at most
  the number of operands.
* **C34, C46, C50** by induction over instruction trees (`Occurs`, `forget`). **C35-C40, C44, C45** by analysis of the module-level loops.
* **C41, C42, C43, C49, C31** are false in part: negations with concrete witnesses (`*_negation`, `C41_rejected`) plus `_partial` theorems.
* **C47.** Counting argument: `End` decreases the number of frames, nothing in a body increases it, and the body has to end with the frame it started with.
* **C48, C49.** Combination of the above with `Spec/Validity` (section 3.4). `C49_agree` is the equivalence under the hypotheses that exclude the listed disagreements.
* **C52.** Small model of `Config::new` and `main`; the file system is a parameter. An empty argument vector makes the tool panic (`C52_empty`).
* **C53.** `Spec/Float` decodes bit patterns into data (NaN, zero, sign/exponent/mantissa); `==` is proved to be equality of non-NaN data.
  Exact: a module equals itself iff it has no NaN constant. `==` is symmetric and transitive and respects validation.
* **C55, C56.** `Model/Message` has the messages of `binary/core/error.rs` and the lines printed by `main`. Messages are compared through their fixed
  prefixes and the injectivity of the decimal and hexadecimal digits. C55 is false for one pair of errors.
* **C57, C58.** `Model/Target` has the label lookup with `usize` of w bits in both kinds of build, and vectors with the capacity check of
  `Vec::with_capacity`. Both properties are false (`C57_*_negation`, `C58_negation`); the partial theorems give the exact difference from the main model.
  `Model/Width` is validation of whole modules with that lookup: with more than 32 bits it is the same for all modules (`C57_module_partial`); with 32 bits it panics iff it gets to a
  branch to the label 0xFFFFFFFF (`BranchesToLast` in `Spec/Width`, stated with typing rules and no reference to the validator), and is the same otherwise (`C57_module32_partial`,
  `C57_parsed32_partial`); valid modules never have one (`C57_valid_partial`); 30 bytes for which it does (`C57_module_negation`). Parsing on targets is C82.
* **C59, C60.** `Model/Declarative` is the second description of the format, `Spec/Assemble` the module that a list of sections denotes.
  The map `ofP` that forgets which error a parser returns is a morphism of monads, so agreement is shown as an equation `ofP p = q`, construct by construct.
  For modules, an induction over the list of sections with the invariant that what has not been set yet is empty.
* **C61, C62.** `Spec/Run` is an interpreter written from chapter 4 of the document, with the outcome `stuck` wherever the document says "due to
  validation"; `Spec/Instantiate` is section 4.5.4. Numeric operators, host functions and memory growth are parameters. Proof: the types of C30 are
  an invariant of execution (induction on the fuel and the typing rules); results do not depend on the fuel. C62 is false because of
  disagreement 5, and `C62_confused_negation` shows that this is type confusion at run time.
* **C63.** Typing is monotone in the context (`Lemmas/Depth.transfer`), and appending keeps the indices of all spaces as long as nothing is imported.
* **C64.** `Model/Debug` is the text of `{:#?}`; how floats are written and which characters are written as `\\u{…}` are parameters, with the
  requirement (`StdOk`, not vacuous by `plainStd_ok`) that a float's text has no comma and tells floats apart except NaNs. Proof: every value is
  followed by a comma, and the text up to it determines the value; indentation is undone from the outside in.
* **C65.** Every parser except `Consume` is a stream parser: it reports the end of the input or does not look at what follows (`Good.stream`).
  `Consume` looks at the end of its window, hence the size mismatch in a custom section that is cut. `Spec/Cut.upTo` is a module without later
  sections. Note that the code section with a wrong number of bodies reports an end of input as well, which no further bytes cure.
* **C66.** Strict version of the length estimates of C27: every production of the grammar gives the encoder's bytes or more of them. Runs of
  locals can be split differently at equal length only if there are 2^32 or more of them, which the document excludes (`C66_w3c`) and the code does not.
* **C67, C68.** `Sim` relates a parser on iterators with the parser on lists, in both directions: from what the iterator yields to the result, and
  from a run to the bytes it read. Closed under bind, counted loops, byte-wise loops and `Sized` (where the window is itself an iterator); every
  element parser is strict, i.e. the end of the iterator is always an error. C68 is false for endless iterators (`C68_negation`): the
  bound on the loops, `fuel`, is reached whatever it is.
* **C69.** `Model/Target` has the loop that writes the bytes into the memory of the result, and loads from it in either byte order. False on
  big-endian hosts (`C69_negation`).
* **C70.** `Spec/Link` extends the interpreter to several modules that share functions, tables, memories and globals; `Resolved` is the type check of
  an embedder that knows only the result of `Module::validate`. Proof: well-formed stores (section 7.4 of the document) are an invariant of
  instantiation and calls, and stores only grow in the sense of `Extends`. False for the same reason as C62 (`C70_negation`).
  `C70_alone_partial` and `C70_alone_call_partial` connect it with `Spec/Run`, which is about one module: for an accepted module that is alone in the
  store both specifications of execution have the same outcomes (`Spec/Alone`; proof by simulation, where only the stuck outcomes differ). The examples
  pin both at the ends of memories and tables.
* **C71.** The recursive functions get the number of blocks that the stack has room for. Proof: simulation of the main model, closed under bind, vectors and
  sized windows; each nested block takes two bytes of input. False (`C71_negation`, with the witnesses of C29).
* **C72.** `Model/Held` keeps the context after an error. It is connected with the main model by forgetting that context (`erase`). Proof: a body without stray marks keeps all frames
  that were there before and the operands below them, whether it fails or not (`Steps`), so a frame opened in vain stays. False (`C72_negation`).
* **C73.** Invariant: the heights of the frames increase to the top and do not exceed the number of operands; every call keeps it, also when it fails.
* **C74, C75.** `Spec/Renumber` says when a part of one module is a part of another with other indices: each index that occurs denotes the same in both. Proof: the
  validator runs in lock step on both (`Match`), from any stacks, also on hand-made bodies; the declarations by the rules of `DeclsOk`. Both are false because of
  disagreement 5; the witnesses are valid by the document before and after the change.
* **C76, C77.** Each function of `Model/Metered` gets a bound on its steps and on the growth of the context (`Bound`), additive over `?`. The context has at most `w` parameters and `r`
  results in types and frames (`Wide`), so each instruction costs at most `w + 3 r + 7`; for the context, accepted functions leave it as it was, so their parameters do not add up. Bytes: each
  part takes at least one byte of the shortest encoding (C27), except locals. C76 is false, witnesses for every `n`. From below: what the context of an accepted module holds at the same time.
* **C78.** `Spec/Blame` says for each kind of error what it states about the bytes read, by the grammar only. Each parser gets a lemma (`Tells`) that its errors are such
  statements, whatever was read before; parts with a size turn an end of their bytes into `endOfPart`. False because of the number of bodies (disagreement 22); proved is that this is the only exception, and that it
  is reported for every such input. That an error is returned for exactly the inputs that do not begin with a module is C23.
* **C79.** Each parser of `Model/Clock` gets a balance (`Fits`): every byte read pays 12 steps, a call costs, what is left over is handed on; at most five adapters are around the iterator. Copies of
  local variables are counted apart and are exactly the local variables of the result. C79 is false, the witness has 30 bytes.
* **C80.** `Spec/Fault` says where and by what name someone who reads by the grammar is stopped; what is complete before is required to follow the grammar, so the faults of different places exclude each other.
  Each parser gets an equivalence (`Faults`), closed under sequences; instructions, which use fuel, get both directions apart (`Stops`, `instr_fault`). All opcodes are known or fail: a check of the 256 bytes by the kernel.
* **C81.** `Spec/Rewrite` closes rules on sequences of instructions under all surroundings. `C81_rewrite` needs only that the right side of a rule has all types of the left side by the declarative rules; `C81_interchangeable` shows that nothing less will do: surroundings are exhibited (constants before, `i32.eqz; drop` and the like after, blocks around) that are accepted exactly if the piece has a given type. `Peephole` is an instance; which of two branches an optimiser takes depends on values, which validation does not see, so both are allowed.
* **C82.** `Model/Memory` threads the room for each type of element through all parsers. Four passes over it: the bytes read pay for all requests but those for local variables (`Lemmas/Memory`), every vector of the result was requested (`Lemmas/MemoryVectors`), if they all have room nothing else fails (`Lemmas/MemoryRoom`), and a panic needs more requests than there is room (`Lemmas/MemoryOver`). Names of custom sections and the function section are requested, too, but are not part of the module; hence the assumption on bytes and indices in `C82_exact_partial`. False (`C82_negation`, `C82_accepted_negation`).
* **C83.** `Spec/Reduce` has the reduction rules of the document, with the administrative instructions `trap`, `invoke`, `label` and `frame`. Proof: the rules are deterministic, and the interpreter of C61 follows them (`sim_exec`): whatever it returns is where the rules lead, it is stuck only where no rule applies, and out of fuel `n` only after at least `n` steps. Then C61 carries over: a reachable state is on the only path there is. The store in the states on the way (`C83_store`, `C83_calls`) is by preservation: `Lemmas/Preserve` gives types to sequences with administrative instructions, and each rule keeps them.
* **C84.** `arriveFunc` (`Model/Arrive`) is `Func::validate` stopped at a place in the body; `At` (`Spec/Points`) says by the rules of C83 that execution gets there, and `steps_at` that every state is at some place. Proof: what has been executed in a block came to its end, so by preservation its values have every type that the soundness of validation (C30) allows for it; if the frame were unreachable or an operand unknown there would be several.
* **C85.** `Admits` (`Spec/Prefix`) says which types a context admits for the operands of its innermost frame; soundness and completeness of the validator inside one frame (C30, C31) give that these are exactly the types derivable for the code so far. For the places, a body accepted up to there is completed with `unreachable` there and after each of the blocks around it (`complete_of_arrive`).
* **C86.** `Assembled` (`Spec/Linker`) is `PartOf` of C75 for several modules. The linker `link` appends the renumbered definitions of the program to those of the library, so C63 says what remains to be checked; indices are in range because whatever occurs in a typed body is typed (`occurs_typed`). False because of disagreement 5, with valid modules before and after.
* **C87.** The length of a layout follows from the lengths and line breaks of its parts (`length_struct`, `length_tuple`, `length_items` in `Lemmas/Printed`), as an indented text grows by four characters for each line. The text of a float comes from the standard library; its length `n` is a parameter (`FloatText`). The bound of 2^34 in the negation is far from the best: k is limited only because a function body has fewer than 2^32 bytes.
* **C88.** `Model/Scope` has the parser once more with explicit scopes: `scope fits p` is `p` while values are alive that are dropped if `p` fails, `fits` telling whether there is room for their drop glue. The vectors under construction are arguments of the loops here. `Rel` relates it to `Model/Native`: equal unless something does not fit, and what has been parsed with some room fits into the same room. Sizes of stack frames are parameters (`Frames`).
* **C89.** `Spec/Reason` pairs the errors of the two. Which errors the parsers have at all comes from C78 (`Tells`). For modules, `Early` is what only `Module::parse` complains of, said in terms of the sections that the grammar reads from a part of the stream. What `#[sized]` reports when the stream ends before the announced size is not in its documentation; it is taken to be the error for a size that is not met. (`grammar/core/error.rs:43` gives the unsigned integers the message of the signed ones.)
* **C90.** `Spec/Show` describes the text by depth, where `Model/Debug` pads text that is already laid out, as `PadAdapter` of the standard library does. Numbers are those of Lean's `toString`, hexadecimal those of `Nat.toDigits`. What floats look like and which characters are escaped by number are parameters of both; that the text of a float is one line is a hypothesis.
* **C91.** False in both directions. For files with valid modules `C91_complete_partial` says exactly which are accepted, for accepted files `C91_sound_partial` says exactly which modules are valid and have a file by the document (it is then found by writing the module again). `Spec/Verdict` lists what the crate and the document disagree about; without that the property holds for every file by the grammar of the document, and for every file of minimal length.
* **C92.** `Model/Compare` is the derived `==` with bytes of native stack; fields and items are compared in order up to the first difference, vectors only if their lengths are equal. `Spec/Compare` describes by places (not by recursion over both values) how many levels of blocks have to be entered; `C92_exact` is for all pairs. `C92_needed`: without the condition on the frames there is a valid module that can be parsed and not compared with itself.
* **C93.** C71 is exact for inputs that are modules; C93 is for all inputs. `Spec/Open` describes beginnings of modules: `Opens k read` is that after the bytes `read` of an expression `k` blocks are open, `InModule k read` the same within a module. `C93_nesting` relates it to the depth of the expressions of a module, `C93_bytes` gives the length of the shortest inputs, `C93_tool` is for the run of the tool, under the condition on the frames of C88.
* **C94.** The same as C93 for validation: C71 is exact for modules that are accepted otherwise, C94 is for all modules. `TooDeep k m` (`Spec/Deep`) is stated with the typing rules and `SameBefore` only; that validation gets to a place exactly if some valid body begins in the same way is taken from C85. `C94_tool` puts C88, C93 and C94 together: exactly when the tool is aborted, on any file, with any bytes per level in validation and printing. That destructors take no more than parsing is still assumed.
* **C95.** `Model/Process` is `main` once more, with the calls to the operating system as effects: opening, each `read`, each write. `C95_run` reduces it to the undisturbed run of C56 and C64. The named file is given by the bytes of the argument (`Spec/Process`), not by decoding it. A standard output that is closed from the start is, for a Rust process, one that takes everything (the runtime opens `/dev/null` in its place), so exit code 0 with `--print` says that the operating system took the text, not that anybody got it. That the tool reads to the end before it looks at the first byte is why an endless file is never rejected.
* **C96.** `Model/Room` threads the number of possible entries of each vector through validation, and `main` has it together with `Model/Memory`. Three passes over it: it panics or does what the unlimited validator does
  (`OrPanic`); it does so if there is an operand for each part of an expression and a frame for each block (`Fit`, `Lemmas/Room`, `Lemmas/RoomModule`); and a module is accepted only if its definitions, local variables and frames had room
  (`Climb`, `Lemmas/RoomLower`). `TooManyLocals` says where validation gets to, as in C94. On 32-bit targets the limit is 2^29-1 parameters and local variables (`C96_target32_partial`), less than the 2^30 local variables that are read (C82);
  on 64-bit targets files of up to 4 MB never fail in this way (`C96_tool64_partial`).
* **C97.** `Model/Raw` is the function with the `unsafe` block once more, with addresses; undefined behaviour is an outcome of its own. The iterator is a function on the same memory that leaves the variable alone.
  That this is the only `unsafe` block of the crate is checked by `tools/check_tables.py`. The rules on aliasing are not modelled.
* **C98.** `Spec/Isolate` says what a part of a store is: a set of addresses, also of those that do not exist yet, and maybe the state of the host. `Sealed`: functions of the part run in instances of the part, tables of the part have functions of the part.
  `C98_history` is about what is not changed, `C98_blind_call` and `C98_blind_instantiate` about what is not read, `C98_apart` puts them together. An instance is in a part as a whole, so a function that is exported takes all of its module along. Host functions of the part are assumed to keep to it. That nothing gets stuck is C70, with its condition on global initializers.
* **C99.** The models of limits before have one limit each. `Model/Grant` is parser, validator and `main` once more with a machine, an arbitrary function of all requests so far, in place of the limits, so that memory, stack and
  output can run out in any order and share one amount. `Does x t r` (`Lemmas/Grant`): `x` asks for `t`, whatever the machine, and comes to `r`. `Lemmas/GrantParse` relates the parser to that of C82, `Lemmas/GrantValid` the validator to that of C96,
  `Lemmas/GrantMain` the tool to C95. A level of the stack is asked for by a function that is about to call itself for a block and given back after it; values that are dropped when an error leaves a function are dropped level by level too, also if a panic unwinds. An
  example beside `C99_zero` has a valid module that is printed as a whole and has no exit code, because there is no stack to drop it. On 32-bit targets the claim would have the exceptions of C57.
  `C99_needed` is the bound from below, for every machine that stays in a budget. For a module that is accepted the levels are exact: the least budget has as many as there are blocks inside of each other, in each of the recursive functions.
* **C100.** `Spec/Pass` is the algorithm of appendix 7.3 of the document, on sequences of opcodes with a grammar of their own. What the document leaves to the grammar, that each `else` belongs to an `if` and that nothing follows the last `end`, the algorithm checks, so it needs no parser.
  `C100_rules` is for every context of the rules, `C100_body` for the parser and validator of the crate on bytes, `C100_step` for every place inside of a body. `Spec/PassFile` has files as such a pass sees them: declarations, and the code of each body as a sequence; `C100_file` is the verdict of the crate on files, `C100_file_answer` the types of imports and exports.
* **C101.** `Spec/Later` is the binary format of WebAssembly 2.0 and 3.0 as far as a file of 1.0 could be taken for one: integers of 64 bits in limits and offsets, the memory index in memory accesses, the forms of segments, indices in place of reserved
  bytes, the new order of sections. What begins with a byte that 1.0 does not have (types, opcodes, sections) may be followed by any bytes there, so that the theorems hold for more than those documents. `C101_reading` compares the two grammars, `C101_exact` is exact,
  `C101_older` says that every valid file of 1.0 is such a file and says the same,
  `C101_w3c` is for the rules of 1.0, `C101_later_partial` for those of the crate; `C101_negation`, `C101_elem_negation`, `C101_data_negation` are the three ways in which it misreads (25 below).
* **C102.** `Spec/Space` counts the operands and labels of a call in a state of C83 (`operands`, `nestL`), of all calls together (`allOperands`, `callsL`), and says what a call that has not returned is (`Activation`). Proof: every state of an execution of a list of instructions is at a place or near one with at least as many operands (`steps_all` in `Lemmas/Space`, which also gives C84); at the place validation has what execution has (C84, now with the operands of the blocks around); every frame of a state holds an execution of a body (`Org` in `Lemmas/SpaceCalls`); and no step raises the number of operands together with the number of instructions that are left, each of which adds one at most, because function types have one result at most.
* **C103.** `Model/Inline` is the text of `{:?}`; `Spec/Reflow` has the two functions on texts (`spread`, `joined`), written as automata over characters. Proof: pairs of texts for which both functions do what they should at every depth and with anything after them (`Both` in `Lemmas/Reflow`) are closed under the brackets of the standard library; for names it is enough that what is within quotes has no quote without a backslash, and no line break. The bound on the length is by the parts of the module as in C87, without margins (`Lemmas/Inline`).
* **C104.** `Spec/Layout` lays the operands of all labels of a state out in one stack (`stackOf`), with the labels and the number of operands below each (`labelsAt`); `Jumps` says which label an instruction branches to. Proof: the relation behind C102 (`Gets` in `Lemmas/Points`) carries the operands and labels around the innermost block, and says at which place a branch that is on its way out of blocks has begun (`Near` in `Lemmas/Space`); what a branch, a beginning and an end of a block do to the one stack follows from the rules alone (`Lemmas/Layout`), that a branch gets to its label from typing. The label of the function itself has a frame, but no branch of accepted code goes to it (disagreement 8).
* **C105.** `Spec/Flat` is the machine without labels (`FStep`), for any table; `sideTable` is the table that the frames of the validator are. `Sits` (`Lemmas/Flat`) relates a place of a body and the one stack to a state of the rules, step by step; `FRel` (`Lemmas/FlatCalls`) does it for all calls that have not returned. The relation cannot be a function of the state: the two branches of an `if` may have the same code, and the rules do not keep apart which one is executed. One step of the machine is one or more of the rules (`flat_step`, with C104 for branches), and both are deterministic.
* **C106.** `Spec/Words` is the machine without checks (`wstep`), a total function. Every step of the machine of C105 is one of it after the types of the values are dropped (`Lemmas/Words`): the rules go on only if the operands are there and have the right types, so no invariant is needed, except that a global keeps its type (C83). The machine of C105 never gets stuck on accepted code, hence the two never part. The store keeps the types of its values, since functions of the host see it. A module that is not accepted, for which the claim is false, is among the examples.
* **C107.** `Spec/Stream` is the machine on opcodes (`lstep`); `WrittenAs` says that the codes it executes are a way to write the bodies, by the grammar of C100, in which an `else` before an empty branch may be missing. `Lemmas/Stream` relates each place of the tree to the opcodes before and after it (`Splits`), shows that counting finds the right `end`, `else` or loop (`goal_land`), and that a step of the machine of C106 is one step of this one. The table is the one of the algorithm of the appendix, equal to the frames of the crate by C100. `C107_file` begins with the bytes of a file; the trees of bodies occur there only in the module of the crate, and as names of functions.
* **C108.** `Spec/Registers` has the translation (`compile`, by `heightAt` and `passTable`, both from the run of the algorithm of the appendix up to the opcode) and the machine (`rstep`); registers are a function from numbers, so their number is not bounded there (C109 bounds it). `Lemmas/Registers` shows for each rule of execution that the instruction for the opcode does the same on registers (`reg_next`, `reg_trap`, `reg_call`, `reg_jump`), if registers hold the local variables and operands (`Agree`, `file`). For this the machine of C105 now also gets stuck at a branch that does not find all operands that it needs, and C105 shows that it does not get stuck. `C108_file` begins with the bytes of a file.
* **C109.** `Spec/Frames` has the machine with one row of words (`qstep`; an instruction is executed by `rexec` of C108 on the words from `base` on), the number of registers of a function (`frame`) and what is done to the words beyond before each step (`spoil`, with any contents). `Lemmas/Frames` takes a state apart into one with registers for each call (`apart`), on which the step of C108 is used; what is left to show is that callers only need words before the registers of the call they wait for (`parked_low`) and that a call finds its arguments and zeros (`rel_qstep`). That `frame` is enough at the end of a block, where C108 does not say how many operands there are, follows from the step that leaves the block (`frame_enough`). `C109_space` bounds the words by the depth of calls; nothing bounds the depth, so an engine still has to check it when a call begins. The examples show that one register less gives a wrong factorial. `Props/FrameSize` bounds `frame` by the size of the code: an opcode leaves at most one operand more than it finds (`Lemmas/Heights`), because types and block types of files have one result at most. The bound is reached, and an `example` shows that it fails for a hand-built block type with more results, which the crate accepts.
* **C110.** `Spec/Bounded` has the machine with `W` words (`bstep`: a step of the machine of C109 on the list read as words, after which all beyond `W` is forgotten; `fit` checks when a call begins, and only then). The proof runs the machine of C109 with, beyond the registers, exactly what the list has there (`bsteps_same` in `Lemmas/Bounded`), which C109 allows because it holds for any such contents. That the check at calls is enough needs that the callers of a call are within the list too (`Within`). `example`s: 4! by five calls of itself needs twelve words, and there is no room in eleven; with too small a number of registers the result is wrong.
* **C111.** `Spec/OnePass` has the pass (`gstep`): an instruction is made as a function of the two tables `ends` and `elses`, which have an entry for each block, named by the place of its opcode, and are complete when the pass is over. The proof has two parts (`Lemmas/OnePass`). The open blocks of the pass are the control frames of the algorithm (`Framed`), and the entry of an open block, once the pass is over, is what `scan` and `scanElse` find in the rest of the code (`ends_final`, `elses_final`); an entry is not written again since blocks begin at different places (`Below`, `ends_keep`). `C111_code` then holds of all code that is translated, whatever the rest of the module; `C111_verdict` says which code this is, `C111_tree` and `C111_file` say the same of trees and files, and `C111_results` is C110 for what the pass has made (the machine looks only at the code of functions of the module, `bsteps_mine`). The examples include rejected code.
* **C112.** C85 has the same of trees and of places in them, by the typing rules; this is about bytes and the pass of C100. `Lemmas/Early` shows that the operands of every frame are there in each state that the algorithm reaches (`Tall`), so `unreachable end` ends any block, and `unreachable else unreachable end` an `if` (`closing`, `run_close`). Bytes that begin with those of some opcodes are read as these first (`reading_begins`, from C100), which gives the converse: an error is final. `C112_rules` is for any context and any binary format between that of the document and that of the crate, `C112_early` is for the crate by `C100_body`. `C112_bytes` and `C112_body` are about bytes that may end within an opcode (`reading_cut`).
* **C113.** C84 has the same of trees and of the steps of the rules; this is about opcodes and about what is made of them. The mark is that of the algorithm of C100 (`marked` of `Spec/Marked`, any frame, not only the innermost: a block that begins in marked code has a frame of its own that is not marked). From C105 (at every place that is reached no frame of the validator is marked) by C100 (`C100_step`: the same frames in the algorithm) and `splits_run` (however the code is written). The `end` of a block is left out; for it this would be false, which an example shows. For the registers (`liveFrame`, `live_enough`) the lemmas of C109 and C110 are for any number that is enough at the places that are reached (`RoomFor`, `rows_steps`, `bounded_results`).
* **C114.** C107 to C111 say where the machine is if it began as it should; this holds of any contents of store and memory. `Held` of `Lemmas/Confined` is what is so in the middle of the pass of `Spec/OnePass`: the tables of ends lead to places no later than the next one, and to earlier ones when the code is at its end. It uses of validation only that the frames are the blocks that are open. `C114_inside` is about any sequence of states in which functions and places are those of the step before (`places`), and all else is free.
* **C115.** C109 and C113 bound the registers of what is executed; this is about the instructions that are made, executed or not, as long as no frame is marked. `RInstr.uses` of `Spec/Extent` lists the registers of an instruction as windows; that it lists all of them is `C115_uses`, against `rexec` of `Spec/Registers`, which was written before. `Lemmas/Extent` has what `pop_opds` takes where nothing is marked (`pop_opds_exact`), and that the first frame keeps the result type of the function (`Based`). For marked code the bound fails, and an example beside the theorem shows it.

## Disagreements between the code and the properties found while reading

1. `binary/module.rs:55-64`: the function/code count check is only made when a code section is present; a function section alone
   is silently dropped (C26).
2. `binary/core/vec.rs:66-80`: no bound on the total number of locals (C29, C79); the format requires less than 2^32.
3. LEB-128 of any length is accepted (documented in the crate, but not WebAssembly) (C05).
4. `validation/ty.rs:41`: memory bound is `u16::MAX` = 65535 pages, WebAssembly allows 65536 (C37, C49).
5. `validation/module.rs:33-34`: global initializers are checked in a context containing the module's own globals instead
   of the imported ones: self references and forward references are accepted, references to imported globals
   are rejected or resolved to the wrong global (C41, C49), which makes a global of type i32 hold an i64 at run time (C62).
6. `validation/module.rs:71-76`: imported tables/memories are not counted (C42).
7. `validation/instr.rs:763-783`: alignment check commented out (C43). The field called `_offset` is the alignment in the binary
   format.
8. `validation/idx.rs:77`: a branch to the label of the function itself is rejected (C31, C49).
9. Derived `PartialEq` on floats: modules with NaN constants are not equal to themselves (C53).
10. A hand-built AST with a stray `Else` can pass validation (C47). The parser never produces one (C18).
11. `binary/instr.rs:41, 80, 81`: the reserved byte of `call_indirect`, `memory.size`, `memory.grow` is parsed as a `u32` index; the validator
    then checks that the index exists, so with several (imported) memories the document's restriction is not enforced (C54).
12. `parser/src/main.rs:11`: with an empty argument vector the error message indexes `args[0]` and panics, exit code 101 (C52).
13. `binary/core/error.rs:18`: the message of `OutOfRangeUnsignedInteger` says "signed", so both out-of-range errors look the same (C55).
14. `validation/idx.rs:77`: on 32-bit targets `idx + 1` overflows for the label 0xFFFFFFFF; debug builds panic there, release builds at the index
    two lines below (C57).
15. `binary/core/vec.rs:58, 90`: the count read from the input is passed to `Vec::with_capacity` unchecked: five bytes reserve memory for 2^32-1
    elements (C58, C82), and on 32-bit targets a count of 2^31 panics (C57).
16. Minor, no property: the error for a bad block type names `ty::Val` (`binary/ty.rs:55`); `SectionSizeMissmatch` and `FunctionSizeMissmatch` are never returned
    (C78_never); `Context::labels` is never used; `Stacks`' only error is `UnexpectedEndOfFile`.
17. `binary/core/unsigned.rs`, `signed.rs`, `binary/module.rs`: no bound on the length of an integer or the number of custom sections, so on an endless
    iterator `Module::parse` may never return (C68).
18. `binary/core/float.rs:43-52`: the bytes of a float are written to memory in the order read, so big-endian hosts read another number (C69).
19. `binary/instr.rs:30-32, 251, 257`, `validation/instr.rs:51-71`: recursion on nested blocks is not limited, so a small input of nested blocks overflows
    the native stack, which aborts the process (C71).
20. `validation/module.rs:104-108, 138-143, 157-162, 177-182`: on an error the function returns before its frame is popped, and `locals` and `ret` stay set (lines 109-110 are
    skipped). A caller that goes on with the same `Context` sees every further function, global and segment rejected (C72).
21. `validation/module.rs:102`, `validation/stacks.rs:60-65`: all parameters of the type are copied into the context for each function, and popped one by one for each call, also in
    unreachable code, so validation takes quadratic time on modules with many functions or calls of a type with many parameters (C76).
22. `binary/module.rs:58-60`: a code section with another number of bodies than the function section announces is reported as `UnexpectedEndOfFile`, also when input is left (C78).
    `binary/instr.rs`: a second `else` is reported as an unexpected opcode with the word "Unknown".
23. `binary/core/vec.rs` (`CompactVec`), used in `binary/module.rs:76`: a run of local variables is expanded to one entry per variable, so that 30 bytes of input give a function with 2^32-1 entries (C79, C82). `validation/module.rs:102` collects a
    reference to each of them (C96). The document limits the
    total to 2^32-1, not the memory.
24. `structure/instr.rs`, `structure/module.rs` (`derive(Debug)`), `parser/src/main.rs` (`{:#?}`): the text of `--print` is indented by four characters for each level of nesting, three levels for a block, so a file of nested blocks of n bytes
    gives about 6 n^2 characters (C87): a file of 1 MB gives 6 TB.
25. `validation/instr.rs` (no alignment rule), `validation/module.rs` (own tables and memories counted, not imported ones): because of 6 and 7 some valid files of WebAssembly 2.0 and 3.0 are accepted and misread (C101). The code `20 00 28 42 00 01 0B` is
    `local.get 0  i32.load offset=1` in 3.0 and is read as `local.get 0  i32.load align=2^66  nop`, with another result. An element segment `04 41 05 0B 00` is for table 0 since 2.0 and is read as one for table 4; a data segment that begins `01 41 05 0B 3E` is
    65 bytes for no memory and is read as 62 bytes for memory 1. With the rules of 1.0 all of these would be refused.
