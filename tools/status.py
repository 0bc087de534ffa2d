STATUS = {
 'C01': ('proved', 'for every width N >= 8 and every group'),
 'C02': ('proved', 'for every width N >= 8 and every group'),
 'C03': ('proved', 'both signednesses, every width N >= 8'),
 'C04': ('proved', 'minimal encoders of the specification with any amount of padding; their minimality is proved too'),
 'C05': ('partial', 'false of the code: over-long encodings are accepted (witnesses C05_negation*); the equivalence holds for encodings of at most ceil(N/7) bytes, so every encoding of the W3C grammar is accepted'),
 'C06': ('proved', 'every array size, not only the eight instances of the code'),
 'C07': ('proved', 'any number of bytes, with f32 and f64 as instances; assumes the little-endian host the code is written for'),
 'C08': ('proved', 'a string is represented by its UTF-8 bytes'),
 'C09': ('proved', 'any element parser'),
 'C10': ('proved', 'any element parser'),
 'C11': ('proved', 'any element parser that only moves forward (all do, C13)'),
 'C12': ('proved', ''),
 'C13': ('proved', 'every element parser and every combinator, closed under composition'),
 'C14': ('proved', 'every element parser except those the property excludes'),
 'C15': ('proved', 'no panic and no exhausted fuel for modules, expressions, instructions and every element'),
 'C16': ('proved', 'all 256 opcodes against the table of the specification'),
 'C17': ('proved', 'both directions, any nesting; inclusion of the W3C grammar is C17_w3c'),
 'C18': ('proved', 'function bodies and constant expressions of parsed modules, any depth'),
 'C19': ('proved', 'at any depth, after any instructions'),
 'C20': ('proved', 'all types, with the tag errors'),
 'C21': ('proved', ''),
 'C22': ('proved', 'order and range of accepted modules, and the exact errors'),
 'C23': ('proved', 'exact for the grammar with the named liberties; inclusion of the W3C grammar is C23_w3c'),
 'C24': ('proved', 'in both directions: inserting or removing'),
 'C25': ('proved', 'pairing, rejection on mismatch, and the exact error whatever follows'),
 'C26': ('partial', 'false of the code (C26_negation): without a code section the declared functions are dropped; holds when there is a code section'),
 'C27': ('proved', 'exact: precisely the encodable modules can be parsed, and the encoding is the shortest input'),
 'C28': ('proved', ''),
 'C29': ('proved', 'bounds for instructions and for depth, the latter reached for every depth (also by valid modules); family of witnesses for locals'),
 'C30': ('proved', 'all accepted modules without a hand-made Else, in particular all parsed ones; with alignment in C30_aligned'),
 'C31': ('partial', 'false of the code (C31_negation): branches to the label of the function are rejected; C31_exact says exactly which bodies are accepted'),
 'C32': ('proved', 'all module values'),
 'C33': ('proved', 'expressions without hand-made End or Else (C33_marks shows why), any context; also independence of the outer operands'),
 'C34': ('proved', 'bodies at any depth, and all other items'),
 'C35': ('proved', ''),
 'C36': ('proved', ''),
 'C37': ('proved', 'with the converse for single tables and memories, and the witness for 65536 pages'),
 'C38': ('proved', ''),
 'C39': ('proved', ''),
 'C40': ('proved', 'any context with empty stacks'),
 'C41': ('partial', 'false of the code (C41_negation, C41_rejected): initializers refer to own globals'),
 'C42': ('partial', 'false of the code (C42_negation): imports are not counted'),
 'C43': ('partial', 'false of the code (C43_negation): immediates are ignored altogether (C43_ignored); only the existence of a memory is checked'),
 'C44': ('proved', ''),
 'C45': ('proved', 'function by function and item by item'),
 'C46': ('proved', ''),
 'C47': ('proved', 'all module values'),
 'C48': ('proved', "exact: the code's validity is the document's but for the listed rules (C48_exact)"),
 'C49': ('partial', 'false of the code in three ways (C49_negation); exact description in C49_exact'),
 'C50': ('proved', 'the bytes of data segments do not matter either'),
 'C51': ('proved', 'blocks in any context, and function bodies'),
 'C52': ('proved', 'an empty argument list makes the program panic (C52_empty); all others as stated'),
 'C53': ('partial', 'false of the code (C53_negation) for modules with NaN constants, exactly for those (C53_exact)'),
 'C54': ('partial', 'false of the code (C54_negation); the partial theorems say exactly what is accepted'),
 'C55': ('partial', 'false of the code (C55_negation) for one pair of errors; all other errors the parser returns are distinguished'),
 'C56': ('proved', 'the file system is a parameter; the text of the module is the subject of C64'),
 'C57': ('partial', 'false of the code on 32-bit targets (C57_label_negation, C57_vec_negation, C57_module_negation); the partial theorems say exactly where'),
 'C58': ('partial', 'false of the code (C58_negation); holds for vectors that are parsed successfully'),
 'C59': ('proved', 'the derive macro, which is not in the repository, is modelled by its documentation'),
 'C60': ('proved', 'the derive macro, which is not in the repository, is modelled by its documentation'),
 'C61': ('proved', 'parsed modules, and modules built by hand without Else (C61_else shows why); the interpreter is Spec/Run, written from chapter 4 of the document'),
 'C62': ('partial', 'false of the code (C62_negation, C62_confused_negation); holds if global initializers refer to imported globals of the right type only'),
 'C63': ('proved', 'modules without a hand-made Else, in particular all parsed ones; C63_imports is the witness that imports are excluded'),
 'C64': ('proved', 'the text of floats and the characters written as \\u{…} are parameters with the requirement StdOk; C64_nan is the witness that NaNs are excluded'),
 'C65': ('proved', 'examples show that the two exceptions (end of input, size mismatch) are needed'),
 'C66': ('proved', 'C66_locals is the witness that the number of locals matters'),
 'C67': ('proved', 'iterators are arbitrary state machines; next itself is assumed to return and not to panic'),
 'C68': ('partial', 'false of the code (C68_negation) for endless iterators; C68_endless says on which of them it returns'),
 'C69': ('partial', 'false of the code (C69_negation) on big-endian hosts; C69_big and C69_agree say what is read there'),
 'C70': ('partial', 'false of the code (C70_negation) because of global initializers; proved for modules whose global initializers follow the document'),
 'C71': ('partial', 'false of the code (C71_negation): recursion on nested blocks is not limited; proved is exactly when the process is aborted'),
 'C72': ('partial', 'false of the code (C72_negation): a rejected part with code leaves its frame on the stacks; proved is exactly what survives'),
 'C73': ('proved', 'for all histories of calls; a caller that assigns the public fields itself can cause a panic (C73_fields)'),
 'C74': ('partial', 'false of the code (C74_negation): the order of the own globals decides what initializers read; proved if initializers find the same'),
 'C75': ('partial', 'false of the code (C75_negation) for unused globals; proved for unused functions and types, and for all parts if initializers find the same'),
 'C76': ('partial', 'false of the code (C76_negation): quadratic if many functions share a type with many parameters; proved with the number of parameters as factor'),
 'C77': ('proved', 'entries of the vectors are counted, not their capacity'),
 'C78': ('partial', 'false of the code (C78_negation): another number of bodies than announced is reported as an end of file; proved that this is the only exception'),
 'C79': ('partial', 'false of the code (C79_negation): runs of local variables are expanded; proved with the number of local variables added'),
 'C80': ('proved', 'an equivalence for every input, with the parts and expressions alone, too'),
 'C81': ('proved', 'rules are given by the types of their two sides; the rules of an optimiser as an instance; modules without stray Else'),
 'C82': ('partial', 'false of the code (C82_negation, C82_accepted_negation): counts and runs reserve memory for 2^32-1 elements; proved is exactly when an accepted input fails'),
 'C83': ('proved', 'parsed modules, and modules built by hand without Else (C83_else shows why); the rules are Spec/Reduce'),
 'C84': ('proved', 'parsed modules, and modules built by hand without Else'),
 'C85': ('proved', 'code without stray End and Else; a place is given by the instructions before it (SameBefore)'),
 'C86': ('partial', 'false of the code (C86_negation): initializers of globals look up the own globals; proved if initializers find the same, and for a linker'),
 'C87': ('partial', 'false of the code (C87_negation): indentation is quadratic in the nesting; proved: lines are linear, characters at most parts times depth'),
 'C88': ('proved', 'bytes of native stack per level of blocks; sizes of the frames are parameters'),
 'C89': ('proved', 'the derive macro, which is not in the repository, is modelled by its documentation'),
 'C90': ('proved', 'the text of floats and the set of characters that are escaped by number are parameters'),
 'C91': ('partial', 'false of the code (C91_negation) in both directions; the partial theorems say exactly for which modules, and that it holds where the crate and the document agree'),
 'C92': ('proved', 'bytes of native stack per level of blocks; sizes of the frames are parameters'),
 'C93': ('proved', 'the native stack is measured in nested blocks, for the tool in bytes per level'),
 'C94': ('proved', 'the native stack is measured in nested blocks, for the tool in bytes per level'),
 'C95': ('proved', 'println!, read_to_end and env::args by their documentation; memory and the native stack are unlimited here'),
 'C96': ('partial', 'false of the code (C96_negation): 30 bytes need 2^32-1 entries; proved is exactly when validation and the tool are aborted, given an entry for each byte otherwise'),
 'C98': ('proved', 'for modules whose global initializers follow the document, see C70; an instance is in a part as a whole'),
 'C99': ('proved', 'what has a fixed size is asked for once per phase; what is freed is not told to the machine'),
 'C97': ('proved', 'addresses, bounds and initialisation; the rules on aliasing are not modelled'),
 'C100': ('proved', 'relative to the labels and the alignment rule of the crate, which differ from the document by C43 and C31'),
 'C101': ('partial', 'false: alignments from 64 on, and more than one table or memory, are accepted and may mean something else in later versions'),
 'C102': ('proved', 'every state of execution by the rules of the document; hand-built modules may not have an else mark'),
 'C103': ('proved', 'the text of floats is a parameter: any words, of at most n characters for the bound on the length'),
 'C104': ('proved', 'every state of execution by the rules of the document; hand-built modules may not have an else mark'),
 'C105': ('proved', 'from every store of the right shape; hand-built modules may not have an else mark'),
 'C106': ('proved', 'from every store of the right shape; hand-built modules may not have an else mark'),
 'C107': ('proved', 'from every store of the right shape; hand-built modules may not have an else mark'),
 'C108': ('proved', 'from every store of the right shape; the machine has as many registers as are needed; hand-built modules may not have an else mark'),
 'C109': ('proved', 'from every store of the right shape; calls may be nested as deep as they like, so the row of words has no end; hand-built modules may not have an else mark'),
 'C110': ('proved', 'from every store of the right shape; the list of words holds registers only, places in the code of waiting calls are kept beside it; hand-built modules may not have an else mark'),
 'C111': ('proved', 'the declarations are taken as checked beside the pass over the bodies; results from every store of the right shape'),
 'C112': ('proved', ''),
 'C113': ('proved', ''),
 'C114': ('proved', ''),
 'C115': ('proved', ''),
}
