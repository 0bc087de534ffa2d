{
 "claims": [
  {
   "property": "C01",
   "status": "proved",
   "theorems": [
    "Whasm.C01_unsigned_exact"
   ],
   "note": "for every width N >= 8 and every group"
  },
  {
   "property": "C02",
   "status": "proved",
   "theorems": [
    "Whasm.C02_signed_exact"
   ],
   "note": "for every width N >= 8 and every group"
  },
  {
   "property": "C03",
   "status": "proved",
   "theorems": [
    "Whasm.C03_unsigned_unterminated",
    "Whasm.C03_signed_unterminated"
   ],
   "note": "both signednesses, every width N >= 8"
  },
  {
   "property": "C04",
   "status": "proved",
   "theorems": [
    "Whasm.C04_unsigned_roundtrip",
    "Whasm.C04_signed_roundtrip",
    "Whasm.C04_encodings_minimal"
   ],
   "note": "minimal encoders of the specification with any amount of padding; their minimality is proved too"
  },
  {
   "property": "C05",
   "status": "partial",
   "theorems": [
    "Whasm.C05_negation",
    "Whasm.C05_negation_signed",
    "Whasm.C05_unsigned_grammar_partial",
    "Whasm.C05_signed_grammar_partial"
   ],
   "note": "false of the code: over-long encodings are accepted (witnesses C05_negation*); the equivalence holds for encodings of at most ceil(N/7) bytes, so every encoding of the W3C grammar is accepted"
  },
  {
   "property": "C06",
   "status": "proved",
   "theorems": [
    "Whasm.C06_byte",
    "Whasm.C06_array"
   ],
   "note": "every array size, not only the eight instances of the code"
  },
  {
   "property": "C07",
   "status": "proved",
   "theorems": [
    "Whasm.C07_float",
    "Whasm.C07_f32",
    "Whasm.C07_f64",
    "Whasm.C07_every_pattern"
   ],
   "note": "any number of bytes, with f32 and f64 as instances; assumes the little-endian host the code is written for"
  },
  {
   "property": "C08",
   "status": "proved",
   "theorems": [
    "Whasm.C08_string"
   ],
   "note": "a string is represented by its UTF-8 bytes"
  },
  {
   "property": "C09",
   "status": "proved",
   "theorems": [
    "Whasm.C09_vec",
    "Whasm.C09_vec_error",
    "Whasm.C09_unwrappingVec"
   ],
   "note": "any element parser"
  },
  {
   "property": "C10",
   "status": "proved",
   "theorems": [
    "Whasm.C10_compactVec",
    "Whasm.C10_length"
   ],
   "note": "any element parser"
  },
  {
   "property": "C11",
   "status": "proved",
   "theorems": [
    "Whasm.C11_sized"
   ],
   "note": "any element parser that only moves forward (all do, C13)"
  },
  {
   "property": "C12",
   "status": "proved",
   "theorems": [
    "Whasm.C12_consume"
   ],
   "note": ""
  },
  {
   "property": "C13",
   "status": "proved",
   "theorems": [
    "Whasm.C13_forward",
    "Whasm.C13_forward_rest",
    "Whasm.C13_forward_combinators"
   ],
   "note": "every element parser and every combinator, closed under composition"
  },
  {
   "property": "C14",
   "status": "proved",
   "theorems": [
    "Whasm.C14_local",
    "Whasm.C14_prefix_free"
   ],
   "note": "every element parser except those the property excludes"
  },
  {
   "property": "C15",
   "status": "proved",
   "theorems": [
    "Whasm.C15_module",
    "Whasm.C15_elements",
    "Whasm.C15_expr_instr"
   ],
   "note": "no panic and no exhausted fuel for modules, expressions, instructions and every element"
  },
  {
   "property": "C16",
   "status": "proved",
   "theorems": [
    "Whasm.C16_rejected",
    "Whasm.C16_opcode",
    "Whasm.C16_accepted",
    "Whasm.C16_injective"
   ],
   "note": "all 256 opcodes against the table of the specification"
  },
  {
   "property": "C17",
   "status": "proved",
   "theorems": [
    "Whasm.C17_expr",
    "Whasm.C17_w3c",
    "Whasm.C17_instr",
    "Whasm.C17_unambiguous"
   ],
   "note": "both directions, any nesting; inclusion of the W3C grammar is C17_w3c"
  },
  {
   "property": "C18",
   "status": "proved",
   "theorems": [
    "Whasm.C18_expr",
    "Whasm.C18_module"
   ],
   "note": "function bodies and constant expressions of parsed modules, any depth"
  },
  {
   "property": "C19",
   "status": "proved",
   "theorems": [
    "Whasm.C19_misplaced_else",
    "Whasm.C19_misplaced_else_instr"
   ],
   "note": "at any depth, after any instructions"
  },
  {
   "property": "C20",
   "status": "proved",
   "theorems": [
    "Whasm.C20_types",
    "Whasm.C20_w3c",
    "Whasm.C20_tags"
   ],
   "note": "all types, with the tag errors"
  },
  {
   "property": "C21",
   "status": "proved",
   "theorems": [
    "Whasm.C21_magic",
    "Whasm.C21_version",
    "Whasm.C21_accepted"
   ],
   "note": ""
  },
  {
   "property": "C22",
   "status": "proved",
   "theorems": [
    "Whasm.C22_order",
    "Whasm.C22_unexpected",
    "Whasm.C22_invalid"
   ],
   "note": "order and range of accepted modules, and the exact errors"
  },
  {
   "property": "C23",
   "status": "proved",
   "theorems": [
    "Whasm.C23_module",
    "Whasm.C23_w3c",
    "Whasm.C23_unambiguous"
   ],
   "note": "exact for the grammar with the named liberties; inclusion of the W3C grammar is C23_w3c"
  },
  {
   "property": "C24",
   "status": "proved",
   "theorems": [
    "Whasm.C24_customs"
   ],
   "note": "in both directions: inserting or removing"
  },
  {
   "property": "C25",
   "status": "proved",
   "theorems": [
    "Whasm.C25_paired",
    "Whasm.C25_mismatch",
    "Whasm.C25_error"
   ],
   "note": "pairing, rejection on mismatch, and the exact error whatever follows"
  },
  {
   "property": "C26",
   "status": "partial",
   "theorems": [
    "Whasm.C26_negation",
    "Whasm.C26_dropped",
    "Whasm.C26_kept_partial"
   ],
   "note": "false of the code (C26_negation): without a code section the declared functions are dropped; holds when there is a code section"
  },
  {
   "property": "C27",
   "status": "proved",
   "theorems": [
    "Whasm.C27_roundtrip",
    "Whasm.C27_exact",
    "Whasm.C27_shortest",
    "Whasm.C27_again",
    "Whasm.C27_w3c",
    "Whasm.C27_injective"
   ],
   "note": "exact: precisely the encodable modules can be parsed, and the encoding is the shortest input"
  },
  {
   "property": "C28",
   "status": "proved",
   "theorems": [
    "Whasm.C28_truncated_expr",
    "Whasm.C28_truncated_instr"
   ],
   "note": ""
  },
  {
   "property": "C29",
   "status": "proved",
   "theorems": [
    "Whasm.C29_deep_valid",
    "Whasm.C29_expr",
    "Whasm.C29_expr_strict",
    "Whasm.C29_depth",
    "Whasm.C29_deep",
    "Whasm.C29_locals",
    "Whasm.C29_too_many"
   ],
   "note": "bounds for instructions and for depth, the latter reached for every depth (also by valid modules); family of witnesses for locals"
  },
  {
   "property": "C30",
   "status": "proved",
   "theorems": [
    "Whasm.C30_typed",
    "Whasm.C30_parsed",
    "Whasm.C30_aligned"
   ],
   "note": "all accepted modules without a hand-made Else, in particular all parsed ones; with alignment in C30_aligned"
  },
  {
   "property": "C31",
   "status": "partial",
   "theorems": [
    "Whasm.C31_exact",
    "Whasm.C31_accepted_partial",
    "Whasm.C31_negation"
   ],
   "note": "false of the code (C31_negation): branches to the label of the function are rejected; C31_exact says exactly which bodies are accepted"
  },
  {
   "property": "C32",
   "status": "proved",
   "theorems": [
    "Whasm.C32_total",
    "Whasm.C32_no_panic"
   ],
   "note": "all module values"
  },
  {
   "property": "C33",
   "status": "proved",
   "theorems": [
    "Whasm.C33_frame",
    "Whasm.C33_independent",
    "Whasm.C33_marks"
   ],
   "note": "expressions without hand-made End or Else (C33_marks shows why), any context; also independence of the outer operands"
  },
  {
   "property": "C34",
   "status": "proved",
   "theorems": [
    "Whasm.C34_bodies",
    "Whasm.C34_items"
   ],
   "note": "bodies at any depth, and all other items"
  },
  {
   "property": "C35",
   "status": "proved",
   "theorems": [
    "Whasm.C35_context",
    "Whasm.C35_exports",
    "Whasm.C35_calls"
   ],
   "note": ""
  },
  {
   "property": "C36",
   "status": "proved",
   "theorems": [
    "Whasm.C36_distinct",
    "Whasm.C36_duplicates",
    "Whasm.C36_rename"
   ],
   "note": ""
  },
  {
   "property": "C37",
   "status": "proved",
   "theorems": [
    "Whasm.C37_limits",
    "Whasm.C37_memory",
    "Whasm.C37_table",
    "Whasm.C37_bound"
   ],
   "note": "with the converse for single tables and memories, and the witness for 65536 pages"
  },
  {
   "property": "C38",
   "status": "proved",
   "theorems": [
    "Whasm.C38_start",
    "Whasm.C38_exact"
   ],
   "note": ""
  },
  {
   "property": "C39",
   "status": "proved",
   "theorems": [
    "Whasm.C39_result",
    "Whasm.C39_lengths"
   ],
   "note": ""
  },
  {
   "property": "C40",
   "status": "proved",
   "theorems": [
    "Whasm.C40_exact",
    "Whasm.C40_module"
   ],
   "note": "any context with empty stacks"
  },
  {
   "property": "C41",
   "status": "partial",
   "theorems": [
    "Whasm.C41_own_partial",
    "Whasm.C41_negation",
    "Whasm.C41_rejected"
   ],
   "note": "false of the code (C41_negation, C41_rejected): initializers refer to own globals"
  },
  {
   "property": "C42",
   "status": "partial",
   "theorems": [
    "Whasm.C42_own_partial",
    "Whasm.C42_no_imports",
    "Whasm.C42_negation"
   ],
   "note": "false of the code (C42_negation): imports are not counted"
  },
  {
   "property": "C43",
   "status": "partial",
   "theorems": [
    "Whasm.C43_memory_partial",
    "Whasm.C43_ignored",
    "Whasm.C43_sizes_partial",
    "Whasm.C43_negation"
   ],
   "note": "false of the code (C43_negation): immediates are ignored altogether (C43_ignored); only the existence of a memory is checked"
  },
  {
   "property": "C44",
   "status": "proved",
   "theorems": [
    "Whasm.C44_results",
    "Whasm.C44_funcs",
    "Whasm.C44_exact"
   ],
   "note": ""
  },
  {
   "property": "C45",
   "status": "proved",
   "theorems": [
    "Whasm.C45_items",
    "Whasm.C45_state",
    "Whasm.C45_alone",
    "Whasm.C45_reorder"
   ],
   "note": "function by function and item by item"
  },
  {
   "property": "C46",
   "status": "proved",
   "theorems": [
    "Whasm.C46_immutable"
   ],
   "note": ""
  },
  {
   "property": "C47",
   "status": "proved",
   "theorems": [
    "Whasm.C47_end",
    "Whasm.C47_else"
   ],
   "note": "all module values"
  },
  {
   "property": "C48",
   "status": "proved",
   "theorems": [
    "Whasm.C48_code",
    "Whasm.C48_exact",
    "Whasm.C48_lax",
    "Whasm.C48_valid"
   ],
   "note": "exact: the code's validity is the document's but for the listed rules (C48_exact)"
  },
  {
   "property": "C49",
   "status": "partial",
   "theorems": [
    "Whasm.C49_exact",
    "Whasm.C49_accepted_partial",
    "Whasm.C49_negation",
    "Whasm.C49_agree"
   ],
   "note": "false of the code in three ways (C49_negation); exact description in C49_exact"
  },
  {
   "property": "C50",
   "status": "proved",
   "theorems": [
    "Whasm.C50_constants",
    "Whasm.C50_instr"
   ],
   "note": "the bytes of data segments do not matter either"
  },
  {
   "property": "C51",
   "status": "proved",
   "theorems": [
    "Whasm.C51_polymorphic",
    "Whasm.C51_function"
   ],
   "note": "blocks in any context, and function bodies"
  },
  {
   "property": "C52",
   "status": "proved",
   "theorems": [
    "Whasm.C52_arguments",
    "Whasm.C52_reads",
    "Whasm.C52_success",
    "Whasm.C52_failure",
    "Whasm.C52_prints",
    "Whasm.C52_empty"
   ],
   "note": "an empty argument list makes the program panic (C52_empty); all others as stated"
  },
  {
   "property": "C53",
   "status": "partial",
   "theorems": [
    "Whasm.C53_f32",
    "Whasm.C53_f64",
    "Whasm.C53_meaning",
    "Whasm.C53_exact",
    "Whasm.C53_reflexive_partial",
    "Whasm.C53_parsed_partial",
    "Whasm.C53_parsed_nan",
    "Whasm.C53_negation",
    "Whasm.C53_symmetric",
    "Whasm.C53_transitive",
    "Whasm.C53_validate"
   ],
   "note": "false of the code (C53_negation) for modules with NaN constants, exactly for those (C53_exact)"
  },
  {
   "property": "C54",
   "status": "partial",
   "theorems": [
    "Whasm.C54_negation",
    "Whasm.C54_reserved_partial",
    "Whasm.C54_zero_partial",
    "Whasm.C54_valid_partial",
    "Whasm.C54_several"
   ],
   "note": "false of the code (C54_negation); the partial theorems say exactly what is accepted"
  },
  {
   "property": "C55",
   "status": "partial",
   "theorems": [
    "Whasm.C55_negation",
    "Whasm.C55_messages_partial",
    "Whasm.C55_numbers_partial"
   ],
   "note": "false of the code (C55_negation) for one pair of errors; all other errors the parser returns are distinguished"
  },
  {
   "property": "C56",
   "status": "proved",
   "theorems": [
    "Whasm.C56_outcome",
    "Whasm.C56_report",
    "Whasm.C56_silent",
    "Whasm.C56_phase",
    "Whasm.C56_error"
   ],
   "note": "the file system is a parameter; the text of the module is the subject of C64"
  },
  {
   "property": "C57",
   "status": "partial",
   "theorems": [
    "Whasm.C57_label_partial",
    "Whasm.C57_label_negation",
    "Whasm.C57_vec_partial",
    "Whasm.C57_string_partial",
    "Whasm.C57_vec_negation",
    "Whasm.C57_module_partial",
    "Whasm.C57_module32_partial",
    "Whasm.C57_parsed32_partial",
    "Whasm.C57_valid_partial",
    "Whasm.C57_module_negation"
   ],
   "note": "false of the code on 32-bit targets (C57_label_negation, C57_vec_negation, C57_module_negation); the partial theorems say exactly where"
  },
  {
   "property": "C58",
   "status": "partial",
   "theorems": [
    "Whasm.C58_reserved_partial",
    "Whasm.C58_negation"
   ],
   "note": "false of the code (C58_negation); holds for vectors that are parsed successfully"
  },
  {
   "property": "C59",
   "status": "proved",
   "theorems": [
    "Whasm.C59_types",
    "Whasm.C59_containers",
    "Whasm.C59_expr",
    "Whasm.C59_items"
   ],
   "note": "the derive macro, which is not in the repository, is modelled by its documentation"
  },
  {
   "property": "C60",
   "status": "proved",
   "theorems": [
    "Whasm.C60_module",
    "Whasm.C60_total",
    "Whasm.C60_difference"
   ],
   "note": "the derive macro, which is not in the repository, is modelled by its documentation"
  },
  {
   "property": "C61",
   "status": "proved",
   "theorems": [
    "Whasm.C61_call",
    "Whasm.C61_parsed",
    "Whasm.C61_history",
    "Whasm.C61_fuel",
    "Whasm.C61_else"
   ],
   "note": "parsed modules, and modules built by hand without Else (C61_else shows why); the interpreter is Spec/Run, written from chapter 4 of the document"
  },
  {
   "property": "C62",
   "status": "partial",
   "theorems": [
    "Whasm.C62_partial",
    "Whasm.C62_history_partial",
    "Whasm.C62_negation",
    "Whasm.C62_confused_negation"
   ],
   "note": "false of the code (C62_negation, C62_confused_negation); holds if global initializers refer to imported globals of the right type only"
  },
  {
   "property": "C63",
   "status": "proved",
   "theorems": [
    "Whasm.C63_exact",
    "Whasm.C63_result",
    "Whasm.C63_imports"
   ],
   "note": "modules without a hand-made Else, in particular all parsed ones; C63_imports is the witness that imports are excluded"
  },
  {
   "property": "C64",
   "status": "proved",
   "theorems": [
    "Whasm.C64_exact",
    "Whasm.C64_text",
    "Whasm.C64_tool",
    "Whasm.C64_nan"
   ],
   "note": "the text of floats and the characters written as \\u{…} are parameters with the requirement StdOk; C64_nan is the witness that NaNs are excluded"
  },
  {
   "property": "C65",
   "status": "proved",
   "theorems": [
    "Whasm.C65_final",
    "Whasm.C65_between",
    "Whasm.C65_within",
    "Whasm.C65_prefix"
   ],
   "note": "examples show that the two exceptions (end of input, size mismatch) are needed"
  },
  {
   "property": "C66",
   "status": "proved",
   "theorems": [
    "Whasm.C66_longer",
    "Whasm.C66_unique",
    "Whasm.C66_w3c",
    "Whasm.C66_locals"
   ],
   "note": "C66_locals is the witness that the number of locals matters"
  },
  {
   "property": "C67",
   "status": "proved",
   "theorems": [
    "Whasm.C67_module",
    "Whasm.C67_elements",
    "Whasm.C67_consume",
    "Whasm.C67_any",
    "Whasm.C67_once",
    "Whasm.C67_bound"
   ],
   "note": "iterators are arbitrary state machines; next itself is assumed to return and not to panic"
  },
  {
   "property": "C68",
   "status": "partial",
   "theorems": [
    "Whasm.C68_ends_partial",
    "Whasm.C68_endless",
    "Whasm.C68_size",
    "Whasm.C68_negation",
    "Whasm.C68_sections"
   ],
   "note": "false of the code (C68_negation) for endless iterators; C68_endless says on which of them it returns"
  },
  {
   "property": "C69",
   "status": "partial",
   "theorems": [
    "Whasm.C69_little_partial",
    "Whasm.C69_big",
    "Whasm.C69_agree",
    "Whasm.C69_negation"
   ],
   "note": "false of the code (C69_negation) on big-endian hosts; C69_big and C69_agree say what is read there"
  },
  {
   "property": "C70",
   "status": "partial",
   "theorems": [
    "Whasm.C70_alone_partial",
    "Whasm.C70_alone_call_partial",
    "Whasm.C70_instantiate_partial",
    "Whasm.C70_call_partial",
    "Whasm.C70_history_partial",
    "Whasm.C70_negation"
   ],
   "note": "false of the code (C70_negation) because of global initializers; proved for modules whose global initializers follow the document"
  },
  {
   "property": "C71",
   "status": "partial",
   "theorems": [
    "Whasm.C71_exact_partial",
    "Whasm.C71_same_partial",
    "Whasm.C71_short_partial",
    "Whasm.C71_enough_partial",
    "Whasm.C71_validate_partial",
    "Whasm.C71_validate_same_partial",
    "Whasm.C71_both_partial",
    "Whasm.C71_negation"
   ],
   "note": "false of the code (C71_negation): recursion on nested blocks is not limited; proved is exactly when the process is aborted"
  },
  {
   "property": "C72",
   "status": "partial",
   "theorems": [
    "Whasm.C72_module",
    "Whasm.C72_declarations_partial",
    "Whasm.C72_codeless_partial",
    "Whasm.C72_after_successes_partial",
    "Whasm.C72_sound_partial",
    "Whasm.C72_stuck_partial",
    "Whasm.C72_leftover_partial",
    "Whasm.C72_first",
    "Whasm.C72_negation",
    "Whasm.C72_marks"
   ],
   "note": "false of the code (C72_negation): a rejected part with code leaves its frame on the stacks; proved is exactly what survives"
  },
  {
   "property": "C73",
   "status": "proved",
   "theorems": [
    "Whasm.C73_no_panic",
    "Whasm.C73_heights",
    "Whasm.C73_fields"
   ],
   "note": "for all histories of calls; a caller that assigns the public fields itself can cause a panic (C73_fields)"
  },
  {
   "property": "C74",
   "status": "partial",
   "theorems": [
    "Whasm.C74_verdict_partial",
    "Whasm.C74_constants_partial",
    "Whasm.C74_results_partial",
    "Whasm.C74_negation"
   ],
   "note": "false of the code (C74_negation): the order of the own globals decides what initializers read; proved if initializers find the same"
  },
  {
   "property": "C75",
   "status": "partial",
   "theorems": [
    "Whasm.C75_parts_partial",
    "Whasm.C75_function",
    "Whasm.C75_type",
    "Whasm.C75_negation"
   ],
   "note": "false of the code (C75_negation) for unused globals; proved for unused functions and types, and for all parts if initializers find the same"
  },
  {
   "property": "C76",
   "status": "partial",
   "theorems": [
    "Whasm.C76_same_partial",
    "Whasm.C76_width_partial",
    "Whasm.C76_bytes_partial",
    "Whasm.C76_quadratic_partial",
    "Whasm.C76_lower_partial",
    "Whasm.C76_negation"
   ],
   "note": "false of the code (C76_negation): quadratic if many functions share a type with many parameters; proved with the number of parameters as factor"
  },
  {
   "property": "C77",
   "status": "proved",
   "theorems": [
    "Whasm.C77_linear",
    "Whasm.C77_bytes",
    "Whasm.C77_lower"
   ],
   "note": "entries of the vectors are counted, not their capacity"
  },
  {
   "property": "C78",
   "status": "partial",
   "theorems": [
    "Whasm.C78_errors_partial",
    "Whasm.C78_bodies",
    "Whasm.C78_negation",
    "Whasm.C78_never",
    "Whasm.C78_last",
    "Whasm.C78_names"
   ],
   "note": "false of the code (C78_negation): another number of bodies than announced is reported as an end of file; proved that this is the only exception"
  },
  {
   "property": "C79",
   "status": "partial",
   "theorems": [
    "Whasm.C79_same",
    "Whasm.C79_steps_partial",
    "Whasm.C79_locals_partial",
    "Whasm.C79_worst_partial",
    "Whasm.C79_negation"
   ],
   "note": "false of the code (C79_negation): runs of local variables are expanded; proved with the number of local variables added"
  },
  {
   "property": "C80",
   "status": "proved",
   "theorems": [
    "Whasm.C80_exact",
    "Whasm.C80_fault",
    "Whasm.C80_unique",
    "Whasm.C80_expr",
    "Whasm.C80_parts"
   ],
   "note": "an equivalence for every input, with the parts and expressions alone, too"
  },
  {
   "property": "C81",
   "status": "proved",
   "theorems": [
    "Whasm.C81_rewrite",
    "Whasm.C81_equal",
    "Whasm.C81_optimise",
    "Whasm.C81_interchangeable",
    "Whasm.C81_complete"
   ],
   "note": "rules are given by the types of their two sides; the rules of an optimiser as an instance; modules without stray Else"
  },
  {
   "property": "C82",
   "status": "partial",
   "theorems": [
    "Whasm.C82_same_partial",
    "Whasm.C82_exact_partial",
    "Whasm.C82_slots_partial",
    "Whasm.C82_locals_partial",
    "Whasm.C82_worst_partial",
    "Whasm.C82_enough_partial",
    "Whasm.C82_target_partial",
    "Whasm.C82_target32_partial",
    "Whasm.C82_negation",
    "Whasm.C82_accepted_negation"
   ],
   "note": "false of the code (C82_negation, C82_accepted_negation): counts and runs reserve memory for 2^32-1 elements; proved is exactly when an accepted input fails"
  },
  {
   "property": "C83",
   "status": "proved",
   "theorems": [
    "Whasm.C83_deterministic",
    "Whasm.C83_progress",
    "Whasm.C83_interpreter",
    "Whasm.C83_results",
    "Whasm.C83_store",
    "Whasm.C83_calls",
    "Whasm.C83_parsed",
    "Whasm.C83_else"
   ],
   "note": "parsed modules, and modules built by hand without Else (C83_else shows why); the rules are Spec/Reduce"
  },
  {
   "property": "C84",
   "status": "proved",
   "theorems": [
    "Whasm.C84_types",
    "Whasm.C84_dead",
    "Whasm.C84_next",
    "Whasm.C84_called"
   ],
   "note": "parsed modules, and modules built by hand without Else"
  },
  {
   "property": "C85",
   "status": "proved",
   "theorems": [
    "Whasm.C85_principal",
    "Whasm.C85_reject",
    "Whasm.C85_early"
   ],
   "note": "code without stray End and Else; a place is given by the instructions before it (SameBefore)"
  },
  {
   "property": "C86",
   "status": "partial",
   "theorems": [
    "Whasm.C86_assembled_partial",
    "Whasm.C86_linker_partial",
    "Whasm.C86_negation"
   ],
   "note": "false of the code (C86_negation): initializers of globals look up the own globals; proved if initializers find the same, and for a linker"
  },
  {
   "property": "C87",
   "status": "partial",
   "theorems": [
    "Whasm.C87_lines_partial",
    "Whasm.C87_depth_partial",
    "Whasm.C87_bytes_partial",
    "Whasm.C87_lower_partial",
    "Whasm.C87_quadratic_partial",
    "Whasm.C87_negation",
    "Whasm.C87_deep_partial"
   ],
   "note": "false of the code (C87_negation): indentation is quadratic in the nesting; proved: lines are linear, characters at most parts times depth"
  },
  {
   "property": "C88",
   "status": "proved",
   "theorems": [
    "Whasm.C88_parse",
    "Whasm.C88_success",
    "Whasm.C88_rest",
    "Whasm.C88_tool",
    "Whasm.C88_exact",
    "Whasm.C88_needed"
   ],
   "note": "bytes of native stack per level of blocks; sizes of the frames are parameters"
  },
  {
   "property": "C89",
   "status": "proved",
   "theorems": [
    "Whasm.C89_types",
    "Whasm.C89_containers",
    "Whasm.C89_expr",
    "Whasm.C89_items",
    "Whasm.C89_module"
   ],
   "note": "the derive macro, which is not in the repository, is modelled by its documentation"
  },
  {
   "property": "C90",
   "status": "proved",
   "theorems": [
    "Whasm.C90_expr",
    "Whasm.C90_module",
    "Whasm.C90_parsed",
    "Whasm.C90_tool"
   ],
   "note": "the text of floats and the set of characters that are escaped by number are parameters"
  },
  {
   "property": "C91",
   "status": "partial",
   "theorems": [
    "Whasm.C91_exact_partial",
    "Whasm.C91_complete_partial",
    "Whasm.C91_sound_partial",
    "Whasm.C91_common_partial",
    "Whasm.C91_shortest_partial",
    "Whasm.C91_negation"
   ],
   "note": "false of the code (C91_negation) in both directions; the partial theorems say exactly for which modules, and that it holds where the crate and the document agree"
  },
  {
   "property": "C92",
   "status": "proved",
   "theorems": [
    "Whasm.C92_exact",
    "Whasm.C92_parsed",
    "Whasm.C92_equal",
    "Whasm.C92_symmetric",
    "Whasm.C92_needed"
   ],
   "note": "bytes of native stack per level of blocks; sizes of the frames are parameters"
  },
  {
   "property": "C93",
   "status": "proved",
   "theorems": [
    "Whasm.C93_expr",
    "Whasm.C93_module",
    "Whasm.C93_otherwise",
    "Whasm.C93_append",
    "Whasm.C93_nesting",
    "Whasm.C93_tool",
    "Whasm.C93_bytes"
   ],
   "note": "the native stack is measured in nested blocks, for the tool in bytes per level"
  },
  {
   "property": "C94",
   "status": "proved",
   "theorems": [
    "Whasm.C94_expr",
    "Whasm.C94_module",
    "Whasm.C94_otherwise",
    "Whasm.C94_valid",
    "Whasm.C94_more",
    "Whasm.C94_tool"
   ],
   "note": "the native stack is measured in nested blocks, for the tool in bytes per level"
  },
  {
   "property": "C95",
   "status": "proved",
   "theorems": [
    "Whasm.C95_arguments",
    "Whasm.C95_run",
    "Whasm.C95_cases",
    "Whasm.C95_endless",
    "Whasm.C95_settled",
    "Whasm.C95_calls",
    "Whasm.C95_zero",
    "Whasm.C95_one",
    "Whasm.C95_codes",
    "Whasm.C95_prefix"
   ],
   "note": "println!, read_to_end and env::args by their documentation; memory and the native stack are unlimited here"
  },
  {
   "property": "C96",
   "status": "partial",
   "theorems": [
    "Whasm.C96_same_partial",
    "Whasm.C96_enough_partial",
    "Whasm.C96_lower_partial",
    "Whasm.C96_exact_partial",
    "Whasm.C96_bytes_partial",
    "Whasm.C96_worst_partial",
    "Whasm.C96_target_partial",
    "Whasm.C96_target32_partial",
    "Whasm.C96_tool_partial",
    "Whasm.C96_tool64_partial",
    "Whasm.C96_file_partial",
    "Whasm.C96_negation"
   ],
   "note": "false of the code (C96_negation): 30 bytes need 2^32-1 entries; proved is exactly when validation and the tool are aborted, given an entry for each byte otherwise"
  },
  {
   "property": "C97",
   "status": "proved",
   "theorems": [
    "Whasm.C97_defined",
    "Whasm.C97_outside",
    "Whasm.C97_value",
    "Whasm.C97_same",
    "Whasm.C97_exact"
   ],
   "note": "addresses, bounds and initialisation; the rules on aliasing are not modelled"
  },
  {
   "property": "C98",
   "status": "proved",
   "theorems": [
    "Whasm.C98_call",
    "Whasm.C98_instantiate",
    "Whasm.C98_history",
    "Whasm.C98_blind_call",
    "Whasm.C98_blind_instantiate",
    "Whasm.C98_apart"
   ],
   "note": "for modules whose global initializers follow the document, see C70; an instance is in a part as a whole"
  },
  {
   "property": "C99",
   "status": "proved",
   "theorems": [
    "Whasm.C99_requests",
    "Whasm.C99_right",
    "Whasm.C99_zero",
    "Whasm.C99_one",
    "Whasm.C99_written",
    "Whasm.C99_enough",
    "Whasm.C99_module",
    "Whasm.C99_needed"
   ],
   "note": "what has a fixed size is asked for once per phase; what is freed is not told to the machine"
  },
  {
   "property": "C100",
   "status": "proved",
   "theorems": [
    "Whasm.C100_rules",
    "Whasm.C100_reading",
    "Whasm.C100_body",
    "Whasm.C100_valid",
    "Whasm.C100_module",
    "Whasm.C100_step",
    "Whasm.C100_file_rules",
    "Whasm.C100_file",
    "Whasm.C100_file_w3c",
    "Whasm.C100_file_answer"
   ],
   "note": "relative to the labels and the alignment rule of the crate, which differ from the document by C43 and C31"
  },
  {
   "property": "C101",
   "status": "partial",
   "theorems": [
    "Whasm.C101_reading",
    "Whasm.C101_exact",
    "Whasm.C101_w3c",
    "Whasm.C101_older",
    "Whasm.C101_later_partial",
    "Whasm.C101_negation",
    "Whasm.C101_elem_negation",
    "Whasm.C101_data_negation"
   ],
   "note": "false: alignments from 64 on, and more than one table or memory, are accepted and may mean something else in later versions"
  },
  {
   "property": "C102",
   "status": "proved",
   "theorems": [
    "Whasm.C102_activation",
    "Whasm.C102_stack",
    "Whasm.C102_room",
    "Whasm.C102_total",
    "Whasm.C102_calls"
   ],
   "note": "every state of execution by the rules of the document; hand-built modules may not have an else mark"
  },
  {
   "property": "C103",
   "status": "proved",
   "theorems": [
    "Whasm.C103_spread",
    "Whasm.C103_joined",
    "Whasm.C103_line",
    "Whasm.C103_expr",
    "Whasm.C103_same",
    "Whasm.C103_exact",
    "Whasm.C103_tool",
    "Whasm.C103_length",
    "Whasm.C103_bytes",
    "Whasm.C103_deep"
   ],
   "note": "the text of floats is a parameter: any words, of at most n characters for the bound on the length"
  },
  {
   "property": "C104",
   "status": "proved",
   "theorems": [
    "Whasm.C104_layout",
    "Whasm.C104_branch",
    "Whasm.C104_end",
    "Whasm.C104_enter"
   ],
   "note": "every state of execution by the rules of the document; hand-built modules may not have an else mark"
  },
  {
   "property": "C105",
   "status": "proved",
   "theorems": [
    "Whasm.C105_progress",
    "Whasm.C105_slots",
    "Whasm.C105_ends",
    "Whasm.C105_flat"
   ],
   "note": "from every store of the right shape; hand-built modules may not have an else mark"
  },
  {
   "property": "C106",
   "status": "proved",
   "theorems": [
    "Whasm.C106_steps",
    "Whasm.C106_slots",
    "Whasm.C106_words"
   ],
   "note": "from every store of the right shape; hand-built modules may not have an else mark"
  },
  {
   "property": "C107",
   "status": "proved",
   "theorems": [
    "Whasm.C107_steps",
    "Whasm.C107_slots",
    "Whasm.C107_stream",
    "Whasm.C107_file"
   ],
   "note": "from every store of the right shape; hand-built modules may not have an else mark"
  },
  {
   "property": "C108",
   "status": "proved",
   "theorems": [
    "Whasm.C108_steps",
    "Whasm.C108_registers",
    "Whasm.C108_file"
   ],
   "note": "from every store of the right shape; the machine has as many registers as are needed; hand-built modules may not have an else mark"
  },
  {
   "property": "C109",
   "status": "proved",
   "theorems": [
    "Whasm.C109_size",
    "Whasm.C109_file_size",
    "Whasm.C109_steps",
    "Whasm.C109_frames",
    "Whasm.C109_space",
    "Whasm.C109_file"
   ],
   "note": "from every store of the right shape; calls may be nested as deep as they like, so the row of words has no end; hand-built modules may not have an else mark"
  },
  {
   "property": "C110",
   "status": "proved",
   "theorems": [
    "Whasm.C110_sound",
    "Whasm.C110_exhausted",
    "Whasm.C110_enough",
    "Whasm.C110_bounded",
    "Whasm.C110_ends",
    "Whasm.C110_file"
   ],
   "note": "from every store of the right shape; the list of words holds registers only, places in the code of waiting calls are kept beside it; hand-built modules may not have an else mark"
  },
  {
   "property": "C111",
   "status": "proved",
   "theorems": [
    "Whasm.C111_code",
    "Whasm.C111_verdict",
    "Whasm.C111_tree",
    "Whasm.C111_pass",
    "Whasm.C111_file",
    "Whasm.C111_results"
   ],
   "note": "the declarations are taken as checked beside the pass over the bodies; results from every store of the right shape"
  },
  {
   "property": "C112",
   "status": "proved",
   "theorems": [
    "Whasm.C112_complete",
    "Whasm.C112_rules",
    "Whasm.C112_early",
    "Whasm.C112_bytes",
    "Whasm.C112_body",
    "Whasm.C112_short",
    "Whasm.C112_translate"
   ],
   "note": ""
  },
  {
   "property": "C113",
   "status": "proved",
   "theorems": [
    "Whasm.C113_opcodes",
    "Whasm.C113_registers",
    "Whasm.C113_marked",
    "Whasm.C113_results",
    "Whasm.C113_room",
    "Whasm.C113_file"
   ],
   "note": ""
  },
  {
   "property": "C114",
   "status": "proved",
   "theorems": [
    "Whasm.C114_code",
    "Whasm.C114_step",
    "Whasm.C114_inside",
    "Whasm.C114_module"
   ],
   "note": ""
  },
  {
   "property": "C115",
   "status": "proved",
   "theorems": [
    "Whasm.C115_registers",
    "Whasm.C115_uses",
    "Whasm.C115_module"
   ],
   "note": ""
  }
 ]
}