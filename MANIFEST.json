{
 "claims": [
  {
   "property": "C01",
   "status": "proved",
   "theorems": [
    "Pest3.Props.C01_position_new",
    "Pest3.Props.C01_span_new",
    "Pest3.Props.C01_byte_test"
   ],
   "note": ""
  },
  {
   "property": "C02",
   "status": "proved",
   "theorems": [
    "Pest3.Props.C02_cursor_op",
    "Pest3.Props.C02_cursor_history"
   ],
   "note": ""
  },
  {
   "property": "C03",
   "status": "proved",
   "theorems": [
    "Pest3.Props.C03_match_string"
   ],
   "note": ""
  },
  {
   "property": "C04",
   "status": "proved",
   "theorems": [
    "Pest3.Props.C04_match_insensitive",
    "Pest3.Props.C04_fold_is_ascii"
   ],
   "note": ""
  },
  {
   "property": "C05",
   "status": "proved",
   "theorems": [
    "Pest3.Props.C05_match_range",
    "Pest3.Props.C05_match_char_by",
    "Pest3.Props.C05_next_char"
   ],
   "note": ""
  },
  {
   "property": "C06",
   "status": "proved",
   "theorems": [
    "Pest3.Props.C06_skip",
    "Pest3.Props.C06_skip_back",
    "Pest3.Props.C06_skip_then_back",
    "Pest3.Props.C06_back_then_skip"
   ],
   "note": ""
  },
  {
   "property": "C07",
   "status": "proved",
   "theorems": [
    "Pest3.Props.C07_line_col"
   ],
   "note": ""
  },
  {
   "property": "C08",
   "status": "proved",
   "theorems": [
    "Pest3.Props.C08_line_of",
    "Pest3.Props.C08_line_of_col"
   ],
   "note": ""
  },
  {
   "property": "C09",
   "status": "proved",
   "theorems": [
    "Pest3.Props.C09_as_str",
    "Pest3.Props.C09_split",
    "Pest3.Props.C09_get"
   ],
   "note": ""
  },
  {
   "property": "C10",
   "status": "proved",
   "theorems": [
    "Pest3.Props.C10_merge",
    "Pest3.Props.C10_merge_comm"
   ],
   "note": ""
  },
  {
   "property": "C11",
   "status": "proved",
   "theorems": [
    "Pest3.Props.C11_lines_partition",
    "Pest3.Props.C11_lines_of_span",
    "Pest3.Props.C11_iterator_exhausted",
    "Pest3.Props.C11_extra_line_witness"
   ],
   "note": "For arbitrary spans the exact set of yielded lines is proved; a span ending at a line start also yields the following line (witness theorem)."
  },
  {
   "property": "C12",
   "status": "partial",
   "theorems": [
    "Pest3.Props.C12_span_partial",
    "Pest3.Props.C12_empty_input_witness",
    "Pest3.Props.C12_position",
    "Pest3.Props.C12_written"
   ],
   "note": "Rendering a span never panics on a non-empty input and rendering a position never panics; a span of the empty input panics (witness theorem C12_empty_input_witness)."
  },
  {
   "property": "C13",
   "status": "partial",
   "theorems": [
    "Pest3.Props.C13_rows",
    "Pest3.Props.C13_span",
    "Pest3.Props.C13_marked_text",
    "Pest3.Props.C13_line_numbers_partial",
    "Pest3.Props.C13_line_witness",
    "Pest3.Props.C13_position"
   ],
   "note": "The marked text is exactly the span's text and every shown line is the text of the input; the line number is right except when the span starts at the beginning of a line, where the previous line is shown first (witness theorem C13_line_witness)."
  },
  {
   "property": "C14",
   "status": "proved",
   "theorems": [
    "Pest3.Props.C14_digits",
    "Pest3.Props.C14_gutter"
   ],
   "note": ""
  },
  {
   "property": "C15",
   "status": "proved",
   "theorems": [
    "Pest3.Props.C15_visualize",
    "Pest3.Props.C15_distinct"
   ],
   "note": ""
  },
  {
   "property": "C16",
   "status": "proved",
   "theorems": [
    "Pest3.Props.C16_described",
    "Pest3.Props.C16_success_iff",
    "Pest3.Props.C16_recognise_iff",
    "Pest3.Props.C16_failure_iff",
    "Pest3.Props.C16_diverges_iff",
    "Pest3.Props.C16_try_parse_prefix"
   ],
   "note": ""
  },
  {
   "property": "C17",
   "status": "proved",
   "theorems": [
    "Pest3.Props.C17_runs_agree",
    "Pest3.Props.C17_stable",
    "Pest3.Props.C17_deterministic",
    "Pest3.Props.C17_spec"
   ],
   "note": ""
  },
  {
   "property": "C18",
   "status": "proved",
   "theorems": [
    "Pest3.Props.C18_accept_iff",
    "Pest3.Props.C18_reject_iff",
    "Pest3.Props.C18_diverge_iff",
    "Pest3.Props.C18_check_prefix",
    "Pest3.Props.C18_check"
   ],
   "note": ""
  },
  {
   "property": "C19",
   "status": "proved",
   "theorems": [
    "Pest3.Props.C19_try_parse_iff",
    "Pest3.Props.C19_error_iff"
   ],
   "note": ""
  },
  {
   "property": "C20",
   "status": "proved",
   "theorems": [
    "Pest3.Props.C20_forward"
   ],
   "note": ""
  },
  {
   "property": "C21",
   "status": "proved",
   "theorems": [
    "Pest3.Props.C21_no_panic",
    "Pest3.Props.C21_entry_points"
   ],
   "note": ""
  },
  {
   "property": "C22",
   "status": "proved",
   "theorems": [
    "Pest3.Props.C22_choice_iff",
    "Pest3.Props.C22_choice_fails_iff"
   ],
   "note": ""
  },
  {
   "property": "C23",
   "status": "proved",
   "theorems": [
    "Pest3.Props.C23_sequence_iff",
    "Pest3.Props.C23_sequence_text",
    "Pest3.Props.C23_sequence_fails_iff"
   ],
   "note": ""
  },
  {
   "property": "C24",
   "status": "proved",
   "theorems": [
    "Pest3.Props.C24_repetition_iff",
    "Pest3.Props.C24_repetition_fails_iff"
   ],
   "note": ""
  },
  {
   "property": "C25",
   "status": "proved",
   "theorems": [
    "Pest3.Props.C25_optional_iff",
    "Pest3.Props.C25_optional_never_fails"
   ],
   "note": ""
  },
  {
   "property": "C26",
   "status": "proved",
   "theorems": [
    "Pest3.Props.C26_positive_iff",
    "Pest3.Props.C26_positive_fails_iff",
    "Pest3.Props.C26_negative_iff",
    "Pest3.Props.C26_negative_fails_iff",
    "Pest3.Props.C26_stack_restored"
   ],
   "note": ""
  },
  {
   "property": "C27",
   "status": "proved",
   "theorems": [
    "Pest3.Props.C27_balanced"
   ],
   "note": ""
  },
  {
   "property": "C28",
   "status": "proved",
   "theorems": [
    "Pest3.Props.C28_push_iff",
    "Pest3.Props.C28_push_fails_iff",
    "Pest3.Props.C28_peek",
    "Pest3.Props.C28_pop",
    "Pest3.Props.C28_drop",
    "Pest3.Props.C28_empty",
    "Pest3.Props.C28_peek_all",
    "Pest3.Props.C28_pop_all",
    "Pest3.Props.C28_slice",
    "Pest3.Props.C28_slice_open"
   ],
   "note": ""
  },
  {
   "property": "C29",
   "status": "proved",
   "theorems": [
    "Pest3.Props.C29_rule_span"
   ],
   "note": ""
  },
  {
   "property": "C30",
   "status": "proved",
   "theorems": [
    "Pest3.Props.C30_nested",
    "Pest3.Props.C30_pair_tree"
   ],
   "note": ""
  },
  {
   "property": "C31",
   "status": "proved",
   "theorems": [
    "Pest3.Props.C31_emits",
    "Pest3.Props.C31_rule",
    "Pest3.Props.C31_vec_children",
    "Pest3.Props.C31_push_differs"
   ],
   "note": ""
  },
  {
   "property": "C32",
   "status": "proved",
   "theorems": [
    "Pest3.Props.C32_shape",
    "Pest3.Props.C32_labels",
    "Pest3.Props.C32_id",
    "Pest3.Props.C32_comp",
    "Pest3.Props.C32_unique",
    "Pest3.Props.C32_super_rule"
   ],
   "note": ""
  },
  {
   "property": "C33",
   "status": "proved",
   "theorems": [
    "Pest3.Props.C33_events_exist",
    "Pest3.Props.C33_furthest",
    "Pest3.Props.C33_furthest_check",
    "Pest3.Props.C33_try_parse"
   ],
   "note": ""
  },
  {
   "property": "C34",
   "status": "proved",
   "theorems": [
    "Pest3.Props.C34_listed",
    "Pest3.Props.C34_try_parse"
   ],
   "note": ""
  },
  {
   "property": "C35",
   "status": "proved",
   "theorems": [
    "Pest3.Props.C35_independent",
    "Pest3.Props.C35_independent_failure",
    "Pest3.Props.C35_restored"
   ],
   "note": ""
  },
  {
   "property": "C36",
   "status": "proved",
   "theorems": [
    "Pest3.Props.C36_collect",
    "Pest3.Props.C36_after_parse",
    "Pest3.Props.C36_try_parse",
    "Pest3.Props.C36_shown"
   ],
   "note": ""
  },
  {
   "property": "C37",
   "status": "proved",
   "theorems": [
    "Pest3.Props.C37_moved",
    "Pest3.Props.C37_fails_iff",
    "Pest3.Props.C37_prepend",
    "Pest3.Props.C37_prepend_fails",
    "Pest3.Props.C37_prepend_returns_iff"
   ],
   "note": ""
  },
  {
   "property": "C38",
   "status": "proved",
   "theorems": [
    "Pest3.Props.C38_returns_iff",
    "Pest3.Props.C38_left_recursion",
    "Pest3.Props.C38_terminates",
    "Pest3.Props.C38_entry_points"
   ],
   "note": ""
  },
  {
   "property": "C39",
   "status": "proved",
   "theorems": [
    "Pest3.Props.C39_unbounded",
    "Pest3.Props.C39_consuming_bound"
   ],
   "note": ""
  },
  {
   "property": "C40",
   "status": "proved",
   "theorems": [
    "Pest3.Props.C40_never_fails",
    "Pest3.Props.C40_agrees",
    "Pest3.Props.C40_no_panic",
    "Pest3.Props.C40_parse_prefix",
    "Pest3.Props.C40_empty"
   ],
   "note": ""
  },
  {
   "property": "C41",
   "status": "proved",
   "theorems": [
    "Pest3.Props.C41_string",
    "Pest3.Props.C41_import_path",
    "Pest3.Props.C41_functional",
    "Pest3.Props.C41_spelling",
    "Pest3.Props.C41_round_trip",
    "Pest3.Props.C41_round_trip_minimal",
    "Pest3.Props.C41_code",
    "Pest3.Props.C41_unicode"
   ],
   "note": ""
  },
  {
   "property": "C42",
   "status": "partial",
   "theorems": [
    "Pest3.Props.C42_raw_string_partial",
    "Pest3.Props.C42_pound_witness"
   ],
   "note": "Proved for raw strings without pounds; with pounds the literal denotes a double quote or a pound whatever its content (witness theorem C42_pound_witness)."
  },
  {
   "property": "C43",
   "status": "partial",
   "theorems": [
    "Pest3.Props.C43_range_partial",
    "Pest3.Props.C43_every_character",
    "Pest3.Props.C43_bad_escape",
    "Pest3.Props.C43_quote_witness"
   ],
   "note": "Proved for every pair of characters written escaped or plainly except the double quote written plainly, on which the code panics (witness theorem C43_quote_witness)."
  },
  {
   "property": "C44",
   "status": "proved",
   "theorems": [
    "Pest3.Props.C44_repeat",
    "Pest3.Props.C44_exact",
    "Pest3.Props.C44_satisfiable",
    "Pest3.Props.C44_slice"
   ],
   "note": ""
  },
  {
   "property": "C45",
   "status": "partial",
   "theorems": [
    "Pest3.Props.C45_replace_partial",
    "Pest3.Props.C45_exactly_partial",
    "Pest3.Props.C45_untouched",
    "Pest3.Props.C45_eliminated_partial",
    "Pest3.Props.C45_call_witness"
   ],
   "note": "Proved for expressions in which no call has the parameter in two of its arguments; Expr::replace stops at the first argument of a call that contains it, so f(x, x) keeps the second x (witness theorem C45_call_witness). The reported flag and the untouched case are proved without this restriction. The condition under which the code does what is claimed is exact: C45_exactly_partial."
  },
  {
   "property": "C46",
   "status": "partial",
   "theorems": [
    "Pest3.Props.C46_call_partial",
    "Pest3.Props.C46_meaning_partial",
    "Pest3.Props.C46_rules",
    "Pest3.Props.C46_terminates_partial",
    "Pest3.Props.C46_generated_partial",
    "Pest3.Props.C46_capture",
    "Pest3.Props.C46_other_module",
    "Pest3.Props.C46_moved_body",
    "Pest3.Props.C46_unused_parameter",
    "Pest3.Props.C46_nested_argument",
    "Pest3.Props.C46_arity",
    "Pest3.Props.C46_recursion"
   ],
   "note": "Proved for grammars satisfying the Hygienic conditions of Verif/InlineSpec.lean, down to the generated parser (C46_generated_partial). The full claim is false in the code: witness theorems C46_capture, C46_other_module, C46_moved_body, C46_unused_parameter, C46_nested_argument, C46_arity, C46_recursion."
  },
  {
   "property": "C47",
   "status": "proved",
   "theorems": [
    "Pest3.Props.C47_dependencies",
    "Pest3.Props.C47_parsed_once",
    "Pest3.Props.C47_module",
    "Pest3.Props.C47_import",
    "Pest3.Props.C47_joined",
    "Pest3.Props.C47_nested_incomplete"
   ],
   "note": "About the module returned by parse. The dependency sets of imported modules themselves may be incomplete when files are shared (C47_nested_incomplete); the generator does not use them."
  },
  {
   "property": "C48",
   "status": "proved",
   "theorems": [
    "Pest3.Props.C48_loads_iff",
    "Pest3.Props.C48_cyclic",
    "Pest3.Props.C48_cyclic_diverges",
    "Pest3.Props.C48_acyclic_iff",
    "Pest3.Props.C48_error_source"
   ],
   "note": "The file system and the parser of single files are parameters of the model. Non-termination is: every finite amount of fuel is used up."
  },
  {
   "property": "C49",
   "status": "proved",
   "theorems": [
    "Pest3.Props.C49_cycles_boxed",
    "Pest3.Props.C49_finite_size",
    "Pest3.Props.C49_generated"
   ],
   "note": ""
  },
  {
   "property": "C50",
   "status": "proved",
   "theorems": [
    "Pest3.Props.C50_minimal",
    "Pest3.Props.C50_acyclic",
    "Pest3.Props.C50_generated"
   ],
   "note": ""
  },
  {
   "property": "C51",
   "status": "proved",
   "theorems": [
    "Pest3.Props.C51_collected",
    "Pest3.Props.C51_undefined_trivia"
   ],
   "note": ""
  },
  {
   "property": "C52",
   "status": "proved",
   "theorems": [
    "Pest3.Props.C52_exists",
    "Pest3.Props.C52_rule",
    "Pest3.Props.C52_instance",
    "Pest3.Props.C52_trivia",
    "Pest3.Props.C52_try_parse",
    "Pest3.Props.C52_cyclic_trivia",
    "Pest3.Props.C52_renamed_builtin"
   ],
   "note": "Two of the excluded cases are shown to be necessary: C52_cyclic_trivia (generated code that cannot be compiled) and C52_renamed_builtin (generated parser with another meaning)."
  },
  {
   "property": "C53",
   "status": "proved",
   "theorems": [
    "Pest3.Props.C53_accessors",
    "Pest3.Props.C53_value",
    "Pest3.Props.C53_answer_rule",
    "Pest3.Props.C53_no_getter"
   ],
   "note": "Order is the order of matching. References inside negative lookaheads and inside call arguments have no accessor. The types of accessor bodies follow the model of Rust field access and option/iterator methods in Verif/Accessor.lean."
  },
  {
   "property": "C54",
   "status": "proved",
   "theorems": [
    "Pest3.Props.C54_same_iff",
    "Pest3.Props.C54_definitions",
    "Pest3.Props.C54_grammar"
   ],
   "note": ""
  },
  {
   "property": "C55",
   "status": "proved",
   "theorems": [
    "Pest3.Props.C55_resolve_history",
    "Pest3.Props.C55_insert",
    "Pest3.Props.C55_accepts",
    "Pest3.Props.C55_grammar"
   ],
   "note": ""
  },
  {
   "property": "C56",
   "status": "proved",
   "theorems": [
    "Pest3.Props.C56_cmp",
    "Pest3.Props.C56_cmp_trans",
    "Pest3.Props.C56_other_input",
    "Pest3.Props.C56_equivalence",
    "Pest3.Props.C56_span_eq",
    "Pest3.Props.C56_span_other_input",
    "Pest3.Props.C56_span_equivalence",
    "Pest3.Props.C56_ord_eq_mismatch",
    "Pest3.Props.C56_cmp_panics"
   ],
   "note": "Coherence holds for positions of the same &str; for equal text at different addresses cmp and == disagree (witness theorem)."
  },
  {
   "property": "C57",
   "status": "proved",
   "theorems": [
    "Pest3.Props.C57_skip_until"
   ],
   "note": ""
  },
  {
   "property": "C58",
   "status": "partial",
   "theorems": [
    "Pest3.Props.C58_captured_partial",
    "Pest3.Props.C58_pop_span_not_matched"
   ],
   "note": "Proved for every leaf except that POP stores the span popped (same text, but the place it was pushed from): witness theorem C58_pop_span_not_matched."
  },
  {
   "property": "C59",
   "status": "proved",
   "theorems": [
    "Pest3.Props.C59_extension",
    "Pest3.Props.C59_default_path",
    "Pest3.Props.C59_injective",
    "Pest3.Props.C59_derive",
    "Pest3.Props.C59_other_extension",
    "Pest3.Props.C59_super_alone",
    "Pest3.Props.C59_explicit"
   ],
   "note": "For directories that are not themselves named *.pest. Other extensions of the grammar file (C59_other_extension) and `use super` alone (C59_super_alone) are shown to behave differently."
  },
  {
   "property": "C60",
   "status": "proved",
   "theorems": [
    "Pest3.Props.C60_message",
    "Pest3.Props.C60_try_parse"
   ],
   "note": ""
  },
  {
   "property": "C61",
   "status": "proved",
   "theorems": [
    "Pest3.Props.C61_terminates",
    "Pest3.Props.C61_accepts",
    "Pest3.Props.C61_rejects"
   ],
   "note": ""
  },
  {
   "property": "C62",
   "status": "proved",
   "theorems": [
    "Pest3.Props.C62_written",
    "Pest3.Props.C62_error",
    "Pest3.Props.C62_span_text",
    "Pest3.Props.C62_position_text"
   ],
   "note": ""
  },
  {
   "property": "C63",
   "status": "proved",
   "theorems": [
    "Pest3.Props.C63_reads",
    "Pest3.Props.C63_total",
    "Pest3.Props.C63_unambiguous",
    "Pest3.Props.C63_sequence_before_choice",
    "Pest3.Props.C63_to_the_right"
   ],
   "note": ""
  },
  {
   "property": "C64",
   "status": "proved",
   "theorems": [
    "Pest3.Props.C64_every_expression",
    "Pest3.Props.C64_no_other",
    "Pest3.Props.C64_rule",
    "Pest3.Props.C64_import"
   ],
   "note": ""
  },
  {
   "property": "C65",
   "status": "proved",
   "theorems": [
    "Pest3.Props.C65_exists",
    "Pest3.Props.C65_total",
    "Pest3.Props.C65_rule",
    "Pest3.Props.C65_deterministic",
    "Pest3.Props.C65_try_parse_prefix",
    "Pest3.Props.C65_try_parse",
    "Pest3.Props.C65_silent"
   ],
   "note": "Shows (Verif/ForestSpec.lean) is the specification. The program is any environment linked and labelled as the generated definitions say; C65_exists shows that there is one. Generated code is compared at the level of node types, as in C52."
  },
  {
   "property": "C66",
   "status": "partial",
   "theorems": [
    "Pest3.Props.C66_get_rule",
    "Pest3.Props.C66_distinct",
    "Pest3.Props.C66_value",
    "Pest3.Props.C66_value_iff",
    "Pest3.Props.C66_variants_partial",
    "Pest3.Props.C66_items_partial",
    "Pest3.Props.C66_clash",
    "Pest3.Props.C66_parameters_clash"
   ],
   "note": "The generator rejects clashes between rules and between rules and imports, but not with EOI, the trivia aliases, or between file imports: C66_variants_partial and C66_items_partial give the exact conditions, C66_clash and C66_parameters_clash are witnesses."
  },
  {
   "property": "C67",
   "status": "proved",
   "theorems": [
    "Pest3.Props.C67_decided",
    "Pest3.Props.C67_unique",
    "Pest3.Props.C67_items",
    "Pest3.Props.C67_accepted",
    "Pest3.Props.C67_no_panic",
    "Pest3.Props.C67_names",
    "Pest3.Props.C67_has_rule",
    "Pest3.Props.C67_world",
    "Pest3.Props.C67_default_path",
    "Pest3.Props.C67_path",
    "Pest3.Props.C67_import_slice",
    "Pest3.Props.C67_import_args_witness",
    "Pest3.Props.C67_quote_witness",
    "Pest3.Props.C67_as_witness",
    "Pest3.Props.C67_trivia_choice_witness",
    "Pest3.Props.C67_operator_rule_witness",
    "Pest3.Props.C67_use_tab_witness",
    "Pest3.Props.C67_slashes_witness"
   ],
   "note": "Pest 2 (the recogniser) is modelled after its documentation; the meta-grammar is transcribed rule by rule. Texts containing '\"' are excepted in all theorems but C67_decided, C67_unique, C67_accepted; C67_items also excepts raw strings with pounds. Witnesses for both exceptions and for other surprising texts are given."
  },
  {
   "property": "C68",
   "status": "proved",
   "theorems": [
    "Pest3.Props.C68_notation",
    "Pest3.Props.C68_unambiguous",
    "Pest3.Props.C68_every_grammar",
    "Pest3.Props.C68_leading_gap",
    "Pest3.Props.C68_expression",
    "Pest3.Props.C68_precedence",
    "Pest3.Props.C68_bar_witness",
    "Pest3.Props.C68_underscore_witness"
   ],
   "note": "The notation is specified on characters in Verif/NotationSpec.lean, without the meta-grammar. It does not cover all accepted texts: ~| for |, raw strings with # and the character '\"' (misread, C42/C43) are left out; C67 covers what is accepted. C68_bar_witness and C68_underscore_witness show texts outside the notation that are rejected."
  },
  {
   "property": "C69",
   "status": "partial",
   "theorems": [
    "Pest3.Props.C69_notation_partial",
    "Pest3.Props.C69_reads_partial",
    "Pest3.Props.C69_different_partial",
    "Pest3.Props.C69_documentation_partial",
    "Pest3.Props.C69_insensitive_witness",
    "Pest3.Props.C69_bounded_witness",
    "Pest3.Props.C69_bounded_string_witness",
    "Pest3.Props.C69_predicate_witness",
    "Pest3.Props.C69_quote_witness"
   ],
   "note": "The code violates the full claim: case-insensitive strings (C69_insensitive_witness), bounded repetitions (C69_bounded_witness, C69_bounded_string_witness), repeated predicates (C69_predicate_witness) and ranges ending in a double quote (C69_quote_witness). The theorems hold for all other writable expressions (Faithfully), for any choice of characters printed as they are."
  },
  {
   "property": "C70",
   "status": "partial",
   "theorems": [
    "Pest3.Props.C70_closed_partial",
    "Pest3.Props.C70_imports",
    "Pest3.Props.C70_distinct",
    "Pest3.Props.C70_rules_mod_witness",
    "Pest3.Props.C70_rules_mod_clash_witness",
    "Pest3.Props.C70_renamed_witness",
    "Pest3.Props.C70_parameter_witness",
    "Pest3.Props.C70_trivia_witness"
   ],
   "note": "The code violates the full claim: another name for the module of rules with imports (C70_rules_mod_witness) or equal to that of a generated module (C70_rules_mod_clash_witness), a single built-in under another name (C70_renamed_witness), a parameter called like an imported file (C70_parameter_witness), trivia with parameters (C70_trivia_witness). C70_imports and C70_distinct hold for every accepted grammar. The names of the Unicode properties in the library are a parameter."
  },
  {
   "property": "C71",
   "status": "partial",
   "theorems": [
    "Pest3.Props.C71_attributes",
    "Pest3.Props.C71_order",
    "Pest3.Props.C71_ignored",
    "Pest3.Props.C71_result_partial",
    "Pest3.Props.C71_succeeds",
    "Pest3.Props.C71_loads",
    "Pest3.Props.C71_file",
    "Pest3.Props.C71_root",
    "Pest3.Props.C71_boxed",
    "Pest3.Props.C71_unused_witness",
    "Pest3.Props.C71_inverted_witness"
   ],
   "note": "Proved except that every declared attribute has an effect, which the code violates: no_getter, box_rules_only_if_needed, no_span and no_warnings change nothing (C71_ignored, C71_boxed, C71_unused_witness), and the attribute box_all_rules, which is read but not declared, has the opposite effect (C71_inverted_witness). The environment, the file system and syn's notion of an identifier are parameters."
  },
  {
   "property": "C72",
   "status": "partial",
   "theorems": [
    "Pest3.Props.C72_identifiers_partial",
    "Pest3.Props.C72_needed",
    "Pest3.Props.C72_panics",
    "Pest3.Props.C72_words",
    "Pest3.Props.C72_rule_witness",
    "Pest3.Props.C72_import_witness"
   ],
   "note": "The full claim is false: a rule or parameter called _, self, Self, super or crate makes the generator panic (C72_rule_witness, C72_panics), and a file imported under the name of a keyword gives code that is not Rust (C72_import_witness). Proved: with other names all identifiers are made and valid (C72_identifiers_partial), the condition on names is exactly what is needed (C72_needed), and all names of loaded grammars are words (C72_words). Identifier tokens: format_ident! of the quote crate is modelled from its documentation; the external list of Unicode properties is assumed to have usable names."
  },
  {
   "property": "C73",
   "status": "partial",
   "theorems": [
    "Pest3.Props.C73_quoted_partial",
    "Pest3.Props.C73_accepted_partial",
    "Pest3.Props.C73_silent",
    "Pest3.Props.C73_named",
    "Pest3.Props.C73_distinct_partial",
    "Pest3.Props.C73_sequence_witness"
   ],
   "note": "The full claim is false for the operator -, which messages call `&` (C73_sequence_witness), the same as the predicate. Proved for all other rules: a quoted text is part of what is accepted (C73_quoted_partial), it is accepted (C73_accepted_partial; `_` if no name begins with it: C73_silent; `i` begins an insensitive string), names are distinct (C73_distinct_partial), other rules are called by their name (C73_named). The text of the message around the names is made by pest 2, which is not modelled."
  },
  {
   "property": "C74",
   "status": "proved",
   "theorems": [
    "Pest3.Props.C74_unique",
    "Pest3.Props.C74_written",
    "Pest3.Props.C74_unambiguous",
    "Pest3.Props.C74_every_text",
    "Pest3.Props.C74_names",
    "Pest3.Props.C74_variants",
    "Pest3.Props.C74_joined",
    "Pest3.Props.C74_indentation_witness",
    "Pest3.Props.C74_slashes_witness",
    "Pest3.Props.C74_trivia_witness",
    "Pest3.Props.C74_place_witness"
   ],
   "note": "Both directions: what is written as documentation according to the notation is read (C74_written, C74_unambiguous), and for every accepted text the documentation read is lines of the text in front of the rules (C74_every_text), under the names of the rules in order (C74_names). The effect on the generated enumeration is C74_variants; several grammars C74_joined. Findings: trimming loses indentation (C74_indentation_witness); a line of slashes is documentation (C74_slashes_witness); the documentation of the rules for trivia is lost (C74_trivia_witness)."
  },
  {
   "property": "C75",
   "status": "proved",
   "theorems": [
    "Pest3.Props.C75_accepted",
    "Pest3.Props.C75_parser",
    "Pest3.Props.C75_text"
   ],
   "note": "Composition of C68, C67, C47, C71, C61, C52, C65, C16 and C19. C75_accepted: when a parser is generated; C75_parser: what it accepts, which tokens it gives, what it rejects and on what it does not return; C75_text: for a grammar written in an attribute, from the characters of the text. The compiled program is described by Linked as in C52. Silent rules with parameters are excluded because of C46."
  },
  {
   "property": "C76",
   "status": "proved",
   "theorems": [
    "Pest3.Props.C76_determines",
    "Pest3.Props.C76_prefix",
    "Pest3.Props.C76_parsed"
   ],
   "note": "Debug of the enumerations is derived by rustc and modelled as documented. A rule called EOI would be a second variant of this name, which does not compile (C66)."
  },
  {
   "property": "C77",
   "status": "proved",
   "theorems": [
    "Pest3.Props.C77_items",
    "Pest3.Props.C77_erase",
    "Pest3.Props.C77_unique",
    "Pest3.Props.C77_file",
    "Pest3.Props.C77_rule",
    "Pest3.Props.C77_order",
    "Pest3.Props.C77_parts",
    "Pest3.Props.C77_paren_witness",
    "Pest3.Props.C77_trailing_witness"
   ],
   "note": "Reading with positions is modelled once more (Located), and shown to give the same grammar as without (C77_items, C77_erase). The spans are specified on the characters of the text only (LocatedSpec: Reading, RuleAt, SpanOk). C77_paren_witness and C77_trailing_witness show spans a reader would not expect: that of (a)* begins within the parentheses, and that of a name reaches over comments up to the next rule."
  },
  {
   "property": "C78",
   "status": "proved",
   "theorems": [
    "Pest3.Props.C78_fault",
    "Pest3.Props.C78_shown",
    "Pest3.Props.C78_item"
   ],
   "note": "Fault says what stands at the place of each message; C78_item shows in addition that the error is that which the notation RuleAt gives, the first one. Errors of reading itself (syntax errors) are C73."
  },
  {
   "property": "C79",
   "status": "proved",
   "theorems": [
    "Pest3.Props.C79_congruence",
    "Pest3.Props.C79_grammar",
    "Pest3.Props.C79_tokens",
    "Pest3.Props.C79_parser",
    "Pest3.Props.C79_choice_assoc",
    "Pest3.Props.C79_seq_assoc",
    "Pest3.Props.C79_dead",
    "Pest3.Props.C79_factor",
    "Pest3.Props.C79_guard",
    "Pest3.Props.C79_opt",
    "Pest3.Props.C79_predicates",
    "Pest3.Props.C79_nothing",
    "Pest3.Props.C79_bounds",
    "Pest3.Props.C79_one",
    "Pest3.Props.C79_unroll",
    "Pest3.Props.C79_split",
    "Pest3.Props.C79_prefix",
    "Pest3.Props.C79_range",
    "Pest3.Props.C79_caseless",
    "Pest3.Props.C79_unfold",
    "Pest3.Props.C79_choice_comm_witness",
    "Pest3.Props.C79_factor_right_witness",
    "Pest3.Props.C79_unroll_witness",
    "Pest3.Props.C79_neg_neg_witness",
    "Pest3.Props.C79_unfold_witness"
   ],
   "note": "C79_parser is about the derived parsers, through C75_parser; the laws are theorems about the meaning of expressions that C52 and C65 prove the generated parsers to have. Witnesses show which similar laws do not hold."
  },
  {
   "property": "C80",
   "status": "proved",
   "theorems": [
    "Pest3.Props.C80_total",
    "Pest3.Props.C80_loop",
    "Pest3.Props.C80_exclusive",
    "Pest3.Props.C80_parser",
    "Pest3.Props.C80_forever"
   ],
   "note": "C80_parser and C80_forever are about the derived parsers, through C75_parser. NotLeftRecursive is a sufficient condition and LeftRecursive a sufficient condition for the opposite; between them lie grammars that run forever on some texts only. Returning is with unbounded native stack and memory."
  },
  {
   "property": "C81",
   "status": "proved",
   "theorems": [
    "Pest3.Props.C81_ranks",
    "Pest3.Props.C81_total",
    "Pest3.Props.C81_exists",
    "Pest3.Props.C81_rule",
    "Pest3.Props.C81_deterministic",
    "Pest3.Props.C81_try_parse",
    "Pest3.Props.C81_rejects",
    "Pest3.Props.C81_parser"
   ],
   "note": "C81_parser is about derived parsers. Ranks and Numbered stand for the order and the values of the generated enumeration; C81_exists shows that the generated definitions are a program labelled so for every numbering. Silent rules with parameters, which are removed before generation, are left to C46, as in C75."
  },
  {
   "property": "C82",
   "status": "proved",
   "theorems": [
    "Pest3.Props.C82_generated",
    "Pest3.Props.C82_errors",
    "Pest3.Props.C82_parser",
    "Pest3.Props.C82_messages",
    "Pest3.Props.C82_tokens_unique",
    "Pest3.Props.C82_total",
    "Pest3.Props.C82_accepted",
    "Pest3.Props.C82_trivia",
    "Pest3.Props.C82_text",
    "Pest3.Props.C82_inside"
   ],
   "note": "Names are not confused: Hygienic, as in C46, which shows what happens otherwise. C82_parser and C82_messages are about derived parsers, C82_text about a grammar given as text; C82_inside shows with one grammar that the tokens inside silent rules without parameters, and in imported modules, are hidden."
  },
  {
   "property": "C83",
   "status": "proved",
   "theorems": [
    "Pest3.Props.C83_unique",
    "Pest3.Props.C83_total",
    "Pest3.Props.C83_none",
    "Pest3.Props.C83_plain",
    "Pest3.Props.C83_neat",
    "Pest3.Props.C83_type",
    "Pest3.Props.C83_value"
   ],
   "note": "For grammars whose names are as in C53 (AllNamed) and with accessors generated. Types are compared up to what `&T` refers to; that is C53."
  },
  {
   "property": "C84",
   "status": "proved",
   "theorems": [
    "Pest3.Props.C84_grammar",
    "Pest3.Props.C84_import_grammar",
    "Pest3.Props.C84_extension_grammar",
    "Pest3.Props.C84_renaming_grammar",
    "Pest3.Props.C84_exists",
    "Pest3.Props.C84_parser",
    "Pest3.Props.C84_import",
    "Pest3.Props.C84_extension",
    "Pest3.Props.C84_renaming",
    "Pest3.Props.C84_sources"
   ],
   "note": "C84_parser is for any relation between the rules of two grammars that keeps expressions up to references (Corresponds); C84_import, C84_extension and C84_renaming are instances. About derived parsers through C75_parser and C81. For grammars whose names are as in C61 (AllNamed) and without silent rules with parameters, which are replaced before."
  },
  {
   "property": "C85",
   "status": "proved",
   "theorems": [
    "Pest3.Props.C85_first",
    "Pest3.Props.C85_reject",
    "Pest3.Props.C85_apart",
    "Pest3.Props.C85_reorder",
    "Pest3.Props.C85_returns",
    "Pest3.Props.C85_grammar",
    "Pest3.Props.C85_parser",
    "Pest3.Props.C85_returns_witness",
    "Pest3.Props.C85_apart_witness"
   ],
   "note": "Begins is the least relation closed under the notation; it treats the stack as holding anything, and a ! as matching unless its operand surely matches there (Surely). Reordering in derived parsers is for rules without parameters (in rules with parameters the alternatives return only if the arguments do: C85_reorder has that as hypothesis). Errors are not compared."
  },
  {
   "property": "C86",
   "status": "proved",
   "theorems": [
    "Pest3.Props.C86_unused",
    "Pest3.Props.C86_place",
    "Pest3.Props.C86_errors",
    "Pest3.Props.C86_stack",
    "Pest3.Props.C86_tokens",
    "Pest3.Props.C86_again",
    "Pest3.Props.C86_parser",
    "Pest3.Props.C86_soi_witness",
    "Pest3.Props.C86_stack_witness"
   ],
   "note": "Uses is the least relation through rules, arguments and trivia; C86_unused is a check of the rules as written that excludes it. Errors (Tries) are compared as the events recorded, of which C81 says what the error is. C86_parser is for rules without parameters; the text after the token has to be the same, because lookahead may read it."
  },
  {
   "property": "C87",
   "status": "proved",
   "theorems": [
    "Pest3.Props.C87_comparisons",
    "Pest3.Props.C87_congruence",
    "Pest3.Props.C87_grammar",
    "Pest3.Props.C87_error",
    "Pest3.Props.C87_named",
    "Pest3.Props.C87_assoc",
    "Pest3.Props.C87_opt",
    "Pest3.Props.C87_predicates",
    "Pest3.Props.C87_nothing",
    "Pest3.Props.C87_bounds",
    "Pest3.Props.C87_unroll",
    "Pest3.Props.C87_literals",
    "Pest3.Props.C87_strings",
    "Pest3.Props.C87_dead",
    "Pest3.Props.C87_factor",
    "Pest3.Props.C87_neg_neg_witness",
    "Pest3.Props.C87_neg_pos_witness",
    "Pest3.Props.C87_guard_witness",
    "Pest3.Props.C87_dead_witness",
    "Pest3.Props.C87_unfold_witness"
   ],
   "note": "Comparing events by equality gives C87_error, comparing them by the set of reports C87_named; the laws are stated for all grammars, places and enclosing rules. The refusals are witnesses in a grammar with one rule, for every numbering of the rules."
  },
  {
   "property": "C88",
   "status": "proved",
   "theorems": [
    "Pest3.Props.C88_grammar",
    "Pest3.Props.C88_mute",
    "Pest3.Props.C88_expected",
    "Pest3.Props.C88_silent_witness"
   ],
   "note": "C88_expected is the claim for derived parsers, C88_grammar for expressions; C88_silent_witness is the grammar whose error names nothing."
  },
  {
   "property": "C89",
   "status": "proved",
   "theorems": [
    "Pest3.Props.C89_counter",
    "Pest3.Props.C89_linear",
    "Pest3.Props.C89_same",
    "Pest3.Props.C89_parser",
    "Pest3.Props.C89_exponential_witness"
   ],
   "note": "C89_linear is the claim for grammars, C89_parser for derived parsers; C89_counter and C89_same connect the number with the executable model run with a tracker that counts; C89_exponential_witness is the grammar for which the number doubles. What is counted are applications of rules (calls of record_option_during_with), not comparisons of characters."
  },
  {
   "property": "C90",
   "status": "proved",
   "theorems": [
    "Pest3.Props.C90_blanks",
    "Pest3.Props.C90_blanks_end",
    "Pest3.Props.C90_blanks_parser",
    "Pest3.Props.C90_blanks_language",
    "Pest3.Props.C90_list",
    "Pest3.Props.C90_sound",
    "Pest3.Props.C90_complete",
    "Pest3.Props.C90_unique",
    "Pest3.Props.C90_next",
    "Pest3.Props.C90_context_free",
    "Pest3.Props.C90_parser",
    "Pest3.Props.C90_only",
    "Pest3.Props.C90_language",
    "Pest3.Props.C90_nested",
    "Pest3.Props.C90_order_witness"
   ],
   "note": "C90_sound is (1), C90_complete, C90_unique and C90_next are (2), C90_context_free is (3), C90_blanks and C90_blanks_end are (4); C90_parser, C90_only, C90_language, C90_blanks_parser and C90_blanks_language are about derived parsers, C90_nested and C90_list are examples, C90_order_witness the counterexample. In (4) texts have at most usize::MAX characters, as all texts in memory do."
  },
  {
   "property": "C91",
   "status": "partial",
   "theorems": [
    "Pest3.Props.C91_same_partial",
    "Pest3.Props.C91_three_witness",
    "Pest3.Props.C91_end_witness"
   ],
   "note": "C91_same_partial: never panics, and says exactly where the results are the same: unless a single empty string is looked for at the end, or an empty string is the last of three whose others are not empty and the text begins with the first byte of neither. The witnesses show the two differences (the test s3.is_empty() lacks a negation). The feature is not declared in Cargo.toml, so the variant is never compiled."
  },
  {
   "property": "C92",
   "status": "partial",
   "theorems": [
    "Pest3.Props.C92_build",
    "Pest3.Props.C92_methods",
    "Pest3.Props.C92_parse",
    "Pest3.Props.C92_grammar_partial",
    "Pest3.Props.C92_halts",
    "Pest3.Props.C92_wide",
    "Pest3.Props.C92_range_witness",
    "Pest3.Props.C92_control_witness",
    "Pest3.Props.C92_choice_witness",
    "Pest3.Props.C92_item_witness",
    "Pest3.Props.C92_loop"
   ],
   "note": "C92_build, C92_methods, C92_halts and C92_loop hold in full. C92_parse says exactly what parse does with ranges below U+0080: the index never goes back. C92_grammar_partial: it agrees with the rule if alternatives followed by others, and items of repetitions, do not fail after having taken something. The witnesses show that otherwise it does not (C92_choice_witness, C92_item_witness), and that ranges naming a character above U+007F reject what they name (C92_wide, C92_range_witness: bytes are read as a little-endian number and compared with code points) and near control characters take others that they do not name (C92_control_witness). Nothing calls the state builder yet."
  },
  {
   "property": "C93",
   "status": "partial",
   "theorems": [
    "Pest3.Json.C93_files",
    "Pest3.Json.C93_parser",
    "Pest3.Json.C93_rfc_partial",
    "Pest3.Json.C93_comma_witness",
    "Pest3.Json.C93_escape_witness",
    "Pest3.Json.C93_control_witness",
    "Pest3.Json.C93_gap_witness"
   ],
   "note": "C93_files reads the two files with the model of the grammar reader; C93_parser says exactly which texts the generated parser accepts (JsonText sample) and that it rejects all others. The language differs from RFC 8259 in four points, so acceptance of RFC 8259 exactly is false: C93_rfc_partial brackets it from both sides, and the four witnesses show the differences (blanks before the second comma of an array and small hexadecimal digits are rejected; control characters in strings and blanks after a decimal point are accepted)."
  },
  {
   "property": "C94",
   "status": "partial",
   "theorems": [
    "Pest3.Calc.C94_files",
    "Pest3.Calc.C94_parser",
    "Pest3.Calc.C94_free_partial",
    "Pest3.Calc.C94_room_witness",
    "Pest3.Calc.C94_signs_witness",
    "Pest3.Calc.C94_marks_witness"
   ],
   "note": "C94_files reads the two files with the model of the grammar reader; C94_parser says exactly which texts the generated parser accepts (Program sample) and that it rejects all others. Blanks are not allowed everywhere, so the claim as stated is false: C94_free_partial shows that all accepted texts are expressions and that expressions are accepted unless blanks stand between two minus signs, between two marks or between a mark and an operator; the three witnesses show expressions that are rejected."
  },
  {
   "property": "C95",
   "status": "proved",
   "theorems": [
    "Pest3.Csv.C95_grammar",
    "Pest3.Csv.C95_parser",
    "Pest3.Csv.C95_rows"
   ],
   "note": "C95_grammar reads the text of the attribute with the model of the grammar reader; C95_parser gives the language and the tokens of the generated parser; C95_rows says that rows and cells are determined by the text."
  },
  {
   "property": "C96",
   "status": "proved",
   "theorems": [
    "Pest3.Skip.C96_grammars",
    "Pest3.Skip.C96_skip",
    "Pest3.Skip.C96_reader"
   ],
   "note": "C96_grammars reads the texts of the attributes with the model of the grammar reader; C96_skip and C96_reader give the languages of the generated parsers."
  },
  {
   "property": "C97",
   "status": "proved",
   "theorems": [
    "Pest3.Stk.C97_file",
    "Pest3.Stk.C97_stack"
   ],
   "note": "C97_file reads the file with the model of the grammar reader; C97_stack gives the language of each rule."
  },
  {
   "property": "C98",
   "status": "proved",
   "theorems": [
    "Pest3.Stk.C98_languages"
   ],
   "note": "C98_languages gives the language of each rule of the file that is not in C97 (but the trivia rules); that the file is read as these rules is C97_file, that a parser is generated C97_stack."
  },
  {
   "property": "C99",
   "status": "proved",
   "theorems": [
    "Pest3.Records.C99_grammar",
    "Pest3.Records.C99_parser",
    "Pest3.Records.C99_records"
   ],
   "note": "C99_grammar reads the text of the grammar, C99_parser gives the languages and the tokens (through C82), C99_records says that the records are determined by the text."
  },
  {
   "property": "C100",
   "status": "proved",
   "theorems": [
    "Pest3.Small.C100_grammars",
    "Pest3.Small.C100_issue",
    "Pest3.Small.C100_sequences"
   ],
   "note": "C100_grammars reads the texts of the grammars, C100_issue and C100_sequences give the languages (through C75 and C52)."
  },
  {
   "property": "C101",
   "status": "proved",
   "theorems": [
    "Pest3.Imported.C101_grammar",
    "Pest3.Imported.C101_parser",
    "Pest3.Imported.C101_directory_witness"
   ],
   "note": "C101_grammar reads the text, C101_parser gives the languages (through C75), C101_directory_witness is about directories called ….pest."
  },
  {
   "property": "C102",
   "status": "proved",
   "theorems": [
    "Pest3.Place.C102_place",
    "Pest3.Place.C102_grammars",
    "Pest3.Place.C102_custom",
    "Pest3.Place.C102_usual"
   ],
   "note": "C102_place for all declarations; C102_grammars, C102_custom and C102_usual for the tests. That the name does not clash with other modules is C70."
  }
 ]
}