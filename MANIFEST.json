{
 "claims": [
  {
   "property": "C01",
   "status": "proved",
   "theorems": [
    "RJ.C01_round_trip_exactly",
    "RJ.C01_round_trip_iff",
    "RJ.C01_round_trip",
    "RJ.C01_counterexample"
   ],
   "note": "the unrestricted statement is false of the code (counterexample proved); proved with the exact condition under which it holds"
  },
  {
   "property": "C02",
   "status": "proved",
   "theorems": [
    "RJ.C02_to_string_denotes"
   ],
   "note": ""
  },
  {
   "property": "C03",
   "status": "proved",
   "theorems": [
    "RJ.C03_printable_ascii"
   ],
   "note": ""
  },
  {
   "property": "C04",
   "status": "proved",
   "theorems": [
    "RJ.C04_order_independent",
    "RJ.C04_sorted_members",
    "RJ.C04_byte_order_is_code_order"
   ],
   "note": ""
  },
  {
   "property": "C05",
   "status": "proved",
   "theorems": [
    "RJ.C05_any_string",
    "RJ.C05_string_round_trip"
   ],
   "note": ""
  },
  {
   "property": "C06",
   "status": "proved",
   "theorems": [
    "RJ.C06_string_iff",
    "RJ.C06_otherwise_ParseStringError"
   ],
   "note": ""
  },
  {
   "property": "C07",
   "status": "proved",
   "theorems": [
    "RJ.C07_encode_utf8",
    "RJ.C07_unit",
    "RJ.C07_pair",
    "RJ.C07_only",
    "RJ.C07_from_utf8"
   ],
   "note": "the decoder that stands for str::from_utf8 is proved to accept exactly the UTF-8 encodings"
  },
  {
   "property": "C08",
   "status": "proved",
   "theorems": [
    "RJ.C08_accepted_iff",
    "RJ.C08_complete",
    "RJ.C08_counterexamples"
   ],
   "note": "the unrestricted statement is false of the code (counterexamples proved); proved: exact characterisation of the accepted RFC texts"
  },
  {
   "property": "C09",
   "status": "proved",
   "theorems": [
    "RJ.C09_never_wrong",
    "RJ.C09_value_or_error"
   ],
   "note": ""
  },
  {
   "property": "C10",
   "status": "proved",
   "theorems": [
    "RJ.C10_surrounding_whitespace"
   ],
   "note": ""
  },
  {
   "property": "C11",
   "status": "proved",
   "theorems": [
    "RJ.C11_null",
    "RJ.C11_true",
    "RJ.C11_false"
   ],
   "note": ""
  },
  {
   "property": "C12",
   "status": "proved",
   "theorems": [
    "RJ.C12_number_iff",
    "RJ.C12_rfc_numbers",
    "RJ.C12_otherwise_ParseNumberError"
   ],
   "note": ""
  },
  {
   "property": "C13",
   "status": "proved",
   "theorems": [
    "RJ.C13_parse_terminates",
    "RJ.C13_recursion_on_shorter_texts",
    "RJ.C13_recursive_equation",
    "RJ.C13_string_loop_terminates"
   ],
   "note": ""
  },
  {
   "property": "C14",
   "status": "proved",
   "theorems": [
    "RJ.C14_parse_well_formed"
   ],
   "note": ""
  },
  {
   "property": "C15",
   "status": "proved",
   "theorems": [
    "RJ.C15_rejects",
    "RJ.C15_after_empty",
    "RJ.C15_accepted_malformed"
   ],
   "note": "the unrestricted statement is false of the code (counterexamples proved, garbage after `[]`/`{}` is always accepted); proved: rejection of all texts in the malformed classes of Spec.Malformed"
  },
  {
   "property": "C16",
   "status": "proved",
   "theorems": [
    "RJ.C16_duplicates",
    "RJ.C16_printed_order"
   ],
   "note": ""
  },
  {
   "property": "C17",
   "status": "proved",
   "theorems": [
    "RJ.C17_multimap",
    "RJ.C17_index_and_merge",
    "RJ.C17_find_is_newest"
   ],
   "note": ""
  },
  {
   "property": "C18",
   "status": "proved",
   "theorems": [
    "RJ.C18_list"
   ],
   "note": ""
  },
  {
   "property": "C19",
   "status": "proved",
   "theorems": [
    "RJ.C19_object_ops",
    "RJ.C19_array_ops",
    "RJ.C19_index_and_merge"
   ],
   "note": ""
  },
  {
   "property": "C20",
   "status": "proved",
   "theorems": [
    "RJ.C20_get_after_set"
   ],
   "note": ""
  },
  {
   "property": "C21",
   "status": "proved",
   "theorems": [
    "RJ.C21_set_succeeds",
    "RJ.C21_error_only_for_syntax",
    "RJ.C21_huge_index_panics"
   ],
   "note": ""
  },
  {
   "property": "C22",
   "status": "proved",
   "theorems": [
    "RJ.C22_diverging_paths",
    "RJ.C22_older_duplicates"
   ],
   "note": ""
  },
  {
   "property": "C23",
   "status": "proved",
   "theorems": [
    "RJ.C23_set_document",
    "RJ.C23_set_wf",
    "RJ.C23_padding",
    "RJ.C23_replaces_scalar"
   ],
   "note": ""
  },
  {
   "property": "C24",
   "status": "proved",
   "theorems": [
    "RJ.C24_del",
    "RJ.C24_then_missing"
   ],
   "note": ""
  },
  {
   "property": "C25",
   "status": "proved",
   "theorems": [
    "RJ.C25_get",
    "RJ.C25_del"
   ],
   "note": ""
  },
  {
   "property": "C26",
   "status": "proved",
   "theorems": [
    "RJ.C26_expressible",
    "RJ.C26_inexpressible",
    "RJ.C26_get_written"
   ],
   "note": ""
  },
  {
   "property": "C27",
   "status": "proved",
   "theorems": [
    "RJ.C27_components",
    "RJ.C27_unambiguous",
    "RJ.C27_accepted_iff",
    "RJ.C27_rejected_iff"
   ],
   "note": ""
  },
  {
   "property": "C28",
   "status": "proved",
   "theorems": [
    "RJ.C28_index",
    "RJ.C28_assign"
   ],
   "note": ""
  },
  {
   "property": "C29",
   "status": "proved",
   "theorems": [
    "RJ.C29_set_then_get",
    "RJ.C29_del",
    "RJ.C29_errors"
   ],
   "note": ""
  },
  {
   "property": "C30",
   "status": "proved",
   "theorems": [
    "RJ.C30_round_trip",
    "RJ.C30_round_trip_any_order"
   ],
   "note": ""
  },
  {
   "property": "C31",
   "status": "proved",
   "theorems": [
    "RJ.C31_option",
    "RJ.C31_some_none"
   ],
   "note": ""
  },
  {
   "property": "C32",
   "status": "proved",
   "theorems": [
    "RJ.C32_pairs",
    "RJ.C30_round_trip_any_order"
   ],
   "note": "types that contain hash maps are covered by C30_round_trip_any_order"
  },
  {
   "property": "C33",
   "status": "proved",
   "theorems": [
    "RJ.C33_map",
    "RJ.C33_last_wins",
    "RJ.C30_round_trip_any_order"
   ],
   "note": "types that contain hash maps are covered by C30_round_trip_any_order"
  },
  {
   "property": "C34",
   "status": "proved",
   "theorems": [
    "RJ.C34_types",
    "RJ.C34_encode_nearest",
    "RJ.C34_exact",
    "RJ.C34_exact_text",
    "RJ.C34_small_types",
    "RJ.C34_not_beyond"
   ],
   "note": "for IEEE-754 doubles (Model/Ieee)"
  },
  {
   "property": "C35",
   "status": "proved",
   "theorems": [
    "RJ.C35_truncate",
    "RJ.C35_not_finite",
    "RJ.C35_total"
   ],
   "note": "for IEEE-754 doubles (Model/Ieee)"
  },
  {
   "property": "C36",
   "status": "proved",
   "theorems": [
    "RJ.C36_wrong_kind",
    "RJ.C36_only_ConvertError",
    "RJ.C36_vec"
   ],
   "note": ""
  },
  {
   "property": "C37",
   "status": "proved",
   "theorems": [
    "RJ.C37_text_round_trip",
    "RJ.C37_text_round_trip_eq"
   ],
   "note": ""
  },
  {
   "property": "C38",
   "status": "proved",
   "theorems": [
    "RJ.C38_eq_iff",
    "RJ.C38_refl_iff",
    "RJ.C38_symm",
    "RJ.C38_trans",
    "RJ.C38_order_independent"
   ],
   "note": ""
  },
  {
   "property": "C39",
   "status": "proved",
   "theorems": [
    "RJ.C39_encode",
    "RJ.C39_encode_distinct",
    "RJ.C39_encode_wf",
    "RJ.C39_impl",
    "RJ.C39_only_structs",
    "RJ.C39_only_named_fields",
    "RJ.C39_type_wrong",
    "RJ.C39_type_refused",
    "RJ.C39_const_generic",
    "RJ.C39_default_generic"
   ],
   "note": "for all structs of the grammar Spec.Struct; the rest is refused or mis-emitted as the last theorems show"
  },
  {
   "property": "C40",
   "status": "proved",
   "theorems": [
    "RJ.C40_decode_encode",
    "RJ.C40_decode_encode_any",
    "RJ.C40_text_round_trip",
    "RJ.C40_builtin",
    "RJ.C40_builtin_text",
    "RJ.C40_all_fields",
    "RJ.C40_shared_key"
   ],
   "note": "for all structs of the grammar Spec.Struct; with a shared key it is false (proved)"
  },
  {
   "property": "C41",
   "status": "proved",
   "theorems": [
    "RJ.C41_not_object",
    "RJ.C41_ok",
    "RJ.C41_error",
    "RJ.C41_total",
    "RJ.C41_last_duplicate"
   ],
   "note": "for all structs of the grammar Spec.Struct"
  },
  {
   "property": "C42",
   "status": "proved",
   "theorems": [
    "RJ.C42_key",
    "RJ.C42_field_key",
    "RJ.C42_escaped_quote",
    "RJ.C42_raw",
    "RJ.C42_raw_many",
    "RJ.C42_raw_wrong",
    "RJ.C42_raw_ident"
   ],
   "note": "the unrestricted statement is false of the code (counterexamples proved)"
  },
  {
   "property": "C43",
   "status": "proved",
   "theorems": [
    "RJ.C43_split_of_join",
    "RJ.C43_split_of_join_trailing",
    "RJ.C43_split_balanced",
    "RJ.C43_rejoin",
    "RJ.C43_no_separator_left"
   ],
   "note": ""
  },
  {
   "property": "C44",
   "status": "proved",
   "theorems": [
    "RJ.C44_attributes",
    "RJ.C44_no_attributes",
    "RJ.C44_accepted",
    "RJ.C44_field",
    "RJ.C44_refused"
   ],
   "note": ""
  },
  {
   "property": "C45",
   "status": "proved",
   "theorems": [
    "RJ.C45_object_macro",
    "RJ.C45_object_macro_wf",
    "RJ.C45_array_macro"
   ],
   "note": ""
  },
  {
   "property": "C46",
   "status": "proved",
   "theorems": [
    "RJ.C46_nearest",
    "RJ.C46_unique",
    "RJ.C46_finite"
   ],
   "note": "for IEEE-754 doubles (Model/Ieee)"
  },
  {
   "property": "C47",
   "status": "proved",
   "theorems": [
    "RJ.C47_exact",
    "RJ.C47_round_trip",
    "RJ.C47_text"
   ],
   "note": "for IEEE-754 doubles and singles (Model/Ieee)"
  },
  {
   "property": "C48",
   "status": "proved",
   "theorems": [
    "RJ.C48_shortest",
    "RJ.C48_integers"
   ],
   "note": "for IEEE-754 doubles (Model/Ieee)"
  },
  {
   "property": "C49",
   "status": "proved",
   "theorems": [
    "RJ.C49_display",
    "RJ.C49_display_injective",
    "RJ.C49_from_str",
    "RJ.C49_object_ops",
    "RJ.C49_index_and_merge",
    "RJ.C49_array_ops",
    "RJ.C49_get",
    "RJ.C49_path_syntax",
    "RJ.C49_decode"
   ],
   "note": "messages of parse errors: C66"
  },
  {
   "property": "C50",
   "status": "proved",
   "theorems": [
    "RJ.C50_grammar",
    "RJ.C50_injective",
    "RJ.C50_same_text_eq",
    "RJ.C50_eq_same_text",
    "RJ.C50_zeros"
   ],
   "note": ""
  },
  {
   "property": "C51",
   "status": "proved",
   "theorems": [
    "RJ.C51_valid_iff_finite",
    "RJ.C51_rejected",
    "RJ.C51_rejected_anywhere"
   ],
   "note": "for IEEE-754 doubles (Model/Ieee)"
  },
  {
   "property": "C52",
   "status": "proved",
   "theorems": [
    "RJ.C52_template",
    "RJ.C52_empty",
    "RJ.C52_variable",
    "RJ.C52_elements",
    "RJ.C52_body"
   ],
   "note": "expressions of the host language are an arbitrary evaluator"
  },
  {
   "property": "C53",
   "status": "proved",
   "theorems": [
    "RJ.C53_verbatim",
    "RJ.C53_literal"
   ],
   "note": ""
  },
  {
   "property": "C54",
   "status": "proved",
   "theorems": [
    "RJ.C54_identifier",
    "RJ.C54_shortcut"
   ],
   "note": ""
  },
  {
   "property": "C55",
   "status": "proved",
   "theorems": [
    "RJ.C55_code",
    "RJ.C55_readme"
   ],
   "note": "relative to a lexer that reads identifiers as identifiers and re-lexes printed tokens (LexerOk)"
  },
  {
   "property": "C56",
   "status": "proved",
   "theorems": [
    "RJ.C56_params",
    "RJ.C56_self_reference",
    "RJ.C56_bound",
    "RJ.C56_double_hash",
    "RJ.C56_none_left",
    "RJ.C56_value_call"
   ],
   "note": "values without # of their own, texts without ##; the complementary cases are shown to misbehave"
  },
  {
   "property": "C57",
   "status": "proved",
   "theorems": [
    "RJ.C57_scope",
    "RJ.C57_elif",
    "RJ.C57_call_arity"
   ],
   "note": "programs without macros with arguments, #include, #quote and #end; the whole language: C73"
  },
  {
   "property": "C58",
   "status": "proved",
   "theorems": [
    "RJ.C58_exact_language",
    "RJ.C58_exact_rejection",
    "RJ.C58_one_value",
    "RJ.C58_witness"
   ],
   "note": ""
  },
  {
   "property": "C59",
   "status": "proved",
   "theorems": [
    "RJ.C59_repair_by_deletion"
   ],
   "note": "for IEEE-754 doubles (Model/Ieee)"
  },
  {
   "property": "C60",
   "status": "proved",
   "theorems": [
    "RJ.C60_structs",
    "RJ.C60_macros_agree"
   ],
   "note": "declarations of Spec/Items.StructDecl"
  },
  {
   "property": "C61",
   "status": "proved",
   "theorems": [
    "RJ.C61_enums"
   ],
   "note": "under the printing laws Prints (and Tight for negative discriminants)"
  },
  {
   "property": "C62",
   "status": "proved",
   "theorems": [
    "RJ.C62_functions"
   ],
   "note": "under the printing laws Prints (and Spaced for closure result types)"
  },
  {
   "property": "C63",
   "status": "proved",
   "theorems": [
    "RJ.C63_structs",
    "RJ.C63_enums",
    "RJ.C63_functions"
   ],
   "note": ""
  },
  {
   "property": "C64",
   "status": "proved",
   "theorems": [
    "RJ.C64_idents",
    "RJ.C64_literals",
    "RJ.C64_get_index",
    "RJ.C64_get_key",
    "RJ.C64_get_group",
    "RJ.C64_get_nested",
    "RJ.C64_pairs",
    "RJ.C64_pairs_keys",
    "RJ.C64_groups"
   ],
   "note": ""
  },
  {
   "property": "C65",
   "status": "proved",
   "theorems": [
    "RJ.C65_empty_struct",
    "RJ.C65_empty_enum",
    "RJ.C65_no_parameters",
    "RJ.C65_path_parameter",
    "RJ.C65_bad_attribute",
    "RJ.C65_discriminant",
    "RJ.C65_wide_integer",
    "RJ.C65_pub_tuple",
    "RJ.C65_mut_parameter",
    "RJ.C65_where_lost",
    "RJ.C65_extern_lost",
    "RJ.C65_minus_lost",
    "RJ.C65_delimiters_lost"
   ],
   "note": ""
  },
  {
   "property": "C66",
   "status": "proved",
   "theorems": [
    "RJ.C66_exact_errors",
    "RJ.C66_one_outcome",
    "RJ.C66_witness"
   ],
   "note": ""
  },
  {
   "property": "C67",
   "status": "proved",
   "theorems": [
    "RJ.C67_counters",
    "RJ.C67_builds",
    "RJ.C67_overflow"
   ],
   "note": ""
  },
  {
   "property": "C68",
   "status": "proved",
   "theorems": [
    "RJ.C68_time",
    "RJ.C68_time_attained"
   ],
   "note": "steps: loop rounds, characters read by leaf parsers, calls of _parse; work inside std containers is not counted"
  },
  {
   "property": "C69",
   "status": "proved",
   "theorems": [
    "RJ.C69_depth",
    "RJ.C69_depth_attained"
   ],
   "note": ""
  },
  {
   "property": "C70",
   "status": "proved",
   "theorems": [
    "RJ.C70_history",
    "RJ.C70_deterministic",
    "RJ.C70_hash_order"
   ],
   "note": ""
  },
  {
   "property": "C71",
   "status": "proved",
   "theorems": [
    "RJ.C71_overwrite",
    "RJ.C71_below",
    "RJ.C71_commute",
    "RJ.C71_same",
    "RJ.C71_del_after_set",
    "RJ.C71_undo",
    "RJ.C71_set_del",
    "RJ.C71_del_del",
    "RJ.C71_shift"
   ],
   "note": ""
  },
  {
   "property": "C72",
   "status": "proved",
   "theorems": [
    "RJ.C72_text_history"
   ],
   "note": "get is that of Json; typed get/set are Json get/set composed with the conversions of C30/C33"
  },
  {
   "property": "C73",
   "status": "proved",
   "theorems": [
    "RJ.C73_scope",
    "RJ.C73_expansion_unique",
    "RJ.C73_arguments"
   ],
   "note": "#execute: for statements that assign to no variable of the caller; the others: C96"
  },
  {
   "property": "C74",
   "status": "proved",
   "theorems": [
    "RJ.C74_placed",
    "RJ.C74_exact"
   ],
   "note": "#execute: as in C73"
  },
  {
   "property": "C75",
   "status": "proved",
   "theorems": [
    "RJ.C75_options",
    "RJ.C75_span",
    "RJ.C75_unknown",
    "RJ.C75_bad_span"
   ],
   "note": "spans themselves (source locations) are not modelled"
  },
  {
   "property": "C76",
   "status": "proved",
   "theorems": [
    "RJ.C76_digits",
    "RJ.C76_number",
    "RJ.C76_string",
    "RJ.C76_text",
    "RJ.C76_longest",
    "RJ.C76_most_digits",
    "RJ.C76_longest_char",
    "RJ.C76_factor"
   ],
   "note": "f64 printing and parsing are the IEEE model of Model/Ieee"
  },
  {
   "property": "C77",
   "status": "proved",
   "theorems": [
    "RJ.C77_terminates",
    "RJ.C77_decode_code",
    "RJ.C77_encode_code",
    "RJ.C77_encode",
    "RJ.C77_round_trip",
    "RJ.C77_well_formed",
    "RJ.C77_round_trip_exact",
    "RJ.C77_text",
    "RJ.C77_text_exact",
    "RJ.C77_decode",
    "RJ.C77_error",
    "RJ.C77_total",
    "RJ.C77_complete"
   ],
   "note": "structs of the forms of C39 (Struct.Ok); integers up to 2^53 in magnitude; balanced brackets in strings for the text round trip, as C01"
  },
  {
   "property": "C78",
   "status": "proved",
   "theorems": [
    "RJ.C78_fifteen",
    "RJ.C78_everyday",
    "RJ.C78_distinct",
    "RJ.C78_documents",
    "RJ.C78_everyday_documents",
    "RJ.C78_sixteen",
    "RJ.C78_tiny"
   ],
   "note": "f64 printing and parsing are the IEEE model of Model/Ieee"
  },
  {
   "property": "C79",
   "status": "proved",
   "theorems": [
    "RJ.C79_parse",
    "RJ.C79_print",
    "RJ.C79_integers",
    "RJ.C79_encode"
   ],
   "note": "f64 printing and parsing are the IEEE model of Model/Ieee"
  },
  {
   "property": "C80",
   "status": "proved",
   "theorems": [
    "RJ.C80_idempotent",
    "RJ.C80_accepted",
    "RJ.C80_same_value",
    "RJ.C80_documents"
   ],
   "note": ""
  },
  {
   "property": "C81",
   "status": "proved",
   "theorems": [
    "RJ.C81_only_its_members",
    "RJ.C81_other_struct",
    "RJ.C81_new_field",
    "RJ.C81_text",
    "RJ.C81_builtin"
   ],
   "note": "structs of the forms of C39 (Struct.Ok)"
  },
  {
   "property": "C82",
   "status": "proved",
   "theorems": [
    "RJ.C82_outcome",
    "RJ.C82_value",
    "RJ.C82_exact_keys",
    "RJ.C82_exact",
    "RJ.C82_texts",
    "RJ.C82_swap",
    "RJ.C82_derived_outcome",
    "RJ.C82_derived_value",
    "RJ.C82_derived_text",
    "RJ.C82_derived_exact",
    "RJ.C82_clash",
    "RJ.C82_which_error"
   ],
   "note": "value equality needs distinct member names to be distinct keys; C82_clash: without that it is false"
  },
  {
   "property": "C83",
   "status": "proved",
   "theorems": [
    "RJ.C83_too_long",
    "RJ.C83_truncated",
    "RJ.C83_one_end",
    "RJ.C83_two_documents",
    "RJ.C83_numbers",
    "RJ.C83_empty_array",
    "RJ.C83_empty_object",
    "RJ.C83_torn_write",
    "RJ.C83_torn_number",
    "RJ.C83_example"
   ],
   "note": "numbers and empty containers are exceptions, described exactly"
  },
  {
   "property": "C84",
   "status": "proved",
   "theorems": [
    "RJ.C84_text",
    "RJ.C84_time",
    "RJ.C84_depth",
    "RJ.C84_quadratic",
    "RJ.C84_example"
   ],
   "note": "sorting and memory management are not counted"
  },
  {
   "property": "C85",
   "status": "proved",
   "theorems": [
    "RJ.C85_stable",
    "RJ.C85_exact",
    "RJ.C85_text",
    "RJ.C85_text_exact",
    "RJ.C85_finite",
    "RJ.C85_int",
    "RJ.C85_program",
    "RJ.C85_program_text"
   ],
   "note": ""
  },
  {
   "property": "C86",
   "status": "proved",
   "theorems": [
    "RJ.C86_compat",
    "RJ.C86_text",
    "RJ.C86_missing",
    "RJ.C86_required",
    "RJ.C86_refl",
    "RJ.C86_members",
    "RJ.C86_unique"
   ],
   "note": ""
  },
  {
   "property": "C87",
   "status": "proved",
   "theorems": [
    "RJ.C87_time",
    "RJ.C87_depth",
    "RJ.C87_back",
    "RJ.C87_attained"
   ],
   "note": "work inside std containers is not counted, as in C68"
  },
  {
   "property": "C88",
   "status": "proved",
   "theorems": [
    "RJ.C88_skip",
    "RJ.C88_steps",
    "RJ.C88_next",
    "RJ.C88_limit"
   ],
   "note": ""
  },
  {
   "property": "C89",
   "status": "proved",
   "theorems": [
    "RJ.C89_set",
    "RJ.C89_set_null",
    "RJ.C89_del",
    "RJ.C89_push_append",
    "RJ.C89_history",
    "RJ.C89_levels",
    "RJ.C89_parse"
   ],
   "note": ""
  },
  {
   "property": "C90",
   "status": "proved",
   "theorems": [
    "RJ.C90_value",
    "RJ.C90_alone",
    "RJ.C90_minus"
   ],
   "note": ""
  },
  {
   "property": "C91",
   "status": "proved",
   "theorems": [
    "RJ.C91_accepted_iff",
    "RJ.C91_misspelt"
   ],
   "note": ""
  },
  {
   "property": "C92",
   "status": "proved",
   "theorems": [
    "RJ.C92_modifiers",
    "RJ.C92_literal",
    "RJ.C92_refused",
    "RJ.C92_fails"
   ],
   "note": ""
  },
  {
   "property": "C93",
   "status": "proved",
   "theorems": [
    "RJ.C93_contents",
    "RJ.C93_store",
    "RJ.C93_map",
    "RJ.C93_typed",
    "RJ.C93_derived"
   ],
   "note": "paths that end in a key; values and keys with balanced brackets and finite numbers, as C72"
  },
  {
   "property": "C94",
   "status": "proved",
   "theorems": [
    "RJ.C94_balanced",
    "RJ.C94_kept",
    "RJ.C94_envelopes"
   ],
   "note": "documents with balanced brackets in their strings and finite numbers, as C01"
  },
  {
   "property": "C95",
   "status": "proved",
   "theorems": [
    "RJ.C95_cut",
    "RJ.C95_ended",
    "RJ.C95_sessions"
   ],
   "note": "records with balanced strings and finite numbers, as C01; the log itself is a specification, not code of the repository"
  },
  {
   "property": "C96",
   "status": "proved",
   "theorems": [
    "RJ.C96_scope",
    "RJ.C96_plain",
    "RJ.C96_placed"
   ],
   "note": "statements in scopes nested inside #define(..) and #quote(..) assign nothing; expressions have no side effects"
  },
  {
   "property": "C97",
   "status": "proved",
   "theorems": [
    "RJ.C97_same",
    "RJ.C97_depth",
    "RJ.C97_depth_exactly",
    "RJ.C97_time",
    "RJ.C97_quadratic",
    "RJ.C97_needs",
    "RJ.C97_appends",
    "RJ.C97_attained"
   ],
   "note": "hashing of names and the moves of Vec::remove are not counted"
  },
  {
   "property": "C98",
   "status": "proved",
   "theorems": [
    "RJ.C98_rebuild",
    "RJ.C98_leaves",
    "RJ.C98_reachable",
    "RJ.C98_empty",
    "RJ.C98_determined"
   ],
   "note": "duplicate keys are excluded: set removes older values (C22)"
  },
  {
   "property": "C99",
   "status": "proved",
   "theorems": [
    "RJ.C99_set",
    "RJ.C99_add",
    "RJ.C99_del",
    "RJ.C99_text"
   ],
   "note": "duplicate keys at the last component are excluded: set and del remove older values (C22, C24)"
  },
  {
   "property": "C100",
   "status": "proved",
   "theorems": [
    "RJ.C100_overlay",
    "RJ.C100_result",
    "RJ.C100_get",
    "RJ.C100_laws"
   ],
   "note": "keys that end in a backslash can only be last in a path (C26); arrays shorter than the limit of set"
  },
  {
   "property": "C101",
   "status": "proved",
   "theorems": [
    "RJ.C101_history",
    "RJ.C101_get",
    "RJ.C101_del",
    "RJ.C101_decode",
    "RJ.C101_equal",
    "RJ.C101_equal_decode"
   ],
   "note": "types without f32 and maps for the last part (a map is decoded in hash order)"
  },
  {
   "property": "C102",
   "status": "proved",
   "theorems": [
    "RJ.C102_member",
    "RJ.C102_alone",
    "RJ.C102_schedules",
    "RJ.C102_rollback"
   ],
   "note": "calls are atomic, as &mut enforces; the object exists before the clients start"
  },
  {
   "property": "C103",
   "status": "proved",
   "theorems": [
    "RJ.C103_text",
    "RJ.C103_parse",
    "RJ.C103_get",
    "RJ.C103_del",
    "RJ.C103_set",
    "RJ.C103_findMut"
   ],
   "note": "set: where the first part leads somewhere (C71 has the law for set after set)"
  },
  {
   "property": "C104",
   "status": "proved",
   "theorems": [
    "RJ.C104_inside",
    "RJ.C104_alone",
    "RJ.C104_schedules"
   ],
   "note": "the places exist before the clients start; calls that remove or create a member of an object are in C102"
  }
 ]
}