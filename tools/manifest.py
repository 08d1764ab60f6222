#!/usr/bin/env python3
# Generates /verif/MANIFEST.json.  Property -> (status, theorems, note)
import json
P="proved"; Q="partial"; N="not_applicable"
C={}
def c(i,st,th,note): C[i]={"property":i,"status":st,"theorems":["RJ."+t for t in th.split()],"note":note}
c("C01",P,"C01_round_trip_exactly C01_round_trip_iff C01_round_trip C01_counterexample","the unrestricted statement is false of the code (counterexample proved); proved with the exact condition under which it holds")
c("C02",P,"C02_to_string_denotes","")
c("C03",P,"C03_printable_ascii","")
c("C04",P,"C04_order_independent C04_sorted_members C04_byte_order_is_code_order","")
c("C05",P,"C05_any_string C05_string_round_trip","")
c("C06",P,"C06_string_iff C06_otherwise_ParseStringError","")
c("C07",P,"C07_encode_utf8 C07_unit C07_pair C07_only C07_from_utf8","the decoder that stands for str::from_utf8 is proved to accept exactly the UTF-8 encodings")
c("C08",P,"C08_accepted_iff C08_complete C08_counterexamples","the unrestricted statement is false of the code (counterexamples proved); proved: exact characterisation of the accepted RFC texts")
c("C09",P,"C09_never_wrong C09_value_or_error","")
c("C10",P,"C10_surrounding_whitespace","")
c("C11",P,"C11_null C11_true C11_false","")
c("C12",P,"C12_number_iff C12_rfc_numbers C12_otherwise_ParseNumberError","")
c("C13",P,"C13_parse_terminates C13_recursion_on_shorter_texts C13_recursive_equation C13_string_loop_terminates","")
c("C14",P,"C14_parse_well_formed","")
c("C15",P,"C15_rejects C15_after_empty C15_accepted_malformed","the unrestricted statement is false of the code (counterexamples proved, garbage after `[]`/`{}` is always accepted); proved: rejection of all texts in the malformed classes of Spec.Malformed")
c("C16",P,"C16_duplicates C16_printed_order","")
c("C17",P,"C17_multimap C17_index_and_merge C17_find_is_newest","")
c("C18",P,"C18_list","")
c("C19",P,"C19_object_ops C19_array_ops C19_index_and_merge","")
c("C20",P,"C20_get_after_set","")
c("C21",P,"C21_set_succeeds C21_error_only_for_syntax C21_huge_index_panics","")
c("C22",P,"C22_diverging_paths C22_older_duplicates","")
c("C23",P,"C23_set_document C23_set_wf C23_padding C23_replaces_scalar","")
c("C24",P,"C24_del C24_then_missing","")
c("C25",P,"C25_get C25_del","")
c("C26",P,"C26_expressible C26_inexpressible C26_get_written","")
c("C27",P,"C27_components C27_unambiguous C27_accepted_iff C27_rejected_iff","")
c("C28",P,"C28_index C28_assign","")
c("C29",P,"C29_set_then_get C29_del C29_errors","")
c("C30",P,"C30_round_trip C30_round_trip_any_order","")
c("C31",P,"C31_option C31_some_none","")
c("C32",P,"C32_pairs C30_round_trip_any_order","types that contain hash maps are covered by C30_round_trip_any_order")
c("C33",P,"C33_map C33_last_wins C30_round_trip_any_order","types that contain hash maps are covered by C30_round_trip_any_order")
c("C34",P,"C34_types C34_encode_nearest C34_exact C34_exact_text C34_small_types C34_not_beyond","for IEEE-754 doubles (Model/Ieee)")
c("C35",P,"C35_truncate C35_not_finite C35_total","for IEEE-754 doubles (Model/Ieee)")
c("C36",P,"C36_wrong_kind C36_only_ConvertError C36_vec","")
c("C37",P,"C37_text_round_trip C37_text_round_trip_eq","")
c("C38",P,"C38_eq_iff C38_refl_iff C38_symm C38_trans C38_order_independent","")
c("C39",P,"C39_encode C39_encode_distinct C39_encode_wf C39_impl C39_only_structs C39_only_named_fields C39_type_wrong C39_type_refused C39_const_generic C39_default_generic","for all structs of the grammar Spec.Struct; the rest is refused or mis-emitted as the last theorems show")
c("C40",P,"C40_decode_encode C40_decode_encode_any C40_text_round_trip C40_builtin C40_builtin_text C40_all_fields C40_shared_key","for all structs of the grammar Spec.Struct; with a shared key it is false (proved)")
c("C41",P,"C41_not_object C41_ok C41_error C41_total C41_last_duplicate","for all structs of the grammar Spec.Struct")
c("C42",P,"C42_key C42_field_key C42_escaped_quote C42_raw C42_raw_many C42_raw_wrong C42_raw_ident","the unrestricted statement is false of the code (counterexamples proved)")
c("C43",P,"C43_split_of_join C43_split_of_join_trailing C43_split_balanced C43_rejoin C43_no_separator_left","")
c("C44",P,"C44_attributes C44_no_attributes C44_accepted C44_field C44_refused","")
c("C45",P,"C45_object_macro C45_object_macro_wf C45_array_macro","")
c("C46",P,"C46_nearest C46_unique C46_finite","for IEEE-754 doubles (Model/Ieee)")
c("C47",P,"C47_exact C47_round_trip C47_text","for IEEE-754 doubles and singles (Model/Ieee)")
c("C48",P,"C48_shortest C48_integers","for IEEE-754 doubles (Model/Ieee)")
c("C49",P,"C49_display C49_display_injective C49_from_str C49_object_ops C49_index_and_merge C49_array_ops C49_get C49_path_syntax C49_decode","messages of parse errors: C66")
c("C50",P,"C50_grammar C50_injective C50_same_text_eq C50_eq_same_text C50_zeros","")
c("C51",P,"C51_valid_iff_finite C51_rejected C51_rejected_anywhere","for IEEE-754 doubles (Model/Ieee)")
c("C52",P,"C52_template C52_empty C52_variable C52_elements C52_body","expressions of the host language are an arbitrary evaluator")
c("C53",P,"C53_verbatim C53_literal","")
c("C54",P,"C54_identifier C54_shortcut","")
c("C55",P,"C55_code C55_readme","relative to a lexer that reads identifiers as identifiers and re-lexes printed tokens (LexerOk)")
c("C56",P,"C56_params C56_self_reference C56_bound C56_double_hash C56_none_left C56_value_call","values without # of their own, texts without ##; the complementary cases are shown to misbehave")
c("C57",P,"C57_scope C57_elif C57_call_arity","programs without macros with arguments, #include, #quote and #end; the whole language: C73")
c("C58",P,"C58_exact_language C58_exact_rejection C58_one_value C58_witness","")
c("C59",P,"C59_repair_by_deletion","for IEEE-754 doubles (Model/Ieee)")
c("C60",P,"C60_structs C60_macros_agree","declarations of Spec/Items.StructDecl")
c("C61",P,"C61_enums","under the printing laws Prints (and Tight for negative discriminants)")
c("C62",P,"C62_functions","under the printing laws Prints (and Spaced for closure result types)")
c("C63",P,"C63_structs C63_enums C63_functions","")
c("C64",P,"C64_idents C64_literals C64_get_index C64_get_key C64_get_group C64_get_nested C64_pairs C64_pairs_keys C64_groups","")
c("C65",P,"C65_empty_struct C65_empty_enum C65_no_parameters C65_path_parameter C65_bad_attribute C65_discriminant C65_wide_integer C65_pub_tuple C65_mut_parameter C65_where_lost C65_extern_lost C65_minus_lost C65_delimiters_lost","")
c("C66",P,"C66_exact_errors C66_one_outcome C66_witness","")
c("C67",P,"C67_counters C67_builds C67_overflow","")
c("C68",P,"C68_time C68_time_attained","steps: loop rounds, characters read by leaf parsers, calls of _parse; work inside std containers is not counted")
c("C69",P,"C69_depth C69_depth_attained","")
c("C70",P,"C70_history C70_deterministic C70_hash_order","")
c("C71",P,"C71_overwrite C71_below C71_commute C71_same C71_del_after_set C71_undo C71_set_del C71_del_del C71_shift","")
c("C73",P,"C73_scope C73_expansion_unique C73_arguments","#execute: for statements that assign to no variable of the caller; the others: C96")
c("C74",P,"C74_placed C74_exact","#execute: as in C73")
c("C75",P,"C75_options C75_span C75_unknown C75_bad_span","spans themselves (source locations) are not modelled")
c("C76",P,"C76_digits C76_number C76_string C76_text C76_longest C76_most_digits C76_longest_char C76_factor","f64 printing and parsing are the IEEE model of Model/Ieee")
c("C77",P,"C77_terminates C77_decode_code C77_encode_code C77_encode C77_round_trip C77_well_formed C77_round_trip_exact C77_text C77_text_exact C77_decode C77_error C77_total C77_complete","structs of the forms of C39 (Struct.Ok); integers up to 2^53 in magnitude; balanced brackets in strings for the text round trip, as C01")
c("C78",P,"C78_fifteen C78_everyday C78_distinct C78_documents C78_everyday_documents C78_sixteen C78_tiny","f64 printing and parsing are the IEEE model of Model/Ieee")
c("C79",P,"C79_parse C79_print C79_integers C79_encode","f64 printing and parsing are the IEEE model of Model/Ieee")
c("C80",P,"C80_idempotent C80_accepted C80_same_value C80_documents","")
c("C81",P,"C81_only_its_members C81_other_struct C81_new_field C81_text C81_builtin","structs of the forms of C39 (Struct.Ok)")
c("C82",P,"C82_outcome C82_value C82_exact_keys C82_exact C82_texts C82_swap C82_derived_outcome C82_derived_value C82_derived_text C82_derived_exact C82_clash C82_which_error","value equality needs distinct member names to be distinct keys; C82_clash: without that it is false")
c("C83",P,"C83_too_long C83_truncated C83_one_end C83_two_documents C83_numbers C83_empty_array C83_empty_object C83_torn_write C83_torn_number C83_example","numbers and empty containers are exceptions, described exactly")
c("C84",P,"C84_text C84_time C84_depth C84_quadratic C84_example","sorting and memory management are not counted")
c("C85",P,"C85_stable C85_exact C85_text C85_text_exact C85_finite C85_int C85_program C85_program_text","")
c("C86",P,"C86_compat C86_text C86_missing C86_required C86_refl C86_members C86_unique","")
c("C87",P,"C87_time C87_depth C87_back C87_attained","work inside std containers is not counted, as in C68")
c("C88",P,"C88_skip C88_steps C88_next C88_limit","")
c("C89",P,"C89_set C89_set_null C89_del C89_push_append C89_history C89_levels C89_parse","")
c("C90",P,"C90_value C90_alone C90_minus","")
c("C91",P,"C91_accepted_iff C91_misspelt","")
c("C92",P,"C92_modifiers C92_literal C92_refused C92_fails","")
c("C93",P,"C93_contents C93_store C93_map C93_typed C93_derived","paths that end in a key; values and keys with balanced brackets and finite numbers, as C72")
c("C94",P,"C94_balanced C94_kept C94_envelopes","documents with balanced brackets in their strings and finite numbers, as C01")
c("C95",P,"C95_cut C95_ended C95_sessions","records with balanced strings and finite numbers, as C01; the log itself is a specification, not code of the repository")
c("C96",P,"C96_scope C96_plain C96_placed","statements in scopes nested inside #define(..) and #quote(..) assign nothing; expressions have no side effects")
c("C97",P,"C97_same C97_depth C97_depth_exactly C97_time C97_quadratic C97_needs C97_appends C97_attained","hashing of names and the moves of Vec::remove are not counted")
c("C98",P,"C98_rebuild C98_leaves C98_reachable C98_empty C98_determined","duplicate keys are excluded: set removes older values (C22)")
c("C99",P,"C99_set C99_add C99_del C99_text","duplicate keys at the last component are excluded: set and del remove older values (C22, C24)")
c("C100",P,"C100_overlay C100_result C100_get C100_laws","keys that end in a backslash can only be last in a path (C26); arrays shorter than the limit of set")
c("C101",P,"C101_history C101_get C101_del C101_decode C101_equal C101_equal_decode","types without f32 and maps for the last part (a map is decoded in hash order)")
c("C102",P,"C102_member C102_alone C102_schedules C102_rollback","calls are atomic, as &mut enforces; the object exists before the clients start")
c("C103",P,"C103_text C103_parse C103_get C103_del C103_set C103_findMut","set: where the first part leads somewhere (C71 has the law for set after set)")
c("C104",P,"C104_inside C104_alone C104_schedules","the places exist before the clients start; calls that remove or create a member of an object are in C102")
c("C72",P,"C72_text_history","get is that of Json; typed get/set are Json get/set composed with the conversions of C30/C33")
import os
os.chdir(os.path.dirname(os.path.abspath(__file__))+"/..")
ids=[json.loads(l)["id"] for l in open("properties.jsonl")]
json.dump({"claims":[C[i] for i in ids if i in C]},open("MANIFEST.json","w"),indent=1,ensure_ascii=False)
print("missing:",[i for i in ids if i not in C])
