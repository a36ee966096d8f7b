# Axioms used by the theorems in MANIFEST.json

Generated by `tools/axioms.py` from `#print axioms`.

## Classical.choice, Quot.sound, propext

* `SX.C01_normalize_spec`
* `SX.C02_normalize_valid_utf8`
* `SX.C03_collapse_after_replace`
* `SX.C03_collapse_shape`
* `SX.C03_normalize_idempotent`
* `SX.C03_replace_length`
* `SX.C04_bool_parse`
* `SX.C04_bool_reject`
* `SX.C04_bool_roundtrip`
* `SX.C05_int_parse`
* `SX.C05_int_reject`
* `SX.C05_int_roundtrip`
* `SX.C06_restriction_parse`
* `SX.C06_restriction_roundtrip_known`
* `SX.C06_restriction_roundtrip_unknown`
* `SX.C07_union_parse`
* `SX.C07_union_reject`
* `SX.C07_union_roundtrip`
* `SX.C08_find_exact`
* `SX.C08_find_in_bounds`
* `SX.C09_enum_sorted_iff`
* `SX.C09_enum_table_counterexample`
* `SX.C09_enum_table_partial`
* `SX.C09_struct_table`
* `SX.C100_calls`
* `SX.C100_values`
* `SX.C100_written`
* `SX.C101_attribute`
* `SX.C101_place`
* `SX.C101_text`
* `SX.C102_copies`
* `SX.C102_place`
* `SX.C103_blame`
* `SX.C103_error`
* `SX.C104_copies`
* `SX.C104_error`
* `SX.C104_markup`
* `SX.C104_read`
* `SX.C105_crate`
* `SX.C105_reproduce`
* `SX.C106_alike`
* `SX.C106_crate`
* `SX.C106_repair`
* `SX.C107_crate`
* `SX.C107_options`
* `SX.C107_readable`
* `SX.C107_roundtrip`
* `SX.C107_string`
* `SX.C108_crate`
* `SX.C108_onward`
* `SX.C109_crate`
* `SX.C109_element`
* `SX.C109_prompt`
* `SX.C10_reader_in_sync`
* `SX.C10_reader_in_sync_debug`
* `SX.C110_crate`
* `SX.C110_mended`
* `SX.C110_progress`
* `SX.C111_crate`
* `SX.C111_nothing_made_up`
* `SX.C111_origin`
* `SX.C111_struct`
* `SX.C112_copy`
* `SX.C112_crate`
* `SX.C112_cut`
* `SX.C112_each`
* `SX.C112_texts`
* `SX.C113_crate`
* `SX.C113_cut`
* `SX.C113_pieces`
* `SX.C11_parser_error_is_error`
* `SX.C12_read_total`
* `SX.C13_error_context`
* `SX.C14_innermost_error_kept`
* `SX.C15_text_concat`
* `SX.C16_misc_and_positions`
* `SX.C16_misc_invisible`
* `SX.C16_same_value`
* `SX.C17_prefix_independent`
* `SX.C18_duplicate_error`
* `SX.C18_duplicate_missing`
* `SX.C18_element_field`
* `SX.C18_error`
* `SX.C18_missing_error`
* `SX.C18_unfit_rejected`
* `SX.C18_value`
* `SX.C19_attribute_field`
* `SX.C19_duplicate_error`
* `SX.C19_missing_error`
* `SX.C19_unfit_rejected`
* `SX.C20_same_known_content`
* `SX.C20_unknown_ignored`
* `SX.C21_mixed`
* `SX.C21_order_iff`
* `SX.C21_order_irrelevant_partial`
* `SX.C21_shuffled_partial`
* `SX.C21_two_flattened`
* `SX.C21_two_flattened_counterexample`
* `SX.C22_memory_safe`
* `SX.C23_empty`
* `SX.C23_single_choice`
* `SX.C23_two_choices`
* `SX.C24_offered_in_order`
* `SX.C24_single_flattened`
* `SX.C24_swallowed_counterexample`
* `SX.C25_balanced_iff`
* `SX.C25_balanced_partial`
* `SX.C25_failures_reported`
* `SX.C25_forget_counterexample`
* `SX.C26_derived_stops`
* `SX.C26_first_failure_sticks`
* `SX.C26_program_sees`
* `SX.C26_swallowed_reported`
* `SX.C27_calls`
* `SX.C27_calls_total`
* `SX.C27_failed_call`
* `SX.C27_written`
* `SX.C28_assignment`
* `SX.C28_calls`
* `SX.C28_inherited_irrelevant`
* `SX.C28_requests_granted`
* `SX.C28_search_ends`
* `SX.C28_search_short`
* `SX.C29_attributes`
* `SX.C29_declared_partial`
* `SX.C29_document_iff`
* `SX.C29_document_partial`
* `SX.C29_elements_iff`
* `SX.C29_unprefixed_counterexample`
* `SX.C30_late_mapping_counterexample`
* `SX.C30_never_panics`
* `SX.C30_prefixed`
* `SX.C31_balanced`
* `SX.C31_never_panics_partial`
* `SX.C31_no_namespace_counterexample`
* `SX.C31_panics_accepting_iff`
* `SX.C31_panics_iff`
* `SX.C31_types_partial`
* `SX.C32_asked`
* `SX.C32_document_iff`
* `SX.C32_document_partial`
* `SX.C32_no_namespace_counterexample`
* `SX.C32_types_partial`
* `SX.C33_refuted`
* `SX.C33_skipped_succeeds`
* `SX.C34_refuted`
* `SX.C34_text_counterexample`
* `SX.C35_blank_counterexample`
* `SX.C35_bool`
* `SX.C35_default_counterexample`
* `SX.C35_empty_payload_counterexample`
* `SX.C35_exact_partial`
* `SX.C35_flattened_never`
* `SX.C35_int`
* `SX.C35_reportable`
* `SX.C35_roundtrip_iff`
* `SX.C35_roundtrip_partial`
* `SX.C35_string`
* `SX.C35_struct`
* `SX.C35_transported_partial`
* `SX.C35_two_flattens_never`
* `SX.C36_inserted`
* `SX.C36_layout`
* `SX.C37_declared`
* `SX.C37_description`
* `SX.C37_names_declared`
* `SX.C37_reserved_prefix_counterexample`
* `SX.C37_root_declared`
* `SX.C37_serialize_total`
* `SX.C37_serialize_total_types`
* `SX.C38_display_injective`
* `SX.C39_cause_injective`
* `SX.C39_display`
* `SX.C39_namespace_untold`
* `SX.C39_one_line`
* `SX.C39_reader_tells`
* `SX.C39_tells`
* `SX.C39_tells_cause`
* `SX.C39_tells_xml`
* `SX.C39_text_tells`
* `SX.C39_union_items`
* `SX.C40_accepted_iff`
* `SX.C40_reported`
* `SX.C40_variant`
* `SX.C41_deserialize_panics_iff`
* `SX.C41_no_other_fault`
* `SX.C41_panics_iff`
* `SX.C42_restriction_parse`
* `SX.C42_text_accepted_iff`
* `SX.C42_text_description`
* `SX.C42_text_unique`
* `SX.C43_attribute`
* `SX.C43_document`
* `SX.C43_match`
* `SX.C43_tag`
* `SX.C43_transportable`
* `SX.C44_complete`
* `SX.C44_first`
* `SX.C44_prefix`
* `SX.C44_struct_first`
* `SX.C45_blank_counterexample`
* `SX.C45_bool_stable`
* `SX.C45_crate`
* `SX.C45_int_stable`
* `SX.C45_range`
* `SX.C45_range_faithful`
* `SX.C45_read_good`
* `SX.C45_reread`
* `SX.C45_reread_iff`
* `SX.C45_restriction_stable`
* `SX.C45_string_stable`
* `SX.C45_two_flattened`
* `SX.C45_union_counterexample`
* `SX.C45_union_stable`
* `SX.C46_same_content`
* `SX.C47_fields`
* `SX.C47_read_attribute`
* `SX.C47_read_element`
* `SX.C47_written`
* `SX.C48_declarations`
* `SX.C48_order`
* `SX.C48_prefixes`
* `SX.C48_same_calls`
* `SX.C49_contract_needed`
* `SX.C49_enum`
* `SX.C49_enum_agrees`
* `SX.C49_struct`
* `SX.C49_struct_agrees`
* `SX.C50_attribute`
* `SX.C50_child`
* `SX.C50_missing`
* `SX.C50_value`
* `SX.C51_attribute`
* `SX.C51_child`
* `SX.C51_text`
* `SX.C52_child`
* `SX.C52_value`
* `SX.C52_which`
* `SX.C53_agrees`
* `SX.C53_attributes`
* `SX.C53_children`
* `SX.C53_enum`
* `SX.C53_many`
* `SX.C54_attribute`
* `SX.C54_document`
* `SX.C54_element`
* `SX.C54_error`
* `SX.C54_text`
* `SX.C55_attribute`
* `SX.C55_builder_dropped`
* `SX.C55_injective`
* `SX.C55_user`
* `SX.C55_writer_dropped`
* `SX.C56_deserialize`
* `SX.C56_errors`
* `SX.C56_text`
* `SX.C57_declared`
* `SX.C57_float`
* `SX.C57_float_roundtrip`
* `SX.C57_std`
* `SX.C57_std_roundtrip`
* `SX.C57_string`
* `SX.C58_enum`
* `SX.C58_enum_sound`
* `SX.C58_struct`
* `SX.C58_struct_sound`
* `SX.C59_enum_exhaustive_iff`
* `SX.C59_enum_indices`
* `SX.C59_identifiers`
* `SX.C59_panics_iff`
* `SX.C59_serialize_exhaustive`
* `SX.C59_struct`
* `SX.C60_enum`
* `SX.C60_enum_skipped`
* `SX.C60_parse`
* `SX.C60_root`
* `SX.C60_struct`
* `SX.C60_toText`
* `SX.C61_default_refuted`
* `SX.C61_enum`
* `SX.C61_flatten_refuted`
* `SX.C61_given`
* `SX.C61_parent_refuted`
* `SX.C61_root`
* `SX.C61_struct`
* `SX.C62_choice_first_refuted`
* `SX.C62_read`
* `SX.C62_text`
* `SX.C62_textFor`
* `SX.C62_through`
* `SX.C62_write`
* `SX.C63_deserialize`
* `SX.C63_parseText`
* `SX.C63_serialize`
* `SX.C63_toText`
* `SX.C64_parsed`
* `SX.C64_read`
* `SX.C64_write`
* `SX.C65_env`
* `SX.C65_generated`
* `SX.C65_read`
* `SX.C65_roundtrip`
* `SX.C65_roundtrip_exact`
* `SX.C65_types`
* `SX.C65_value`
* `SX.C65_write`
* `SX.C66_bounded`
* `SX.C66_crate`
* `SX.C66_exact`
* `SX.C66_ranked`
* `SX.C66_recursive`
* `SX.C67_crate`
* `SX.C67_derived`
* `SX.C67_received`
* `SX.C68_crate`
* `SX.C68_derived`
* `SX.C68_document`
* `SX.C68_point`
* `SX.C68_prefix`
* `SX.C68_readable`
* `SX.C69_derived`
* `SX.C69_io`
* `SX.C69_raised`
* `SX.C70_parse`
* `SX.C70_roundtrip`
* `SX.C70_toText`
* `SX.C70_total`
* `SX.C70_types`
* `SX.C71_enum`
* `SX.C71_never`
* `SX.C71_one`
* `SX.C71_required`
* `SX.C71_value`
* `SX.C72_readable`
* `SX.C72_typed`
* `SX.C72_write`
* `SX.C75_accepted`
* `SX.C75_apart`
* `SX.C75_flattens`
* `SX.C75_maps`
* `SX.C75_no_default`
* `SX.C75_prefixes`
* `SX.C75_reads`
* `SX.C75_roundtrip`
* `SX.C76_agrees`
* `SX.C76_enum`
* `SX.C76_nested`
* `SX.C76_strict`
* `SX.C76_struct`
* `SX.C77_attribute`
* `SX.C77_document`
* `SX.C77_enum`
* `SX.C77_flatten`
* `SX.C77_flatten_default`
* `SX.C77_one`
* `SX.C77_opt`
* `SX.C77_struct`
* `SX.C77_text`
* `SX.C77_variant`
* `SX.C77_vec`
* `SX.C78_attribute`
* `SX.C78_enum`
* `SX.C78_field`
* `SX.C78_never_panics`
* `SX.C78_struct`
* `SX.C79_enum`
* `SX.C79_nested`
* `SX.C79_struct`
* `SX.C79_unique`
* `SX.C82_added`
* `SX.C82_enum`
* `SX.C82_fresh`
* `SX.C82_read`
* `SX.C82_struct`
* `SX.C82_written`
* `SX.C84_derived`
* `SX.C84_determined`
* `SX.C84_digits`
* `SX.C84_find`
* `SX.C84_looked`
* `SX.C84_moved`
* `SX.C84_normalize`
* `SX.C84_prefixes`
* `SX.C84_prefixes_once`
* `SX.C84_prefixes_worst`
* `SX.C84_read`
* `SX.C84_read_once`
* `SX.C84_unknown`
* `SX.C84_work`
* `SX.C85_document`
* `SX.C85_field_round_trip`
* `SX.C85_round_trip`
* `SX.C86_any`
* `SX.C86_counts`
* `SX.C86_injective`
* `SX.C86_injective_faithful`
* `SX.C86_kept`
* `SX.C86_normal_form`
* `SX.C86_normal_form_singly`
* `SX.C86_rewritten`
* `SX.C86_rewritten_iff`
* `SX.C87_missing`
* `SX.C87_remixed`
* `SX.C87_text`
* `SX.C87_text_attributes`
* `SX.C87_text_children_refuted`
* `SX.C87_text_types`
* `SX.C88_mappings`
* `SX.C88_read_names`
* `SX.C88_root_name`
* `SX.C88_write_names`
* `SX.C89_grown`
* `SX.C89_written`
* `SX.C89_written_faithful`
* `SX.C90_context`
* `SX.C90_crate`
* `SX.C90_derived`
* `SX.C90_release_counterexample`
* `SX.C91_derived`
* `SX.C91_document`
* `SX.C91_events`
* `SX.C91_mappings`
* `SX.C92_any`
* `SX.C92_copy`
* `SX.C92_rest`
* `SX.C93_counted`
* `SX.C93_derived`
* `SX.C93_document`
* `SX.C93_ranked`
* `SX.C93_recursive`
* `SX.C94_one_to_one`
* `SX.C94_read`
* `SX.C94_written`
* `SX.C95_documents`
* `SX.C95_read`
* `SX.C95_written`
* `SX.C96_peak`
* `SX.C96_text`
* `SX.C96_value`
* `SX.C97_derived`
* `SX.C98_copy`
* `SX.C98_depth`
* `SX.C98_no_defaults`
* `SX.C99_derived`
* `SX.C99_document`
* `SX.C99_field`
* `SX.C99_flatten`
* `SX.C99_payload`
* `SX.C99_place`
* `SX.C99_written`
* `SX.ExD.C94_flattened_order`
* `SX.OpenUnwind.C80_derived`
* `SX.OpenUnwind.C81_derived`
* `SX.OpenUnwind.C83_derived`
* `SX.Unwind.C73_agrees`
* `SX.Unwind.C73_attributes`
* `SX.Unwind.C73_balanced`
* `SX.Unwind.C73_elements_iff`
* `SX.Unwind.C73_field`
* `SX.Unwind.C73_first_failure_sticks`
* `SX.Unwind.C73_lost_element`
* `SX.Unwind.C73_panic_unnoticed`
* `SX.Unwind.C73_panicking_stop`
* `SX.Unwind.C73_start_panics_iff`
* `SX.Unwind.C73_total`
* `SX.UnwindDe.C74_in_sync`
* `SX.UnwindDe.C74_in_sync_debug`
* `SX.UnwindDe.C74_parser_error`
* `SX.UnwindDe.C74_total`

## Quot.sound

* `SX.C85_std`
* `SX.OpenUnwind.C80_told`

## Quot.sound, propext

* `SX.C107_asked_unique`
* `SX.C112_leaves`
* `SX.C11_truncated_never_ok`
* `SX.C12_debug_swallow_counterexample`
* `SX.C15_child_text`
* `SX.C32_represented`
* `SX.C64_hasTy`
* `SX.C64_printed`
* `SX.C66_agrees`
* `SX.C66_visitors`
* `SX.C67_first`
* `SX.C76_attribute`
* `SX.C76_into_sound`
* `SX.C76_one`
* `SX.C76_opt`
* `SX.C76_text`
* `SX.C76_vec`
* `SX.C79_attr`
* `SX.C79_into`
* `SX.C79_text`
* `SX.C79_update`
* `SX.C82_attribute`
* `SX.C82_children`
* `SX.C82_element`
* `SX.C82_payload`
* `SX.C82_recursive`
* `SX.C84_work_exact`
* `SX.C85_agrees`
* `SX.C85_field`
* `SX.C85_field_upgrade`
* `SX.C85_input`
* `SX.C85_invariant`
* `SX.C85_payload`
* `SX.C85_reads`
* `SX.C85_refused`
* `SX.C85_upgrade`
* `SX.C87_read_to`
* `SX.C96_any`
* `SX.C96_counted`
* `SX.C97_call`
* `SX.C97_program`
* `SX.C98_counts`
* `SX.OpenUnwind.C80_agrees`
* `SX.OpenUnwind.C80_contract_needed`
* `SX.OpenUnwind.C80_fields`
* `SX.OpenUnwind.C80_fields_agree`
* `SX.OpenUnwind.C81_alike_needed`
* `SX.OpenUnwind.C81_panic_as_error`
* `SX.OpenUnwind.C81_program`
* `SX.OpenUnwind.C81_via`
* `SX.OpenUnwind.C83_own_error_needed`
* `SX.OpenUnwind.C83_place`
* `SX.OpenUnwind.C83_program`
* `SX.OpenUnwind.C83_read`
* `SX.OpenUnwind.C83_via`
* `SX.UnwindDe.C74_debug_catch_counterexample`
* `SX.UnwindDe.C74_invariant`
* `SX.UnwindDe.C74_ok_final`
* `SX.UnwindDe.C74_uncaught`

## none

* `SX.C26_first_error`
* `SX.C43_xml`
* `SX.C85_passes_on`
* `SX.C90_propagating`

## propext

* `SX.C100_fields`
* `SX.C100_struct`
* `SX.C12_documents_conform`
* `SX.C38_braces_counterexample`
* `SX.C48_unique`
* `SX.C55_write`
* `SX.C63_derive`
* `SX.C69_origin`
* `SX.C69_source`
* `SX.C72_invariant`
* `SX.C76_default`
* `SX.C79_init`
* `SX.C79_missing`
* `SX.C82_absent`
* `SX.C85_panics`
* `SX.C87_read_string`
* `SX.OpenUnwind.C80_program`
* `SX.OpenUnwind.C80_reachable_only`
* `SX.OpenUnwind.C80_via`
* `SX.OpenUnwind.C81_fields`
* `SX.OpenUnwind.C81_read`
* `SX.OpenUnwind.C83_fields`
