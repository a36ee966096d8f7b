{
 "claims": [
  {
   "property": "C01",
   "status": "proved",
   "theorems": [
    "SX.C01_normalize_spec"
   ],
   "note": ""
  },
  {
   "property": "C02",
   "status": "proved",
   "theorems": [
    "SX.C02_normalize_valid_utf8"
   ],
   "note": ""
  },
  {
   "property": "C03",
   "status": "proved",
   "theorems": [
    "SX.C03_normalize_idempotent",
    "SX.C03_collapse_after_replace",
    "SX.C03_replace_length",
    "SX.C03_collapse_shape"
   ],
   "note": ""
  },
  {
   "property": "C04",
   "status": "proved",
   "theorems": [
    "SX.C04_bool_parse",
    "SX.C04_bool_reject",
    "SX.C04_bool_roundtrip"
   ],
   "note": ""
  },
  {
   "property": "C05",
   "status": "proved",
   "theorems": [
    "SX.C05_int_parse",
    "SX.C05_int_reject",
    "SX.C05_int_roundtrip"
   ],
   "note": ""
  },
  {
   "property": "C06",
   "status": "proved",
   "theorems": [
    "SX.C06_restriction_parse",
    "SX.C06_restriction_roundtrip_known",
    "SX.C06_restriction_roundtrip_unknown"
   ],
   "note": ""
  },
  {
   "property": "C07",
   "status": "proved",
   "theorems": [
    "SX.C07_union_parse",
    "SX.C07_union_reject",
    "SX.C07_union_roundtrip"
   ],
   "note": ""
  },
  {
   "property": "C08",
   "status": "proved",
   "theorems": [
    "SX.C08_find_exact",
    "SX.C08_find_in_bounds"
   ],
   "note": ""
  },
  {
   "property": "C09",
   "status": "partial",
   "theorems": [
    "SX.C09_struct_table",
    "SX.C09_enum_table_partial",
    "SX.C09_enum_sorted_iff",
    "SX.C09_enum_table_counterexample"
   ],
   "note": "Full for structs. For enums proved under the condition that variants without prefix do not come, by local name, after variants whose prefix maps to the empty URL; C09_enum_sorted_iff: the table is sorted exactly then; otherwise lookups can fail: C09_enum_table_counterexample."
  },
  {
   "property": "C10",
   "status": "proved",
   "theorems": [
    "SX.C10_reader_in_sync",
    "SX.C10_reader_in_sync_debug"
   ],
   "note": "Release build: every visitor. Debug build: visitors that do not swallow errors of child reads (see C12_debug_swallow_counterexample)."
  },
  {
   "property": "C11",
   "status": "proved",
   "theorems": [
    "SX.C11_truncated_never_ok",
    "SX.C11_parser_error_is_error"
   ],
   "note": ""
  },
  {
   "property": "C12",
   "status": "proved",
   "theorems": [
    "SX.C12_read_total",
    "SX.C12_documents_conform",
    "SX.C12_debug_swallow_counterexample"
   ],
   "note": ""
  },
  {
   "property": "C13",
   "status": "proved",
   "theorems": [
    "SX.C13_error_context"
   ],
   "note": "For visitors that pass on errors of child reads unchanged, as the derived ones do."
  },
  {
   "property": "C14",
   "status": "proved",
   "theorems": [
    "SX.C14_innermost_error_kept",
    "SX.C13_error_context"
   ],
   "note": ""
  },
  {
   "property": "C15",
   "status": "proved",
   "theorems": [
    "SX.C15_text_concat",
    "SX.C15_child_text"
   ],
   "note": ""
  },
  {
   "property": "C16",
   "status": "proved",
   "theorems": [
    "SX.C16_misc_invisible",
    "SX.C16_misc_and_positions",
    "SX.C16_same_value"
   ],
   "note": ""
  },
  {
   "property": "C17",
   "status": "proved",
   "theorems": [
    "SX.C17_prefix_independent"
   ],
   "note": ""
  },
  {
   "property": "C18",
   "status": "proved",
   "theorems": [
    "SX.C18_value",
    "SX.C18_error",
    "SX.C18_element_field",
    "SX.C18_unfit_rejected",
    "SX.C18_missing_error",
    "SX.C18_duplicate_error",
    "SX.C18_duplicate_missing"
   ],
   "note": ""
  },
  {
   "property": "C19",
   "status": "proved",
   "theorems": [
    "SX.C19_attribute_field",
    "SX.C19_unfit_rejected",
    "SX.C19_missing_error",
    "SX.C19_duplicate_error",
    "SX.C18_value"
   ],
   "note": ""
  },
  {
   "property": "C20",
   "status": "proved",
   "theorems": [
    "SX.C20_unknown_ignored",
    "SX.C20_same_known_content"
   ],
   "note": ""
  },
  {
   "property": "C21",
   "status": "partial",
   "theorems": [
    "SX.C21_order_irrelevant_partial",
    "SX.C21_shuffled_partial",
    "SX.C21_order_iff",
    "SX.C21_mixed",
    "SX.C21_two_flattened",
    "SX.C21_two_flattened_counterexample"
   ],
   "note": "For structs with at most one flattened field, and exactly these (C21_order_iff): with two or more, whatever can be read has a permutation that cannot (C21_two_flattened). For all structs the order may change between the children of different element fields and everything else (C21_mixed)."
  },
  {
   "property": "C22",
   "status": "proved",
   "theorems": [
    "SX.C22_memory_safe"
   ],
   "note": "Declarations with text fields are excluded: the macro generates no code for them."
  },
  {
   "property": "C23",
   "status": "proved",
   "theorems": [
    "SX.C23_single_choice",
    "SX.C23_empty",
    "SX.C23_two_choices",
    "SX.C18_error"
   ],
   "note": ""
  },
  {
   "property": "C24",
   "status": "proved",
   "theorems": [
    "SX.C24_offered_in_order",
    "SX.C24_single_flattened",
    "SX.C24_swallowed_counterexample"
   ],
   "note": "Acceptance is the code's: an enum that has accepted a child accepts every later one, also unknown ones (C24_swallowed_counterexample)."
  },
  {
   "property": "C25",
   "status": "partial",
   "theorems": [
    "SX.C25_balanced_partial",
    "SX.C25_balanced_iff",
    "SX.C25_failures_reported",
    "SX.C25_forget_counterexample"
   ],
   "note": "For every implementation that does not leak an ElementWriter with std::mem::forget; with that the code violates it: C25_forget_counterexample. C25_balanced_iff is exact: the number of elements left open is the number of writers leaked."
  },
  {
   "property": "C26",
   "status": "proved",
   "theorems": [
    "SX.C26_first_failure_sticks",
    "SX.C26_program_sees",
    "SX.C26_first_error",
    "SX.C26_swallowed_reported",
    "SX.C26_derived_stops"
   ],
   "note": ""
  },
  {
   "property": "C27",
   "status": "proved",
   "theorems": [
    "SX.C27_calls",
    "SX.C27_failed_call",
    "SX.C27_calls_total",
    "SX.C27_written"
   ],
   "note": "C27_written is for mappings that are allowed: not to the empty URL, prefix not starting with xml (as the documentation requires)."
  },
  {
   "property": "C28",
   "status": "proved",
   "theorems": [
    "SX.C28_assignment",
    "SX.C28_calls",
    "SX.C28_inherited_irrelevant",
    "SX.C28_search_short",
    "SX.C28_requests_granted",
    "SX.C28_search_ends"
   ],
   "note": ""
  },
  {
   "property": "C29",
   "status": "partial",
   "theorems": [
    "SX.C29_attributes",
    "SX.C29_elements_iff",
    "SX.C29_document_iff",
    "SX.C29_declared_partial",
    "SX.C29_document_partial",
    "SX.C29_unprefixed_counterexample"
   ],
   "note": "Full for attributes. For elements C29_elements_iff and C29_document_iff say exactly when it holds: unless an element in no namespace is written below a default namespace, where the code violates it (C29_unprefixed_counterexample). C29_declared_partial gives a condition on the program. Mappings as for C27."
  },
  {
   "property": "C30",
   "status": "proved",
   "theorems": [
    "SX.C30_prefixed",
    "SX.C30_never_panics",
    "SX.C30_late_mapping_counterexample"
   ],
   "note": ""
  },
  {
   "property": "C31",
   "status": "partial",
   "theorems": [
    "SX.C31_never_panics_partial",
    "SX.C31_types_partial",
    "SX.C31_panics_iff",
    "SX.C31_panics_accepting_iff",
    "SX.C31_balanced",
    "SX.C31_no_namespace_counterexample"
   ],
   "note": "Proved for every set of derived types whose names use namespaces declared on their type (the macros check this, C37), and every value that has no elements in no namespace within elements that declare a default namespace (C31_types_partial: a condition on types under which that is every value). C31_panics_iff: exactly which values panic, namely those with an element in no namespace that has a default namespace among its own mappings (todo!); C31_no_namespace_counterexample."
  },
  {
   "property": "C32",
   "status": "partial",
   "theorems": [
    "SX.C32_represented",
    "SX.C32_asked",
    "SX.C32_document_partial",
    "SX.C32_types_partial",
    "SX.C32_document_iff",
    "SX.C32_no_namespace_counterexample"
   ],
   "note": "C32_asked is unconditional about what is asked of the writer. What is written is proved unless the value has elements in no namespace within elements that declare a default namespace: C32_no_namespace_counterexample. C32_document_iff: exactly for which values the document is written as declared, by the mappings in force in each element (rules of C48)."
  },
  {
   "property": "C33",
   "status": "partial",
   "theorems": [
    "SX.C33_refuted",
    "SX.C33_skipped_succeeds"
   ],
   "note": "False of the code: serializing a skipped variant succeeds and writes nothing, for every enum. The opposite of the claim is proved."
  },
  {
   "property": "C34",
   "status": "partial",
   "theorems": [
    "SX.C34_refuted",
    "SX.C34_text_counterexample"
   ],
   "note": "False of the code: text fields have no influence on what is written, for every struct. The opposite of the claim is proved."
  },
  {
   "property": "C35",
   "status": "partial",
   "theorems": [
    "SX.C35_roundtrip_partial",
    "SX.C35_roundtrip_iff",
    "SX.C35_reportable",
    "SX.C35_transported_partial",
    "SX.C35_string",
    "SX.C35_bool",
    "SX.C35_int",
    "SX.C35_struct",
    "SX.C35_two_flattens_never",
    "SX.C35_exact_partial",
    "SX.C35_flattened_never",
    "SX.C35_blank_counterexample",
    "SX.C35_default_counterexample",
    "SX.C35_empty_payload_counterexample"
   ],
   "note": "False of the code in general. C35_exact_partial says exactly which values are read back, for all sets of types and all values whose documents say what was declared (C32_document_iff says which these are); C35_roundtrip_iff is the case of types whose flattened fields are never in the way, C35_flattened_never what happens otherwise. Assumes that xml-rs transports what is written: Spec.ReadsBack, or, without reference to expanded names, Spec.Transported (C35_transported_partial)."
  },
  {
   "property": "C36",
   "status": "proved",
   "theorems": [
    "SX.C36_layout",
    "SX.C36_inserted"
   ],
   "note": "Assumes that xml-rs transports what is written and reports inserted indentation as white space (Spec.ReadsBack)."
  },
  {
   "property": "C37",
   "status": "proved",
   "theorems": [
    "SX.C37_description",
    "SX.C37_declared",
    "SX.C37_names_declared",
    "SX.C37_root_declared",
    "SX.C37_serialize_total",
    "SX.C37_serialize_total_types",
    "SX.C37_reserved_prefix_counterexample"
   ],
   "note": "C37_serialize_total composes with C31: types from accepted declarations never make serialization panic, for mappings that may be declared and without unprefixed elements under default namespaces."
  },
  {
   "property": "C38",
   "status": "proved",
   "theorems": [
    "SX.C38_display_injective",
    "SX.C38_braces_counterexample"
   ],
   "note": ""
  },
  {
   "property": "C39",
   "status": "proved",
   "theorems": [
    "SX.C39_display",
    "SX.C39_one_line",
    "SX.C39_union_items",
    "SX.C39_cause_injective",
    "SX.C39_reader_tells",
    "SX.C39_text_tells",
    "SX.C39_tells",
    "SX.C39_tells_cause",
    "SX.C39_tells_xml",
    "SX.C39_namespace_untold"
   ],
   "note": ""
  },
  {
   "property": "C40",
   "status": "proved",
   "theorems": [
    "SX.C40_accepted_iff",
    "SX.C40_reported",
    "SX.C37_description",
    "SX.C40_variant"
   ],
   "note": ""
  },
  {
   "property": "C41",
   "status": "proved",
   "theorems": [
    "SX.C41_panics_iff",
    "SX.C41_no_other_fault",
    "SX.C41_deserialize_panics_iff"
   ],
   "note": ""
  },
  {
   "property": "C42",
   "status": "proved",
   "theorems": [
    "SX.C42_text_accepted_iff",
    "SX.C42_text_description",
    "SX.C42_restriction_parse"
   ],
   "note": ""
  },
  {
   "property": "C43",
   "status": "proved",
   "theorems": [
    "SX.C43_tag",
    "SX.C43_attribute",
    "SX.C43_match",
    "SX.C43_xml",
    "SX.C43_document",
    "SX.C43_transportable"
   ],
   "note": "For xml-rs's contract on reported names (Spec.Transported)."
  },
  {
   "property": "C44",
   "status": "proved",
   "theorems": [
    "SX.C44_first",
    "SX.C44_complete",
    "SX.C44_struct_first",
    "SX.C44_prefix"
   ],
   "note": "For declarations without clashes (Spec.EnvOk)."
  },
  {
   "property": "C45",
   "status": "proved",
   "theorems": [
    "SX.C45_reread_iff",
    "SX.C45_crate",
    "SX.C45_range_faithful",
    "SX.C45_two_flattened",
    "SX.C45_reread",
    "SX.C45_read_good",
    "SX.C45_range",
    "SX.C45_bool_stable",
    "SX.C45_int_stable",
    "SX.C45_string_stable",
    "SX.C45_restriction_stable",
    "SX.C45_union_stable",
    "SX.C45_union_counterexample",
    "SX.C45_blank_counterexample"
   ],
   "note": "C45_reread_iff: a value read is read again exactly if no struct in it has several flattened fields; names of variants do not matter (C45_range_faithful: exactly which values can be read). C45_two_flattened: with two flattened fields the code loses the value. The text types bool, integers, String and restrictions meet the condition, unions if no earlier variant takes the text of a later one. Assumes that xml-rs transports what is written (Spec.ReadsBack)."
  },
  {
   "property": "C46",
   "status": "proved",
   "theorems": [
    "SX.C46_same_content",
    "SX.C21_shuffled_partial"
   ],
   "note": "For declarations without clashes (Spec.EnvOk). With several flattened fields the children must agree as a whole sequence (Spec.SameContent.several)."
  },
  {
   "property": "C47",
   "status": "proved",
   "theorems": [
    "SX.C47_fields",
    "SX.C47_read_element",
    "SX.C47_read_attribute",
    "SX.C47_written",
    "SX.C40_variant"
   ],
   "note": "C47_written is for values without elements in no namespace under default namespaces, as C32. The Rust types of fields are parameters (FieldTypes)."
  },
  {
   "property": "C48",
   "status": "proved",
   "theorems": [
    "SX.C48_prefixes",
    "SX.C48_unique",
    "SX.C48_same_calls",
    "SX.C48_order",
    "SX.C48_declarations"
   ],
   "note": ""
  },
  {
   "property": "C49",
   "status": "proved",
   "theorems": [
    "SX.C49_struct",
    "SX.C49_enum",
    "SX.C49_contract_needed",
    "SX.C49_struct_agrees",
    "SX.C49_enum_agrees"
   ],
   "note": ""
  },
  {
   "property": "C50",
   "status": "proved",
   "theorems": [
    "SX.C50_value",
    "SX.C50_missing",
    "SX.C50_child",
    "SX.C50_attribute"
   ],
   "note": "For element fields with distinct names and attribute fields with distinct names."
  },
  {
   "property": "C51",
   "status": "proved",
   "theorems": [
    "SX.C51_child",
    "SX.C51_attribute",
    "SX.C51_text"
   ],
   "note": ""
  },
  {
   "property": "C52",
   "status": "proved",
   "theorems": [
    "SX.C52_value",
    "SX.C52_which",
    "SX.C52_child"
   ],
   "note": "For variants with distinct names whose table can be searched (the side condition of C09_enum_table_partial)."
  },
  {
   "property": "C53",
   "status": "proved",
   "theorems": [
    "SX.C53_children",
    "SX.C53_attributes",
    "SX.C53_many",
    "SX.C53_enum",
    "SX.C53_agrees"
   ],
   "note": ""
  },
  {
   "property": "C54",
   "status": "proved",
   "theorems": [
    "SX.C54_document",
    "SX.C54_element",
    "SX.C54_text",
    "SX.C54_attribute",
    "SX.C54_error"
   ],
   "note": "For implementations that do not leak an ElementWriter with std::mem::forget (see C25)."
  },
  {
   "property": "C55",
   "status": "proved",
   "theorems": [
    "SX.C55_injective",
    "SX.C55_attribute",
    "SX.C55_write",
    "SX.C55_builder_dropped",
    "SX.C55_writer_dropped",
    "SX.C55_user"
   ],
   "note": "For names without braces, and for a quoting of strings ({:?}) that can be undone (Spec.PrefixFree)."
  },
  {
   "property": "C56",
   "status": "proved",
   "theorems": [
    "SX.C56_errors",
    "SX.C56_deserialize",
    "SX.C56_text"
   ],
   "note": "Of errors the kind and the strings in them are modelled, not the rest of the message nor the span."
  },
  {
   "property": "C57",
   "status": "proved",
   "theorems": [
    "SX.C57_float",
    "SX.C57_std",
    "SX.C57_declared",
    "SX.C57_string",
    "SX.C57_float_roundtrip",
    "SX.C57_std_roundtrip"
   ],
   "note": ""
  },
  {
   "property": "C58",
   "status": "proved",
   "theorems": [
    "SX.C58_struct",
    "SX.C58_struct_sound",
    "SX.C58_enum",
    "SX.C58_enum_sound"
   ],
   "note": "For structs without text fields, on which the macro panics (C59_panics_iff), and distinct identifiers, as Rust requires."
  },
  {
   "property": "C59",
   "status": "proved",
   "theorems": [
    "SX.C59_struct",
    "SX.C59_identifiers",
    "SX.C59_panics_iff",
    "SX.C59_enum_exhaustive_iff",
    "SX.C59_enum_indices",
    "SX.C59_serialize_exhaustive"
   ],
   "note": "The rules are those of Spec.Gen.Compiles and Spec.Gen.Exhaustive, for distinct identifiers of fields and variants."
  },
  {
   "property": "C60",
   "status": "proved",
   "theorems": [
    "SX.C60_struct",
    "SX.C60_enum",
    "SX.C60_enum_skipped",
    "SX.C60_root",
    "SX.C60_parse",
    "SX.C60_toText"
   ],
   "note": ""
  },
  {
   "property": "C61",
   "status": "proved",
   "theorems": [
    "SX.C61_given",
    "SX.C61_struct",
    "SX.C61_enum",
    "SX.C61_root",
    "SX.C61_parent_refuted",
    "SX.C61_flatten_refuted",
    "SX.C61_default_refuted"
   ],
   "note": "The documented cases are Spec.DocParent, Spec.DocFlatten and Spec.DocDefault; the refutations are of these."
  },
  {
   "property": "C62",
   "status": "proved",
   "theorems": [
    "SX.C62_read",
    "SX.C62_write",
    "SX.C62_through",
    "SX.C62_choice_first_refuted",
    "SX.C62_text",
    "SX.C62_textFor"
   ],
   "note": "Schemas and their valid documents are Spec.Schema; which types match a schema is Spec.Schema.Translates."
  },
  {
   "property": "C63",
   "status": "proved",
   "theorems": [
    "SX.C63_derive",
    "SX.C63_serialize",
    "SX.C63_deserialize",
    "SX.C63_parseText",
    "SX.C63_toText"
   ],
   "note": "For distinct identifiers of fields and of variants, as Rust requires. syn's own error for input that is not a declaration is not modelled."
  },
  {
   "property": "C64",
   "status": "proved",
   "theorems": [
    "SX.C64_read",
    "SX.C64_write",
    "SX.C64_hasTy",
    "SX.C64_printed",
    "SX.C64_parsed"
   ],
   "note": "For declarations without clashes (Spec.EnvOk)."
  },
  {
   "property": "C65",
   "status": "proved",
   "theorems": [
    "SX.C65_types",
    "SX.C65_env",
    "SX.C65_generated",
    "SX.C65_read",
    "SX.C65_value",
    "SX.C65_write",
    "SX.C65_roundtrip",
    "SX.C65_roundtrip_exact"
   ],
   "note": "C65_read does not distinguish panics from undefined behaviour; C65_value: on documents there is neither. Round trip under the conditions of C35_roundtrip_iff."
  },
  {
   "property": "C66",
   "status": "proved",
   "theorems": [
    "SX.C66_agrees",
    "SX.C66_visitors",
    "SX.C66_bounded",
    "SX.C66_exact",
    "SX.C66_ranked",
    "SX.C66_recursive",
    "SX.C66_crate"
   ],
   "note": "The unit is calls of read_to active at a time; bytes per call are not modelled."
  },
  {
   "property": "C67",
   "status": "proved",
   "theorems": [
    "SX.C67_received",
    "SX.C67_first",
    "SX.C67_derived",
    "SX.C67_crate"
   ],
   "note": "received is the events before the first failing write (C67_first says so without recursion). Any program with any handles; C67_crate is for emitted code."
  },
  {
   "property": "C68",
   "status": "proved",
   "theorems": [
    "SX.C68_prefix",
    "SX.C68_point",
    "SX.C68_readable",
    "SX.C68_derived",
    "SX.C68_document",
    "SX.C68_crate"
   ],
   "note": "openAfter is computed from the events alone. No assumption that the parser conforms to anything: faults before the cut are covered too (the result is then the fault)."
  },
  {
   "property": "C69",
   "status": "proved",
   "theorems": [
    "SX.C69_origin",
    "SX.C69_source",
    "SX.C69_raised",
    "SX.C69_io",
    "SX.C69_derived"
   ],
   "note": "The errors an implementation makes itself are a parameter (own), so C69_origin holds for every implementation; C69_source excludes implementations that return complete errors not given to them (read from another document, say). The errors of xml-rs are opaque but for their kind."
  },
  {
   "property": "C70",
   "status": "proved",
   "theorems": [
    "SX.C70_types",
    "SX.C70_parse",
    "SX.C70_toText",
    "SX.C70_total",
    "SX.C70_roundtrip",
    "SX.C42_text_unique"
   ],
   "note": "That variants are distinct and that no enum contains itself (the compiler's rules) are hypotheses. FromStr and ToString of types of mode std are arbitrary functions. Types with a ParseText implementation of their own are covered as far as they are of one of the forms of TextTy."
  },
  {
   "property": "C71",
   "status": "proved",
   "theorems": [
    "SX.C71_value",
    "SX.C71_required",
    "SX.C71_enum",
    "SX.C71_never",
    "SX.C71_one"
   ],
   "note": "Which field of a name is chosen is left open, as the standard library leaves open which of several equal entries a binary search finds. That flattened types keep the contract of RawDeserializeVisitor is a hypothesis."
  },
  {
   "property": "C72",
   "status": "proved",
   "theorems": [
    "SX.C72_invariant",
    "SX.C72_readable",
    "SX.C72_typed",
    "SX.C72_write"
   ],
   "note": "C72_typed and C72_write assume that defaults are of the field's type (Rust's type system), C72_write also what C32_types_partial does of names and namespaces."
  },
  {
   "property": "C73",
   "status": "proved",
   "theorems": [
    "SX.Unwind.C73_total",
    "SX.Unwind.C73_agrees",
    "SX.Unwind.C73_balanced",
    "SX.Unwind.C73_first_failure_sticks",
    "SX.Unwind.C73_attributes",
    "SX.Unwind.C73_elements_iff",
    "SX.Unwind.C73_field",
    "SX.Unwind.C73_panic_unnoticed",
    "SX.Unwind.C73_start_panics_iff",
    "SX.Unwind.C73_lost_element",
    "SX.Unwind.C73_panicking_stop"
   ],
   "note": "That an event whose write panics leaves nothing behind in the output is a simplification of the model."
  },
  {
   "property": "C74",
   "status": "proved",
   "theorems": [
    "SX.UnwindDe.C74_in_sync",
    "SX.UnwindDe.C74_in_sync_debug",
    "SX.UnwindDe.C74_total",
    "SX.UnwindDe.C74_debug_catch_counterexample",
    "SX.UnwindDe.C74_ok_final",
    "SX.UnwindDe.C74_parser_error",
    "SX.UnwindDe.C74_invariant",
    "SX.UnwindDe.C74_uncaught"
   ],
   "note": "Panics of xml-rs and of the io::Read are not modelled; failed debug assertions are not caught."
  },
  {
   "property": "C75",
   "status": "proved",
   "theorems": [
    "SX.C75_accepted",
    "SX.C75_apart",
    "SX.C75_flattens",
    "SX.C75_maps",
    "SX.C75_no_default",
    "SX.C75_prefixes",
    "SX.C75_reads",
    "SX.C75_roundtrip"
   ],
   "note": "For crates as in C65: types of fields are text types and types of the crate, and Option and Vec of them."
  },
  {
   "property": "C76",
   "status": "proved",
   "theorems": [
    "SX.C76_struct",
    "SX.C76_enum",
    "SX.C76_nested",
    "SX.C76_one",
    "SX.C76_opt",
    "SX.C76_vec",
    "SX.C76_default",
    "SX.C76_attribute",
    "SX.C76_text",
    "SX.C76_strict",
    "SX.C76_agrees",
    "SX.C76_into_sound"
   ],
   "note": "Debug builds: if no visitor swallows errors of reading children (C76_strict: generated visitors do not). Names of fields distinct; enum tables searchable as in C09."
  },
  {
   "property": "C77",
   "status": "proved",
   "theorems": [
    "SX.C77_struct",
    "SX.C77_enum",
    "SX.C77_one",
    "SX.C77_opt",
    "SX.C77_vec",
    "SX.C77_variant",
    "SX.C77_attribute",
    "SX.C77_text",
    "SX.C77_flatten",
    "SX.C77_flatten_default",
    "SX.C77_document"
   ],
   "note": "C77_document is for implementations that declare the namespaces they use and write no element in no namespace within a default namespace (C29), and that leak no writer (C25). Debug builds: if no visitor swallows errors (C76_strict)."
  },
  {
   "property": "C78",
   "status": "proved",
   "theorems": [
    "SX.C78_struct",
    "SX.C78_enum",
    "SX.C78_field",
    "SX.C78_attribute",
    "SX.C78_never_panics"
   ],
   "note": "Declared: as in C30; elements in no namespace only where no default namespace was asked for."
  },
  {
   "property": "C79",
   "status": "proved",
   "theorems": [
    "SX.C79_struct",
    "SX.C79_enum",
    "SX.C79_nested",
    "SX.C79_unique",
    "SX.C79_init",
    "SX.C79_update",
    "SX.C79_text",
    "SX.C79_attr",
    "SX.C79_missing",
    "SX.C79_into"
   ],
   "note": "Panics of field types are not errors: C74. Debug builds: if no visitor swallows errors (C76_strict)."
  },
  {
   "property": "C80",
   "status": "proved",
   "theorems": [
    "SX.OpenUnwind.C80_reachable_only",
    "SX.OpenUnwind.C80_program",
    "SX.OpenUnwind.C80_via",
    "SX.OpenUnwind.C80_derived",
    "SX.OpenUnwind.C80_fields",
    "SX.OpenUnwind.C80_told",
    "SX.OpenUnwind.C80_fields_agree",
    "SX.OpenUnwind.C80_agrees",
    "SX.OpenUnwind.C80_contract_needed",
    "SX.C49_struct",
    "SX.C49_enum"
   ],
   "note": "That derived types keep the contract, if those of their flattened fields do, is C49."
  },
  {
   "property": "C81",
   "status": "proved",
   "theorems": [
    "SX.OpenUnwind.C81_read",
    "SX.OpenUnwind.C81_panic_as_error",
    "SX.OpenUnwind.C81_derived",
    "SX.OpenUnwind.C81_fields",
    "SX.OpenUnwind.C81_via",
    "SX.OpenUnwind.C81_program",
    "SX.OpenUnwind.C81_alike_needed"
   ],
   "note": "Default functions cannot return errors; that they panic is the same in both programs."
  },
  {
   "property": "C82",
   "status": "proved",
   "theorems": [
    "SX.C82_fresh",
    "SX.C82_absent",
    "SX.C82_element",
    "SX.C82_attribute",
    "SX.C82_struct",
    "SX.C82_added",
    "SX.C82_payload",
    "SX.C82_enum",
    "SX.C82_recursive",
    "SX.C82_children",
    "SX.C82_read",
    "SX.C82_written"
   ],
   "note": "The two programs may have different visitors and types of values; C82_added compares two structs of one program. Debug builds: if no visitor swallows errors (C76_strict)."
  },
  {
   "property": "C83",
   "status": "proved",
   "theorems": [
    "SX.OpenUnwind.C83_read",
    "SX.OpenUnwind.C83_place",
    "SX.OpenUnwind.C83_derived",
    "SX.OpenUnwind.C83_fields",
    "SX.OpenUnwind.C83_via",
    "SX.OpenUnwind.C83_program",
    "SX.OpenUnwind.C83_own_error_needed"
   ],
   "note": "Default functions are taken not to panic: they return no errors, so there is no program with an error in their place."
  },
  {
   "property": "C84",
   "status": "proved",
   "theorems": [
    "SX.C84_normalize",
    "SX.C84_looked",
    "SX.C84_moved",
    "SX.C84_find",
    "SX.C84_digits",
    "SX.C84_read",
    "SX.C84_read_once",
    "SX.C84_determined",
    "SX.C84_work",
    "SX.C84_work_exact",
    "SX.C84_derived",
    "SX.C84_unknown",
    "SX.C84_prefixes",
    "SX.C84_prefixes_once",
    "SX.C84_prefixes_worst"
   ],
   "note": "The functions with counts (Model/Cost.lean) are proved to return what those of the model return. What is counted: bytes looked at and moved, names compared, events fetched, calls, prefixes tried; not allocations, nor what xml-rs, parsing of texts and BTreeMap do."
  },
  {
   "property": "C85",
   "status": "proved",
   "theorems": [
    "SX.C85_document",
    "SX.C85_input",
    "SX.C85_reads",
    "SX.C85_passes_on",
    "SX.C85_std",
    "SX.C85_field",
    "SX.C85_payload",
    "SX.C85_refused",
    "SX.C85_invariant",
    "SX.C85_round_trip",
    "SX.C85_field_round_trip",
    "SX.C85_upgrade",
    "SX.C85_field_upgrade",
    "SX.C85_panics",
    "SX.C85_agrees"
   ],
   "note": "Types written by hand that read one other type once and fields that read one other type for each child; the functions that make and combine values are arbitrary, and may fail and panic."
  },
  {
   "property": "C86",
   "status": "proved",
   "theorems": [
    "SX.C86_kept",
    "SX.C86_counts",
    "SX.C86_rewritten",
    "SX.C86_injective",
    "SX.C86_normal_form",
    "SX.C86_rewritten_iff",
    "SX.C86_injective_faithful",
    "SX.C86_normal_form_singly",
    "SX.C86_any"
   ],
   "note": "Alike is Spec/Kept.lean. C86_rewritten and C86_normal_form are under the conditions of C45 (text types whose text form parses to the same value, defaults that can be read back, at most one flattened field, no blank texts); C86_kept is for any number of flattened fields and any text types. C86_rewritten_iff says exactly when rewriting keeps the content, C86_normal_form_singly has no condition on the names of variants."
  },
  {
   "property": "C87",
   "status": "proved",
   "theorems": [
    "SX.C87_text",
    "SX.C87_text_attributes",
    "SX.C87_text_children_refuted",
    "SX.C87_text_types",
    "SX.C87_remixed",
    "SX.C87_read_to",
    "SX.C87_read_string",
    "SX.C87_missing"
   ],
   "note": "The sentence on child elements in lib.rs:24-25 is refuted for every parse function that accepts anything. The documentation's rules on prefixes are C48 and C61 (three of them refuted there), on skipped variants C33, on declarations C40 and C56, on schemas C62."
  },
  {
   "property": "C88",
   "status": "proved",
   "theorems": [
    "SX.C88_mappings",
    "SX.C88_read_names",
    "SX.C88_write_names",
    "SX.C88_root_name"
   ],
   "note": "That serialization fails if start or finish is not called (ser/mod.rs:155-159,210-213) is C25, that everything fails after the first failure (ser/mod.rs:69) is C26, which mapping wins is C48 and C61."
  },
  {
   "property": "C89",
   "status": "proved",
   "theorems": [
    "SX.C89_grown",
    "SX.C89_written",
    "SX.C89_written_faithful"
   ],
   "note": "The condition on names is necessary (example in Props/Grow.lean): an element that was ignored can be one too many for an enum that gets a variant of that name. C82 is the counterpart for types with implementations written by hand."
  },
  {
   "property": "C90",
   "status": "proved",
   "theorems": [
    "SX.C90_context",
    "SX.C90_propagating",
    "SX.C90_derived",
    "SX.C90_crate",
    "SX.C90_release_counterexample"
   ],
   "note": "C90_release_counterexample: without the condition it is false in release builds: <r><a><b/><c> with an error of the parser within c is reported with the stack r, a, b if the error of b was forgiven."
  },
  {
   "property": "C91",
   "status": "proved",
   "theorems": [
    "SX.C91_mappings",
    "SX.C91_events",
    "SX.C91_derived",
    "SX.C91_document"
   ],
   "note": "Counts calls, mappings and tries, not bytes; Vec, HashMap operations and xml-rs itself count as one step. C91_document has the conditions of C32_document_partial."
  },
  {
   "property": "C92",
   "status": "proved",
   "theorems": [
    "SX.C92_any",
    "SX.C92_copy",
    "SX.C92_rest"
   ],
   "note": "The implementations are part of the proof (Proof/AnyElement.lean, Proof/AnyRest.lean), not of /repo, which only plans one. Comments, processing instructions and the choice of prefixes are not kept: the traits do not report them. Which texts get lost is exact: those that are blank."
  },
  {
   "property": "C93",
   "status": "proved",
   "theorems": [
    "SX.C93_document",
    "SX.C93_counted",
    "SX.C93_derived",
    "SX.C93_ranked",
    "SX.C93_recursive"
   ],
   "note": "Counts handles (each builder or writer borrows from the one below it, so it is in a stack frame of its own caller), not bytes of stack. C93_recursive: for every number there is a value whose document, if written, needs more."
  },
  {
   "property": "C94",
   "status": "proved",
   "theorems": [
    "SX.C94_read",
    "SX.C94_one_to_one",
    "SX.C94_written",
    "SX.ExD.C94_flattened_order"
   ],
   "note": "SameVal, Reordered and SameError (Spec/DeclOrder) say what corresponding values, types and errors are. C94_written asks that the writer would read its own output back (exact condition of C35)."
  },
  {
   "property": "C95",
   "status": "proved",
   "theorems": [
    "SX.C95_read",
    "SX.C95_written",
    "SX.C95_documents"
   ],
   "note": "Rewritten (Spec/Rewrite) relates the sources of two crates. Conditions on each are those of C75 on its source. Default values are given with the types (they come from Default::default of the Rust types, which is not modelled)."
  },
  {
   "property": "C96",
   "status": "proved",
   "theorems": [
    "SX.C96_any",
    "SX.C96_counted",
    "SX.C96_peak",
    "SX.C96_value",
    "SX.C96_text"
   ],
   "note": "Model/Space.lean repeats the functions of the reader with the most held at a time, and is proved to return the same. Counted: what visitor states and values hold (one per value, struct, enum, Option, Vec; bytes of strings), and the text in read_string. Not counted: what xml-rs holds, the stack of element names (at most one entry per open element, C10), spare capacity, what FromStr makes of a text."
  },
  {
   "property": "C97",
   "status": "proved",
   "theorems": [
    "SX.C97_program",
    "SX.C97_call",
    "SX.C97_derived"
   ],
   "note": "The program with the replacement is in Spec/TextVisitor.lean; it uses the model's read_to only."
  },
  {
   "property": "C98",
   "status": "proved",
   "theorems": [
    "SX.C98_copy",
    "SX.C98_no_defaults",
    "SX.C98_counts",
    "SX.C98_depth"
   ],
   "note": "Spec/Copy.lean counts in documents, in what represents a value, and in the events written. The text and the namespace declarations are not counted: a true written for a 1 is longer."
  },
  {
   "property": "C99",
   "status": "proved",
   "theorems": [
    "SX.C99_place",
    "SX.C99_written",
    "SX.C99_document",
    "SX.C99_field",
    "SX.C99_flatten",
    "SX.C99_payload",
    "SX.C99_derived"
   ],
   "note": "Edit in Spec/Local.lean is the relation between the two programs; C99_field, C99_flatten and C99_payload are the steps of the way down for types of Part II. Changes of attributes are not covered: another set of attributes may need other prefixes in everything inside."
  },
  {
   "property": "C100",
   "status": "proved",
   "theorems": [
    "SX.C100_calls",
    "SX.C100_values",
    "SX.C100_written",
    "SX.C100_struct",
    "SX.C100_fields"
   ],
   "note": "On the level of events: that xml-rs escapes texts and values is assumed."
  },
  {
   "property": "C101",
   "status": "proved",
   "theorems": [
    "SX.C101_place",
    "SX.C101_attribute",
    "SX.C101_text"
   ],
   "note": "For declarations without clashes (Spec.EnvOk). Values only: which error is reported when several elements are wrong is C44."
  },
  {
   "property": "C102",
   "status": "proved",
   "theorems": [
    "SX.C102_place",
    "SX.C102_copies"
   ],
   "note": "For declarations without clashes (Spec.EnvOk). The new content is written with the mappings that are in force around it, which are the same. Attributes of the element are part of it."
  },
  {
   "property": "C103",
   "status": "proved",
   "theorems": [
    "SX.C103_error",
    "SX.C103_blame"
   ],
   "note": "For declarations without clashes (Spec.EnvOk). Name and position of the element are held fixed because they are part of errors about it that its content does not cause (a duplicate, say)."
  },
  {
   "property": "C104",
   "status": "proved",
   "theorems": [
    "SX.C104_read",
    "SX.C104_error",
    "SX.C104_copies",
    "SX.C104_markup"
   ],
   "note": "About the code emitted for a crate (Spec.Gen.Accepted, Crate.Tied, Crate.read, Crate.write), with conditions on its source (InOrder, Apart) and, for copies, Default::default() of its type (DefaultsTyped)."
  },
  {
   "property": "C105",
   "status": "proved",
   "theorems": [
    "SX.C105_reproduce",
    "SX.C105_crate"
   ],
   "note": "For declarations without clashes (Spec.EnvOk, or InOrder and Apart of the source). The element is given as the open place of its surroundings (Within)."
  },
  {
   "property": "C106",
   "status": "proved",
   "theorems": [
    "SX.C106_repair",
    "SX.C106_alike",
    "SX.C106_crate"
   ],
   "note": "For declarations without clashes (Spec.EnvOk, or InOrder and Apart of the source). Nothing is said of repairs elsewhere in the document, nor that the remaining error differs from the first."
  },
  {
   "property": "C107",
   "status": "proved",
   "theorems": [
    "SX.C107_options",
    "SX.C107_asked_unique",
    "SX.C107_string",
    "SX.C107_roundtrip",
    "SX.C107_readable",
    "SX.C107_crate"
   ],
   "note": "For reading back the contract of xml-rs is Spec.Conveys: UTF-8, and the reader reports what was written (Spec.Transported). The conditions on types and names are those of C35."
  },
  {
   "property": "C108",
   "status": "proved",
   "theorems": [
    "SX.C108_onward",
    "SX.C108_crate"
   ],
   "note": "For declarations without clashes (Spec.EnvOk, or InOrder and Apart of the source). pre and post are the events before and after the element, the same for all elements in its place."
  },
  {
   "property": "C109",
   "status": "proved",
   "theorems": [
    "SX.C109_prompt",
    "SX.C109_element",
    "SX.C109_crate"
   ],
   "note": "C109_prompt: implementations pass on errors unchanged and make up no others with context (Propagating), as derived ones do. C109_element and C109_crate: for declarations without clashes (Spec.EnvOk, or InOrder and Apart of the source)."
  },
  {
   "property": "C110",
   "status": "proved",
   "theorems": [
    "SX.C110_progress",
    "SX.C110_mended",
    "SX.C110_crate"
   ],
   "note": "For declarations without clashes (Spec.EnvOk, or InOrder and Apart of the source). Elements are counted by their end tags (endTags)."
  },
  {
   "property": "C111",
   "status": "proved",
   "theorems": [
    "SX.C111_origin",
    "SX.C111_struct",
    "SX.C111_nothing_made_up",
    "SX.C111_crate"
   ],
   "note": "For declarations without clashes (Spec.EnvOk, or InOrder and Apart of the source). A text in a value is given as the value around it (Place), an element in a document as the open place of its surroundings (Opened). Enums, Options and Vecs in a value can also be from several children of one element, and are not covered by themselves."
  },
  {
   "property": "C112",
   "status": "proved",
   "theorems": [
    "SX.C112_texts",
    "SX.C112_each",
    "SX.C112_leaves",
    "SX.C112_cut",
    "SX.C112_copy",
    "SX.C112_crate"
   ],
   "note": "For attributes of distinct names (AttrsDistinct), no text fields, and no skipped variants with values (C33 and C34 are what happens to these). No condition on namespaces: whatever is written without an error."
  },
  {
   "property": "C113",
   "status": "proved",
   "theorems": [
    "SX.C113_pieces",
    "SX.C113_cut",
    "SX.C113_crate"
   ],
   "note": "For attributes of distinct names (AttrsDistinct), no text fields, and no skipped variants with values (C33, C34). Prefixes are not compared (C29 to C32), nor what is inside what (C32)."
  }
 ]
}