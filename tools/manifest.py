#!/usr/bin/env python3
"""Writes MANIFEST.json. One entry per property: status, theorems, note."""
import json, os
C = []
def c(prop, status, theorems, note=""):
    C.append({"property": prop, "status": status, "theorems": ["SX." + t for t in theorems], "note": note})

c("C01", "proved", ["C01_normalize_spec"])
c("C02", "proved", ["C02_normalize_valid_utf8"])
c("C03", "proved", ["C03_normalize_idempotent", "C03_collapse_after_replace", "C03_replace_length", "C03_collapse_shape"])
c("C04", "proved", ["C04_bool_parse", "C04_bool_reject", "C04_bool_roundtrip"])
c("C05", "proved", ["C05_int_parse", "C05_int_reject", "C05_int_roundtrip"])
c("C06", "proved", ["C06_restriction_parse", "C06_restriction_roundtrip_known", "C06_restriction_roundtrip_unknown"])
c("C07", "proved", ["C07_union_parse", "C07_union_reject", "C07_union_roundtrip"])
c("C08", "proved", ["C08_find_exact", "C08_find_in_bounds"])
c("C09", "partial", ["C09_struct_table", "C09_enum_table_partial", "C09_enum_sorted_iff", "C09_enum_table_counterexample"],
  "Full for structs. For enums proved under the condition that variants without prefix do not come, by local name, after variants whose prefix maps to the empty URL; C09_enum_sorted_iff: the table is sorted exactly then; otherwise lookups can fail: C09_enum_table_counterexample.")
c("C10", "proved", ["C10_reader_in_sync", "C10_reader_in_sync_debug"],
  "Release build: every visitor. Debug build: visitors that do not swallow errors of child reads (see C12_debug_swallow_counterexample).")
c("C11", "proved", ["C11_truncated_never_ok", "C11_parser_error_is_error"])
c("C12", "proved", ["C12_read_total", "C12_documents_conform", "C12_debug_swallow_counterexample"])
c("C13", "proved", ["C13_error_context"], "For visitors that pass on errors of child reads unchanged, as the derived ones do.")
c("C14", "proved", ["C14_innermost_error_kept", "C13_error_context"])
c("C15", "proved", ["C15_text_concat", "C15_child_text"])
c("C16", "proved", ["C16_misc_invisible", "C16_misc_and_positions", "C16_same_value"])
c("C17", "proved", ["C17_prefix_independent"])
c("C18", "proved", ["C18_value", "C18_error", "C18_element_field", "C18_unfit_rejected", "C18_missing_error", "C18_duplicate_error", "C18_duplicate_missing"])
c("C19", "proved", ["C19_attribute_field", "C19_unfit_rejected", "C19_missing_error", "C19_duplicate_error", "C18_value"])
c("C20", "proved", ["C20_unknown_ignored", "C20_same_known_content"])
c("C21", "partial", ["C21_order_irrelevant_partial", "C21_shuffled_partial", "C21_order_iff", "C21_mixed", "C21_two_flattened", "C21_two_flattened_counterexample"],
  "For structs with at most one flattened field, and exactly these (C21_order_iff): with two or more, whatever can be read has a permutation that cannot (C21_two_flattened). For all structs the order may change between the children of different element fields and everything else (C21_mixed).")
c("C22", "proved", ["C22_memory_safe"], "Declarations with text fields are excluded: the macro generates no code for them.")
c("C23", "proved", ["C23_single_choice", "C23_empty", "C23_two_choices", "C18_error"])
c("C24", "proved", ["C24_offered_in_order", "C24_single_flattened", "C24_swallowed_counterexample"],
  "Acceptance is the code's: an enum that has accepted a child accepts every later one, also unknown ones (C24_swallowed_counterexample).")
c("C25", "partial", ["C25_balanced_partial", "C25_balanced_iff", "C25_failures_reported", "C25_forget_counterexample"],
  "For every implementation that does not leak an ElementWriter with std::mem::forget; with that the code violates it: C25_forget_counterexample. C25_balanced_iff is exact: the number of elements left open is the number of writers leaked.")
c("C26", "proved", ["C26_first_failure_sticks", "C26_program_sees", "C26_first_error", "C26_swallowed_reported", "C26_derived_stops"])
c("C27", "proved", ["C27_calls", "C27_failed_call", "C27_calls_total", "C27_written"],
  "C27_written is for mappings that are allowed: not to the empty URL, prefix not starting with xml (as the documentation requires).")
c("C28", "proved", ["C28_assignment", "C28_calls", "C28_inherited_irrelevant", "C28_search_short", "C28_requests_granted", "C28_search_ends"])
c("C29", "partial", ["C29_attributes", "C29_elements_iff", "C29_document_iff", "C29_declared_partial", "C29_document_partial", "C29_unprefixed_counterexample"],
  "Full for attributes. For elements C29_elements_iff and C29_document_iff say exactly when it holds: unless an element in no namespace is written below a default namespace, where the code violates it (C29_unprefixed_counterexample). C29_declared_partial gives a condition on the program. Mappings as for C27.")
c("C30", "proved", ["C30_prefixed", "C30_never_panics", "C30_late_mapping_counterexample"])
c("C31", "partial", ["C31_never_panics_partial", "C31_types_partial", "C31_panics_iff", "C31_panics_accepting_iff", "C31_balanced", "C31_no_namespace_counterexample"],
  "Proved for every set of derived types whose names use namespaces declared on their type (the macros check this, C37), and every value that has no elements in no namespace within elements that declare a default namespace (C31_types_partial: a condition on types under which that is every value). C31_panics_iff: exactly which values panic, namely those with an element in no namespace that has a default namespace among its own mappings (todo!); C31_no_namespace_counterexample.")
c("C32", "partial", ["C32_represented", "C32_asked", "C32_document_partial", "C32_types_partial", "C32_document_iff", "C32_no_namespace_counterexample"],
  "C32_asked is unconditional about what is asked of the writer. What is written is proved unless the value has elements in no namespace within elements that declare a default namespace: C32_no_namespace_counterexample. C32_document_iff: exactly for which values the document is written as declared, by the mappings in force in each element (rules of C48).")
c("C33", "partial", ["C33_refuted", "C33_skipped_succeeds"],
  "False of the code: serializing a skipped variant succeeds and writes nothing, for every enum. The opposite of the claim is proved.")
c("C34", "partial", ["C34_refuted", "C34_text_counterexample"],
  "False of the code: text fields have no influence on what is written, for every struct. The opposite of the claim is proved.")
c("C35", "partial", ["C35_roundtrip_partial", "C35_roundtrip_iff", "C35_reportable", "C35_transported_partial", "C35_string", "C35_bool", "C35_int", "C35_struct", "C35_two_flattens_never", "C35_exact_partial", "C35_flattened_never", "C35_blank_counterexample", "C35_default_counterexample", "C35_empty_payload_counterexample"],
  "False of the code in general. C35_exact_partial says exactly which values are read back, for all sets of types and all values whose documents say what was declared (C32_document_iff says which these are); C35_roundtrip_iff is the case of types whose flattened fields are never in the way, C35_flattened_never what happens otherwise. Assumes that xml-rs transports what is written: Spec.ReadsBack, or, without reference to expanded names, Spec.Transported (C35_transported_partial).")
c("C36", "proved", ["C36_layout", "C36_inserted"],
  "Assumes that xml-rs transports what is written and reports inserted indentation as white space (Spec.ReadsBack).")
c("C37", "proved", ["C37_description", "C37_declared", "C37_names_declared", "C37_root_declared", "C37_serialize_total", "C37_serialize_total_types", "C37_reserved_prefix_counterexample"],
  "C37_serialize_total composes with C31: types from accepted declarations never make serialization panic, for mappings that may be declared and without unprefixed elements under default namespaces.")
c("C38", "proved", ["C38_display_injective", "C38_braces_counterexample"])
c("C39", "proved", ["C39_display", "C39_one_line", "C39_union_items", "C39_cause_injective", "C39_reader_tells", "C39_text_tells", "C39_tells", "C39_tells_cause", "C39_tells_xml", "C39_namespace_untold"])
c("C40", "proved", ["C40_accepted_iff", "C40_reported", "C37_description", "C40_variant"])
c("C41", "proved", ["C41_panics_iff", "C41_no_other_fault", "C41_deserialize_panics_iff"])
c("C42", "proved", ["C42_text_accepted_iff", "C42_text_description", "C42_restriction_parse"])
c("C43", "proved", ["C43_tag", "C43_attribute", "C43_match", "C43_xml", "C43_document", "C43_transportable"],
  "For xml-rs's contract on reported names (Spec.Transported).")
c("C44", "proved", ["C44_first", "C44_complete", "C44_struct_first", "C44_prefix"],
  "For declarations without clashes (Spec.EnvOk).")
c("C45", "proved", ["C45_reread_iff", "C45_crate", "C45_range_faithful", "C45_two_flattened", "C45_reread", "C45_read_good", "C45_range", "C45_bool_stable", "C45_int_stable", "C45_string_stable", "C45_restriction_stable", "C45_union_stable", "C45_union_counterexample", "C45_blank_counterexample"],
  "C45_reread_iff: a value read is read again exactly if no struct in it has several flattened fields; names of variants do not matter (C45_range_faithful: exactly which values can be read). C45_two_flattened: with two flattened fields the code loses the value. The text types bool, integers, String and restrictions meet the condition, unions if no earlier variant takes the text of a later one. Assumes that xml-rs transports what is written (Spec.ReadsBack).")
c("C46", "proved", ["C46_same_content", "C21_shuffled_partial"],
  "For declarations without clashes (Spec.EnvOk). With several flattened fields the children must agree as a whole sequence (Spec.SameContent.several).")
c("C47", "proved", ["C47_fields", "C47_read_element", "C47_read_attribute", "C47_written", "C40_variant"],
  "C47_written is for values without elements in no namespace under default namespaces, as C32. The Rust types of fields are parameters (FieldTypes).")
c("C48", "proved", ["C48_prefixes", "C48_unique", "C48_same_calls", "C48_order", "C48_declarations"])
c("C49", "proved", ["C49_struct", "C49_enum", "C49_contract_needed", "C49_struct_agrees", "C49_enum_agrees"])
c("C50", "proved", ["C50_value", "C50_missing", "C50_child", "C50_attribute"],
  "For element fields with distinct names and attribute fields with distinct names.")
c("C51", "proved", ["C51_child", "C51_attribute", "C51_text"])
c("C52", "proved", ["C52_value", "C52_which", "C52_child"],
  "For variants with distinct names whose table can be searched (the side condition of C09_enum_table_partial).")
c("C53", "proved", ["C53_children", "C53_attributes", "C53_many", "C53_enum", "C53_agrees"])
c("C54", "proved", ["C54_document", "C54_element", "C54_text", "C54_attribute", "C54_error"],
  "For implementations that do not leak an ElementWriter with std::mem::forget (see C25).")
c("C55", "proved", ["C55_injective", "C55_attribute", "C55_write", "C55_builder_dropped", "C55_writer_dropped", "C55_user"],
  "For names without braces, and for a quoting of strings ({:?}) that can be undone (Spec.PrefixFree).")
c("C56", "proved", ["C56_errors", "C56_deserialize", "C56_text"],
  "Of errors the kind and the strings in them are modelled, not the rest of the message nor the span.")
c("C57", "proved", ["C57_float", "C57_std", "C57_declared", "C57_string", "C57_float_roundtrip", "C57_std_roundtrip"])
c("C58", "proved", ["C58_struct", "C58_struct_sound", "C58_enum", "C58_enum_sound"],
  "For structs without text fields, on which the macro panics (C59_panics_iff), and distinct identifiers, as Rust requires.")
c("C59", "proved", ["C59_struct", "C59_identifiers", "C59_panics_iff", "C59_enum_exhaustive_iff", "C59_enum_indices", "C59_serialize_exhaustive"],
  "The rules are those of Spec.Gen.Compiles and Spec.Gen.Exhaustive, for distinct identifiers of fields and variants.")
c("C60", "proved", ["C60_struct", "C60_enum", "C60_enum_skipped", "C60_root", "C60_parse", "C60_toText"])
c("C61", "proved", ["C61_given", "C61_struct", "C61_enum", "C61_root", "C61_parent_refuted", "C61_flatten_refuted", "C61_default_refuted"],
  "The documented cases are Spec.DocParent, Spec.DocFlatten and Spec.DocDefault; the refutations are of these.")
c("C62", "proved", ["C62_read", "C62_write", "C62_through", "C62_choice_first_refuted", "C62_text", "C62_textFor"],
  "Schemas and their valid documents are Spec.Schema; which types match a schema is Spec.Schema.Translates.")
c("C63", "proved", ["C63_derive", "C63_serialize", "C63_deserialize", "C63_parseText", "C63_toText"],
  "For distinct identifiers of fields and of variants, as Rust requires. syn's own error for input that is not a declaration is not modelled.")
c("C64", "proved", ["C64_read", "C64_write", "C64_hasTy", "C64_printed", "C64_parsed"],
  "For declarations without clashes (Spec.EnvOk).")
c("C65", "proved", ["C65_types", "C65_env", "C65_generated", "C65_read", "C65_value", "C65_write", "C65_roundtrip", "C65_roundtrip_exact"],
  "C65_read does not distinguish panics from undefined behaviour; C65_value: on documents there is neither. Round trip under the conditions of C35_roundtrip_iff.")
c("C66", "proved", ["C66_agrees", "C66_visitors", "C66_bounded", "C66_exact", "C66_ranked", "C66_recursive", "C66_crate"],
  "The unit is calls of read_to active at a time; bytes per call are not modelled.")

c("C67", "proved", ["C67_received", "C67_first", "C67_derived", "C67_crate"],
  "received is the events before the first failing write (C67_first says so without recursion). Any program with any handles; C67_crate is for emitted code.")

c("C68", "proved", ["C68_prefix", "C68_point", "C68_readable", "C68_derived", "C68_document", "C68_crate"],
  "openAfter is computed from the events alone. No assumption that the parser conforms to anything: faults before the cut are covered too (the result is then the fault).")

c("C69", "proved", ["C69_origin", "C69_source", "C69_raised", "C69_io", "C69_derived"],
  "The errors an implementation makes itself are a parameter (own), so C69_origin holds for every implementation; C69_source excludes implementations that return complete errors not given to them (read from another document, say). The errors of xml-rs are opaque but for their kind.")

c("C70", "proved", ["C70_types", "C70_parse", "C70_toText", "C70_total", "C70_roundtrip", "C42_text_unique"],
  "That variants are distinct and that no enum contains itself (the compiler's rules) are hypotheses. FromStr and ToString of types of mode std are arbitrary functions. Types with a ParseText implementation of their own are covered as far as they are of one of the forms of TextTy.")

c("C71", "proved", ["C71_value", "C71_required", "C71_enum", "C71_never", "C71_one"],
  "Which field of a name is chosen is left open, as the standard library leaves open which of several equal entries a binary search finds. That flattened types keep the contract of RawDeserializeVisitor is a hypothesis.")
c("C72", "proved", ["C72_invariant", "C72_readable", "C72_typed", "C72_write"],
  "C72_typed and C72_write assume that defaults are of the field's type (Rust's type system), C72_write also what C32_types_partial does of names and namespaces.")

c("C73", "proved", ["Unwind.C73_total", "Unwind.C73_agrees", "Unwind.C73_balanced", "Unwind.C73_first_failure_sticks", "Unwind.C73_attributes", "Unwind.C73_elements_iff", "Unwind.C73_field", "Unwind.C73_panic_unnoticed", "Unwind.C73_start_panics_iff", "Unwind.C73_lost_element", "Unwind.C73_panicking_stop"],
  "That an event whose write panics leaves nothing behind in the output is a simplification of the model.")

c("C74", "proved", ["UnwindDe.C74_in_sync", "UnwindDe.C74_in_sync_debug", "UnwindDe.C74_total", "UnwindDe.C74_debug_catch_counterexample", "UnwindDe.C74_ok_final", "UnwindDe.C74_parser_error", "UnwindDe.C74_invariant", "UnwindDe.C74_uncaught"],
  "Panics of xml-rs and of the io::Read are not modelled; failed debug assertions are not caught.")

c("C75", "proved", ["C75_accepted", "C75_apart", "C75_flattens", "C75_maps", "C75_no_default", "C75_prefixes", "C75_reads", "C75_roundtrip"],
  "For crates as in C65: types of fields are text types and types of the crate, and Option and Vec of them.")

c("C76", "proved", ["C76_struct", "C76_enum", "C76_nested", "C76_one", "C76_opt", "C76_vec", "C76_default", "C76_attribute", "C76_text", "C76_strict", "C76_agrees", "C76_into_sound"],
  "Debug builds: if no visitor swallows errors of reading children (C76_strict: generated visitors do not). Names of fields distinct; enum tables searchable as in C09.")

c("C77", "proved", ["C77_struct", "C77_enum", "C77_one", "C77_opt", "C77_vec", "C77_variant", "C77_attribute", "C77_text", "C77_flatten", "C77_flatten_default", "C77_document"],
  "C77_document is for implementations that declare the namespaces they use and write no element in no namespace within a default namespace (C29), and that leak no writer (C25). Debug builds: if no visitor swallows errors (C76_strict).")

c("C78", "proved", ["C78_struct", "C78_enum", "C78_field", "C78_attribute", "C78_never_panics"],
  "Declared: as in C30; elements in no namespace only where no default namespace was asked for.")

c("C79", "proved", ["C79_struct", "C79_enum", "C79_nested", "C79_unique", "C79_init", "C79_update", "C79_text", "C79_attr", "C79_missing", "C79_into"],
  "Panics of field types are not errors: C74. Debug builds: if no visitor swallows errors (C76_strict).")

c("C80", "proved", ["OpenUnwind.C80_reachable_only", "OpenUnwind.C80_program", "OpenUnwind.C80_via", "OpenUnwind.C80_derived", "OpenUnwind.C80_fields", "OpenUnwind.C80_told", "OpenUnwind.C80_fields_agree", "OpenUnwind.C80_agrees", "OpenUnwind.C80_contract_needed", "C49_struct", "C49_enum"],
  "That derived types keep the contract, if those of their flattened fields do, is C49.")

c("C81", "proved", ["OpenUnwind.C81_read", "OpenUnwind.C81_panic_as_error", "OpenUnwind.C81_derived", "OpenUnwind.C81_fields", "OpenUnwind.C81_via", "OpenUnwind.C81_program", "OpenUnwind.C81_alike_needed"],
  "Default functions cannot return errors; that they panic is the same in both programs.")

c("C82", "proved", ["C82_fresh", "C82_absent", "C82_element", "C82_attribute", "C82_struct", "C82_added", "C82_payload", "C82_enum", "C82_recursive", "C82_children", "C82_read", "C82_written"],
  "The two programs may have different visitors and types of values; C82_added compares two structs of one program. Debug builds: if no visitor swallows errors (C76_strict).")

c("C83", "proved", ["OpenUnwind.C83_read", "OpenUnwind.C83_place", "OpenUnwind.C83_derived", "OpenUnwind.C83_fields", "OpenUnwind.C83_via", "OpenUnwind.C83_program", "OpenUnwind.C83_own_error_needed"],
  "Default functions are taken not to panic: they return no errors, so there is no program with an error in their place.")

c("C84", "proved", ["C84_normalize", "C84_looked", "C84_moved", "C84_find", "C84_digits", "C84_read", "C84_read_once", "C84_determined", "C84_work", "C84_work_exact", "C84_derived", "C84_unknown", "C84_prefixes", "C84_prefixes_once", "C84_prefixes_worst"],
  "The functions with counts (Model/Cost.lean) are proved to return what those of the model return. What is counted: bytes looked at and moved, names compared, events fetched, calls, prefixes tried; not allocations, nor what xml-rs, parsing of texts and BTreeMap do.")

c("C85", "proved", ["C85_document", "C85_input", "C85_reads", "C85_passes_on", "C85_std", "C85_field", "C85_payload", "C85_refused", "C85_invariant", "C85_round_trip", "C85_field_round_trip", "C85_upgrade", "C85_field_upgrade", "C85_panics", "C85_agrees"],
  "Types written by hand that read one other type once and fields that read one other type for each child; the functions that make and combine values are arbitrary, and may fail and panic.")

c("C86", "proved", ["C86_kept", "C86_counts", "C86_rewritten", "C86_injective", "C86_normal_form", "C86_rewritten_iff", "C86_injective_faithful", "C86_normal_form_singly", "C86_any"],
  "Alike is Spec/Kept.lean. C86_rewritten and C86_normal_form are under the conditions of C45 (text types whose text form parses to the same value, defaults that can be read back, at most one flattened field, no blank texts); C86_kept is for any number of flattened fields and any text types. C86_rewritten_iff says exactly when rewriting keeps the content, C86_normal_form_singly has no condition on the names of variants.")

c("C87", "proved", ["C87_text", "C87_text_attributes", "C87_text_children_refuted", "C87_text_types", "C87_remixed", "C87_read_to", "C87_read_string", "C87_missing"],
  "The sentence on child elements in lib.rs:24-25 is refuted for every parse function that accepts anything. The documentation's rules on prefixes are C48 and C61 (three of them refuted there), on skipped variants C33, on declarations C40 and C56, on schemas C62.")

c("C88", "proved", ["C88_mappings", "C88_read_names", "C88_write_names", "C88_root_name"],
  "That serialization fails if start or finish is not called (ser/mod.rs:155-159,210-213) is C25, that everything fails after the first failure (ser/mod.rs:69) is C26, which mapping wins is C48 and C61.")

c("C89", "proved", ["C89_grown", "C89_written", "C89_written_faithful"],
  "The condition on names is necessary (example in Props/Grow.lean): an element that was ignored can be one too many for an enum that gets a variant of that name. C82 is the counterpart for types with implementations written by hand.")

c("C90", "proved", ["C90_context", "C90_propagating", "C90_derived", "C90_crate", "C90_release_counterexample"],
  "C90_release_counterexample: without the condition it is false in release builds: <r><a><b/><c> with an error of the parser within c is reported with the stack r, a, b if the error of b was forgiven.")

c("C91", "proved", ["C91_mappings", "C91_events", "C91_derived", "C91_document"],
  "Counts calls, mappings and tries, not bytes; Vec, HashMap operations and xml-rs itself count as one step. C91_document has the conditions of C32_document_partial.")

c("C92", "proved", ["C92_any", "C92_copy", "C92_rest"],
  "The implementations are part of the proof (Proof/AnyElement.lean, Proof/AnyRest.lean), not of /repo, which only plans one. Comments, processing instructions and the choice of prefixes are not kept: the traits do not report them. Which texts get lost is exact: those that are blank.")

c("C93", "proved", ["C93_document", "C93_counted", "C93_derived", "C93_ranked", "C93_recursive"],
  "Counts handles (each builder or writer borrows from the one below it, so it is in a stack frame of its own caller), not bytes of stack. C93_recursive: for every number there is a value whose document, if written, needs more.")

c("C94", "proved", ["C94_read", "C94_one_to_one", "C94_written", "ExD.C94_flattened_order"],
  "SameVal, Reordered and SameError (Spec/DeclOrder) say what corresponding values, types and errors are. C94_written asks that the writer would read its own output back (exact condition of C35).")

c("C95", "proved", ["C95_read", "C95_written", "C95_documents"],
  "Rewritten (Spec/Rewrite) relates the sources of two crates. Conditions on each are those of C75 on its source. Default values are given with the types (they come from Default::default of the Rust types, which is not modelled).")

c("C96", "proved", ["C96_any", "C96_counted", "C96_peak", "C96_value", "C96_text"],
  "Model/Space.lean repeats the functions of the reader with the most held at a time, and is proved to return the same. Counted: what visitor states and values hold (one per value, struct, enum, Option, Vec; bytes of strings), and the text in read_string. Not counted: what xml-rs holds, the stack of element names (at most one entry per open element, C10), spare capacity, what FromStr makes of a text.")

c("C97", "proved", ["C97_program", "C97_call", "C97_derived"],
  "The program with the replacement is in Spec/TextVisitor.lean; it uses the model's read_to only.")

c("C98", "proved", ["C98_copy", "C98_no_defaults", "C98_counts", "C98_depth"],
  "Spec/Copy.lean counts in documents, in what represents a value, and in the events written. The text and the namespace declarations are not counted: a true written for a 1 is longer.")

c("C99", "proved", ["C99_place", "C99_written", "C99_document", "C99_field", "C99_flatten", "C99_payload", "C99_derived"],
  "Edit in Spec/Local.lean is the relation between the two programs; C99_field, C99_flatten and C99_payload are the steps of the way down for types of Part II. Changes of attributes are not covered: another set of attributes may need other prefixes in everything inside.")

c("C100", "proved", ["C100_calls", "C100_values", "C100_written", "C100_struct", "C100_fields"],
  "On the level of events: that xml-rs escapes texts and values is assumed.")

c("C101", "proved", ["C101_place", "C101_attribute", "C101_text"],
  "For declarations without clashes (Spec.EnvOk). Values only: which error is reported when several elements are wrong is C44.")

c("C102", "proved", ["C102_place", "C102_copies"],
  "For declarations without clashes (Spec.EnvOk). The new content is written with the mappings that are in force around it, which are the same. Attributes of the element are part of it.")

c("C103", "proved", ["C103_error", "C103_blame"],
  "For declarations without clashes (Spec.EnvOk). Name and position of the element are held fixed because they are part of errors about it that its content does not cause (a duplicate, say).")

c("C104", "proved", ["C104_read", "C104_error", "C104_copies", "C104_markup"],
  "About the code emitted for a crate (Spec.Gen.Accepted, Crate.Tied, Crate.read, Crate.write), with conditions on its source (InOrder, Apart) and, for copies, Default::default() of its type (DefaultsTyped).")

c("C105", "proved", ["C105_reproduce", "C105_crate"],
  "For declarations without clashes (Spec.EnvOk, or InOrder and Apart of the source). The element is given as the open place of its surroundings (Within).")

c("C106", "proved", ["C106_repair", "C106_alike", "C106_crate"],
  "For declarations without clashes (Spec.EnvOk, or InOrder and Apart of the source). Nothing is said of repairs elsewhere in the document, nor that the remaining error differs from the first.")

c("C107", "proved", ["C107_options", "C107_asked_unique", "C107_string", "C107_roundtrip", "C107_readable", "C107_crate"],
  "For reading back the contract of xml-rs is Spec.Conveys: UTF-8, and the reader reports what was written (Spec.Transported). The conditions on types and names are those of C35.")

c("C108", "proved", ["C108_onward", "C108_crate"],
  "For declarations without clashes (Spec.EnvOk, or InOrder and Apart of the source). pre and post are the events before and after the element, the same for all elements in its place.")

c("C109", "proved", ["C109_prompt", "C109_element", "C109_crate"],
  "C109_prompt: implementations pass on errors unchanged and make up no others with context (Propagating), as derived ones do. C109_element and C109_crate: for declarations without clashes (Spec.EnvOk, or InOrder and Apart of the source).")

c("C110", "proved", ["C110_progress", "C110_mended", "C110_crate"],
  "For declarations without clashes (Spec.EnvOk, or InOrder and Apart of the source). Elements are counted by their end tags (endTags).")

c("C111", "proved", ["C111_origin", "C111_struct", "C111_nothing_made_up", "C111_crate"],
  "For declarations without clashes (Spec.EnvOk, or InOrder and Apart of the source). A text in a value is given as the value around it (Place), an element in a document as the open place of its surroundings (Opened). Enums, Options and Vecs in a value can also be from several children of one element, and are not covered by themselves.")

c("C112", "proved", ["C112_texts", "C112_each", "C112_leaves", "C112_cut", "C112_copy", "C112_crate"],
  "For attributes of distinct names (AttrsDistinct), no text fields, and no skipped variants with values (C33 and C34 are what happens to these). No condition on namespaces: whatever is written without an error.")

c("C113", "proved", ["C113_pieces", "C113_cut", "C113_crate"],
  "For attributes of distinct names (AttrsDistinct), no text fields, and no skipped variants with values (C33, C34). Prefixes are not compared (C29 to C32), nor what is inside what (C32).")

root = os.path.dirname(os.path.dirname(os.path.abspath(__file__)))
json.dump({"claims": C}, open(os.path.join(root, "MANIFEST.json"), "w"), indent=1)
