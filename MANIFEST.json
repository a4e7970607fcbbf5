{
 "claims": [
  {
   "property": "C01",
   "status": "proved",
   "theorems": [
    "Verif.C01_sem_id_injective"
   ],
   "note": ""
  },
  {
   "property": "C02",
   "status": "proved",
   "theorems": [
    "Verif.C02_named_sem_id_injective"
   ],
   "note": ""
  },
  {
   "property": "C03",
   "status": "partial",
   "theorems": [
    "Verif.C03_inline_commitment_violated",
    "Verif.C03_tuple_nesting_violated",
    "Verif.C03_inline_commitment_partial",
    "Verif.C03_unnamed_commitment_partial"
   ],
   "note": "Violated by the code for types of different shape (witnesses); proved for types of the same shape."
  },
  {
   "property": "C04",
   "status": "partial",
   "theorems": [
    "Verif.C04_named_unnamed_disjoint_violated",
    "Verif.C04_named_unnamed_disjoint_partial",
    "Verif.C04_long_names_disjoint_partial",
    "Verif.C04_forged_partial"
   ],
   "note": "Violated by the code for tuples and collections (witness); proved for the other classes and for most name lengths; for tuples and collections a common id needs a referenced id which was made to begin with the name and the kind of the named type (C04_forged_partial)."
  },
  {
   "property": "C05",
   "status": "partial",
   "theorems": [
    "Verif.C05_newtype_same_id_violated",
    "Verif.C05_newtype_same_id_partial",
    "Verif.C05_own_id_partial",
    "Verif.C05_embedded"
   ],
   "note": "Violated by the code: ids of newtype and wrapped type always differ (unless the hash collides)."
  },
  {
   "property": "C06",
   "status": "proved",
   "theorems": [
    "Verif.C06_lib_id_commits",
    "Verif.C06_lib_id_commits_types",
    "Verif.C06_lib_id_function"
   ],
   "note": ""
  },
  {
   "property": "C07",
   "status": "partial",
   "theorems": [
    "Verif.C07_sys_id_commits_violated",
    "Verif.C07_sys_id_commits_partial",
    "Verif.C07_self_identified_partial"
   ],
   "note": "Violated by the code: definitions are not covered (witness); ids are; proved in full for self-identified systems."
  },
  {
   "property": "C08",
   "status": "partial",
   "theorems": [
    "Verif.C08_same_id_violated",
    "Verif.C08_same_id_partial"
   ],
   "note": "Violated for types with named references (witness); proved for all others, at any depth."
  },
  {
   "property": "C09",
   "status": "proved",
   "theorems": [
    "Verif.C09_type_roundtrip",
    "Verif.C09_symbolic_roundtrip"
   ],
   "note": ""
  },
  {
   "property": "C10",
   "status": "partial",
   "theorems": [
    "Verif.C10_enum_violated",
    "Verif.C10_union_violated",
    "Verif.C10_shortest_partial",
    "Verif.C10_canonical_partial",
    "Verif.C10_other_partial"
   ],
   "note": "Violated for enums and unions with repeated variant names (witnesses); proved: the encoding is the only shortest string that decodes as a well-formed type; whatever is read as a type over semantic ids is its encoding unless it lists two variants of the same name, and this is the exact condition for well-formed types."
  },
  {
   "property": "C11",
   "status": "proved",
   "theorems": [
    "Verif.C11_library_roundtrip",
    "Verif.C11_symbolic_roundtrip",
    "Verif.C11_library_injective"
   ],
   "note": ""
  },
  {
   "property": "C12",
   "status": "proved",
   "theorems": [
    "Verif.C12_system_roundtrip",
    "Verif.C12_system_sorted",
    "Verif.C12_system_canonical"
   ],
   "note": ""
  },
  {
   "property": "C13",
   "status": "partial",
   "theorems": [
    "Verif.C13_success_all_imported",
    "Verif.C13_missing_reported_partial",
    "Verif.C13_complete_succeeds",
    "Verif.C13_outcomes",
    "Verif.C13_reports_violated"
   ],
   "note": "Violated only for types with 255 references in builds with overflow checks (finalize panics); everything else proved in full."
  },
  {
   "property": "C14",
   "status": "partial",
   "theorems": [
    "Verif.C14_complete_violated",
    "Verif.C14_complete_partial"
   ],
   "note": "Violated: the check of finalize looks up the wrong id (witness for every hash); proved: unresolved references are exactly references of the libraries which no library declares."
  },
  {
   "property": "C15",
   "status": "partial",
   "theorems": [
    "Verif.C15_same_ids",
    "Verif.C15_same_outcome",
    "Verif.C15_same_types_partial",
    "Verif.C15_inline_free_partial",
    "Verif.C15_order_violated"
   ],
   "note": "Violated because of C03 (witness for every hash); ids, imported libraries and outcome are proved to be independent of the order, and so are the types if definitions with the same id agree, in particular without inline types."
  },
  {
   "property": "C16",
   "status": "partial",
   "theorems": [
    "Verif.C16_resolve_sound",
    "Verif.C16_lookup_sound",
    "Verif.C16_names_resolve_partial",
    "Verif.C16_alias_violated",
    "Verif.C16_versions_violated"
   ],
   "note": "Soundness of resolve and lookup proved in full; completeness violated for types declared twice and for two versions of a library (witnesses), proved otherwise."
  },
  {
   "property": "C17",
   "status": "partial",
   "theorems": [
    "Verif.C17_extract_violated",
    "Verif.C17_extract_exact_partial"
   ],
   "note": "Violated only for reachable types with 255 references in builds with overflow checks (witness); the exact condition of success, the result, the errors and termination are proved for all systems of well formed types."
  },
  {
   "property": "C18",
   "status": "proved",
   "theorems": [
    "Verif.C18_extract_closed"
   ],
   "note": ""
  },
  {
   "property": "C19",
   "status": "proved",
   "theorems": [
    "Verif.C19_extract_preserves"
   ],
   "note": ""
  },
  {
   "property": "C20",
   "status": "proved",
   "theorems": [
    "Verif.C20_extend_preserves"
   ],
   "note": ""
  },
  {
   "property": "C21",
   "status": "proved",
   "theorems": [
    "Verif.C21_names_resolved",
    "Verif.C21_names_defined",
    "Verif.C21_compiles_iff"
   ],
   "note": ""
  },
  {
   "property": "C22",
   "status": "proved",
   "theorems": [
    "Verif.C22_terminates",
    "Verif.C22_conditions_necessary"
   ],
   "note": ""
  },
  {
   "property": "C23",
   "status": "partial",
   "theorems": [
    "Verif.C23_bad_references_violated",
    "Verif.C23_bad_references_partial"
   ],
   "note": "Violated: bad references lead to a panic or to non-termination, never to an error; proved that such libraries never compile."
  },
  {
   "property": "C24",
   "status": "partial",
   "theorems": [
    "Verif.C24_roundtrip_partial",
    "Verif.C24_compiled_roundtrip_partial",
    "Verif.C24_unused_dependency_violated"
   ],
   "note": "Proved for all compiled libraries with recorded symbols; violated for libraries changed after compilation."
  },
  {
   "property": "C25",
   "status": "proved",
   "theorems": [
    "Verif.C25_nesting_error_sound",
    "Verif.C25_nesting_error_complete"
   ],
   "note": ""
  },
  {
   "property": "C26",
   "status": "proved",
   "theorems": [
    "Verif.C26_dependencies_exact",
    "Verif.C26_unknown_library_refused"
   ],
   "note": ""
  },
  {
   "property": "C27",
   "status": "proved",
   "theorems": [
    "Verif.C27_externs_checked",
    "Verif.C27_error_sound",
    "Verif.C27_externs_exact"
   ],
   "note": ""
  },
  {
   "property": "C28",
   "status": "proved",
   "theorems": [
    "Verif.C28_call",
    "Verif.C28_sequence",
    "Verif.C28_same_name_allowed"
   ],
   "note": ""
  },
  {
   "property": "C29",
   "status": "partial",
   "theorems": [
    "Verif.C29_round_trip_violated",
    "Verif.C29_round_trip_partial",
    "Verif.C29_serialised_partial",
    "Verif.C29_char_partial"
   ],
   "note": "Violated in four ways (witnesses); proved exactly: in a sane system a well-typed value is written and read back if it has no part listed in `Unread`, and is never read back if it has one. Limits of serialising in memory included."
  },
  {
   "property": "C30",
   "status": "partial",
   "theorems": [
    "Verif.C30_canonical_violated",
    "Verif.C30_injective",
    "Verif.C30_canonical_partial",
    "Verif.C30_systems_partial"
   ],
   "note": "Violated in two ways (witnesses); proved exactly: what is read is written to the same bytes if it has no part listed in `Overread`, and is never written if it has one. A version by type systems too."
  },
  {
   "property": "C31",
   "status": "proved",
   "theorems": [
    "Verif.C31_deserialize_whole"
   ],
   "note": ""
  },
  {
   "property": "C32",
   "status": "partial",
   "theorems": [
    "Verif.C32_constraints_violated",
    "Verif.C32_constraints_partial",
    "Verif.C32_shape_partial"
   ],
   "note": "Violated for sizes, distinctness and alphabets (witnesses); proved exactly: in a sane system a decoded value is well typed if and only if nothing in it is listed in `Loose`; the shape of decoded values is proved for all of them."
  },
  {
   "property": "C33",
   "status": "partial",
   "theorems": [
    "Verif.C33_total_violated",
    "Verif.C33_total_partial",
    "Verif.C33_outcomes_partial",
    "Verif.C33_crates_partial"
   ],
   "note": "Violated for unicode characters, cyclic systems and length prefixes of 8 bytes (witnesses). Proved exactly: on which types and bytes reading panics, never ends or returns. For the types of Rust crates it returns."
  },
  {
   "property": "C34",
   "status": "partial",
   "theorems": [
    "Verif.C34_bounds_violated",
    "Verif.C34_bounds_partial",
    "Verif.C34_arrays_partial"
   ],
   "note": "Violated for arrays (witness), and it is stated exactly how far: an array of every number of items up to its length is accepted; proved for lists, sets, maps and the upper bound of arrays."
  },
  {
   "property": "C35",
   "status": "proved",
   "theorems": [
    "Verif.C35_distinct",
    "Verif.C35_repeated_rejected"
   ],
   "note": ""
  },
  {
   "property": "C36",
   "status": "partial",
   "theorems": [
    "Verif.C36_ranges_violated",
    "Verif.C36_kinds",
    "Verif.C36_ranges_partial"
   ],
   "note": "Violated for integers shorter than 64 bits (witness); proved that writing then reading returns the number exactly if it is in range."
  },
  {
   "property": "C37",
   "status": "partial",
   "theorems": [
    "Verif.C37_serialisable_violated",
    "Verif.C37_serialisable_partial"
   ],
   "note": "Violated for the forms listed in `Refused` (witnesses); proved exactly: the result of typify is serialised if it has no such part, and never if it has one."
  },
  {
   "property": "C38",
   "status": "partial",
   "theorems": [
    "Verif.C38_idempotent_violated",
    "Verif.C38_idempotent_partial"
   ],
   "note": "Violated for incomplete tuples and structs (witnesses); proved exactly: the result of typify is kept if it has no part listed in `Incomplete`, and is not kept if it has one."
  },
  {
   "property": "C39",
   "status": "partial",
   "theorems": [
    "Verif.C39_decoded_violated",
    "Verif.C39_decoded_partial",
    "Verif.C39_typed_partial"
   ],
   "note": "Violated for decoded values that break constraints and for raw bytes (witnesses); proved exactly: in a sane system a decoded value is kept if and only if it has no part listed in `Unfit` or `Altered`; the same for all well-typed values with `Altered` alone."
  },
  {
   "property": "C40",
   "status": "proved",
   "theorems": [
    "Verif.C40_exact_fields",
    "Verif.C40_declaration_order"
   ],
   "note": ""
  },
  {
   "property": "C41",
   "status": "partial",
   "theorems": [
    "Verif.C41_path_violated",
    "Verif.C41_path_partial"
   ],
   "note": "Violated for paths of two and more steps (witness); proved for shorter paths, and what longer paths give instead: the part the first step leads to."
  },
  {
   "property": "C42",
   "status": "partial",
   "theorems": [
    "Verif.C42_path_violated",
    "Verif.C42_tuple_violated",
    "Verif.C42_path_partial"
   ],
   "note": "Violated for paths of two and more steps and for tuples (witnesses); proved otherwise, with the exact answer given for longer paths: every step is taken from the root."
  },
  {
   "property": "C43",
   "status": "proved",
   "theorems": [
    "Verif.C43_key_step_exact"
   ],
   "note": ""
  },
  {
   "property": "C44",
   "status": "partial",
   "theorems": [
    "Verif.C44_tuple_case_violated",
    "Verif.C44_iter_enumerates_violated",
    "Verif.C44_into_iter_enumerates_partial",
    "Verif.C44_iter_enumerates_partial",
    "Verif.C44_iter_tuple_partial"
   ],
   "note": "Violated for the item cases of tuples and for 255 references in builds with overflow checks (witnesses); proved otherwise."
  },
  {
   "property": "C45",
   "status": "proved",
   "theorems": [
    "Verif.C45_count_agrees"
   ],
   "note": ""
  },
  {
   "property": "C46",
   "status": "proved",
   "theorems": [
    "Verif.C46_enum_lookups_inverse",
    "Verif.C46_union_lookups_inverse"
   ],
   "note": ""
  },
  {
   "property": "C47",
   "status": "partial",
   "theorems": [
    "Verif.C47_option_recognised",
    "Verif.C47_values_violated",
    "Verif.C47_values_partial"
   ],
   "note": "Types proved in full; values violated for payloads that are null, pairs or unions (witnesses), proved exactly: what is made of these, and the claim otherwise."
  },
  {
   "property": "C48",
   "status": "proved",
   "theorems": [
    "Verif.C48_unwrap"
   ],
   "note": ""
  },
  {
   "property": "C49",
   "status": "partial",
   "theorems": [
    "Verif.C49_items",
    "Verif.C49_mirror_partial",
    "Verif.C49_preorder_partial",
    "Verif.C49_optional_root_violated",
    "Verif.C49_optional_fields_violated"
   ],
   "note": "Violated with optional types (witnesses); proved without them; items and the panic for more than 2^32 - 1 of them proved for all types; the order of items in the text proved with optional types below the root."
  },
  {
   "property": "C50",
   "status": "proved",
   "theorems": [
    "Verif.C50_parse_exact",
    "Verif.C50_parse_error",
    "Verif.C50_parse_display",
    "Verif.C50_arguments"
   ],
   "note": ""
  },
  {
   "property": "C51",
   "status": "partial",
   "theorems": [
    "Verif.C51_form_partial",
    "Verif.C51_form_violated",
    "Verif.C51_distinct_partial",
    "Verif.C51_distinct_violated"
   ],
   "note": "Violated (witnesses): the two kinds of fragments are displayed in the wrong places and build kinds are not distinguished; exact conditions proved."
  },
  {
   "property": "C52",
   "status": "partial",
   "theorems": [
    "Verif.C52_text_violated",
    "Verif.C52_text_partial",
    "Verif.C52_decoded_partial",
    "Verif.C52_bytes_form",
    "Verif.C52_none_form"
   ],
   "note": "Violated for strings with quotation marks and across types (witnesses); proved for values of one type otherwise."
  },
  {
   "property": "C53",
   "status": "partial",
   "theorems": [
    "Verif.C53_json_partial",
    "Verif.C53_yaml_partial",
    "Verif.C53_toml_partial",
    "Verif.C53_json_injective",
    "Verif.C53_float_violated",
    "Verif.C53_yaml_tag_violated"
   ],
   "note": "Violated for floats, dates and YAML tags (witnesses); proved for all other documents."
  },
  {
   "property": "C54",
   "status": "partial",
   "theorems": [
    "Verif.C54_dependency_eq_violated",
    "Verif.C54_dependency_eq_partial",
    "Verif.C54_hash_violated",
    "Verif.C54_hash_partial"
   ],
   "note": "Violated: equality of dependencies is not transitive and equal dependencies may hash differently (witnesses); proved where ids and names agree."
  },
  {
   "property": "C55",
   "status": "proved",
   "theorems": [
    "Verif.C55_translate_structural",
    "Verif.C55_translate_first_error",
    "Verif.C55_limits",
    "Verif.C55_translate_pure"
   ],
   "note": ""
  },
  {
   "property": "C56",
   "status": "partial",
   "theorems": [
    "Verif.C56_rstring_sizing_violated",
    "Verif.C56_rstring_sizing_partial"
   ],
   "note": "Violated for the largest size (witness); proved for all other sizes."
  },
  {
   "property": "C57",
   "status": "proved",
   "theorems": [
    "Verif.C57_recorded",
    "Verif.C57_exact",
    "Verif.C57_succeeds",
    "Verif.C57_order_repetition"
   ],
   "note": ""
  },
  {
   "property": "C58",
   "status": "partial",
   "theorems": [
    "Verif.C58_definitions_violated",
    "Verif.C58_definitions_partial",
    "Verif.C58_inline_free_partial"
   ],
   "note": "Violated because of C03 (witness for every hash); proved if definitions with the same id agree, in particular without inline types."
  },
  {
   "property": "C59",
   "status": "proved",
   "theorems": [
    "Verif.C59_reading_total",
    "Verif.C59_symbolic_total",
    "Verif.C59_whole_file"
   ],
   "note": ""
  },
  {
   "property": "C60",
   "status": "partial",
   "theorems": [
    "Verif.C60_decoded_violated",
    "Verif.C60_decoded_partial"
   ],
   "note": "Violated: incomplete systems and wrong ids are decoded (witnesses); order and limits proved."
  },
  {
   "property": "C61",
   "status": "partial",
   "theorems": [
    "Verif.C61_size_violated",
    "Verif.C61_size_partial"
   ],
   "note": "Violated for systems of more than 490 types (witness with 491, so the bound is exact); proved up to 490."
  },
  {
   "property": "C62",
   "status": "partial",
   "theorems": [
    "Verif.C62_names_partial",
    "Verif.C62_optional_field_violated"
   ],
   "note": "Violated for optional fields (for all of them); proved for all others."
  },
  {
   "property": "C63",
   "status": "partial",
   "theorems": [
    "Verif.C63_tags_partial",
    "Verif.C63_tag_violated"
   ],
   "note": "Violated for all variants whose tag is not their position; proved for all others."
  },
  {
   "property": "C64",
   "status": "partial",
   "theorems": [
    "Verif.C64_one_name_violated",
    "Verif.C64_enum_replaced_violated",
    "Verif.C64_top_level_partial"
   ],
   "note": "Violated for types of fields and for enums (witnesses); proved for types transpiled directly, up to variants that agree in tag or name only (a separate relation)."
  },
  {
   "property": "C65",
   "status": "partial",
   "theorems": [
    "Verif.C65_externs_declared_partial",
    "Verif.C65_id_independent_partial",
    "Verif.C65_own_parameter_violated"
   ],
   "note": "Violated for generic types of another library applied to types of the library being built (witness for every hash); proved for layered crates."
  },
  {
   "property": "C66",
   "status": "proved",
   "theorems": [
    "Verif.C66_crates_build",
    "Verif.C66_definitions"
   ],
   "note": ""
  },
  {
   "property": "C67",
   "status": "partial",
   "theorems": [
    "Verif.C67_system_complete",
    "Verif.C67_system_types_partial",
    "Verif.C67_names_resolve_partial"
   ],
   "note": "Completeness proved in full; definitions and names under the conditions which C58 and C16 need."
  },
  {
   "property": "C68",
   "status": "partial",
   "theorems": [
    "Verif.C68_compiled_violated",
    "Verif.C68_compiled_partial",
    "Verif.C68_nesting_violated",
    "Verif.C68_option_violated",
    "Verif.C68_none_violated",
    "Verif.C68_name_violated",
    "Verif.C68_library_violated",
    "Verif.C68_types_partial",
    "Verif.C68_library_partial",
    "Verif.C68_shown_partial",
    "Verif.C68_tags"
   ],
   "note": "Violated for nested tuples, optional tuples, payloads of none, names of primitive types (witnesses); proved for types, libraries and compiled libraries without these, up to ids of external types, which are not shown in the source form."
  },
  {
   "property": "C69",
   "status": "proved",
   "theorems": [
    "Verif.C69_full_name"
   ],
   "note": ""
  },
  {
   "property": "C70",
   "status": "partial",
   "theorems": [
    "Verif.C70_override_violated",
    "Verif.C70_full_violated",
    "Verif.C70_failure_violated",
    "Verif.C70_contents",
    "Verif.C70_succeeds",
    "Verif.C70_complete",
    "Verif.C70_values_partial",
    "Verif.C70_commutes_partial",
    "Verif.C70_own_ids"
   ],
   "note": "Violated for different definitions under one id (replaced silently), for full systems, and for the state after failure (witnesses); contents, success, references and ids proved in full; values and order proved for systems which agree on common ids, which systems with own ids do (or the hash collides)."
  },
  {
   "property": "C71",
   "status": "partial",
   "theorems": [
    "Verif.C71_key_violated",
    "Verif.C71_brace_violated",
    "Verif.C71_variant_violated",
    "Verif.C71_keys_partial",
    "Verif.C71_value_paths_partial",
    "Verif.C71_type_steps_partial",
    "Verif.C71_type_paths_partial"
   ],
   "note": "Violated for string keys with closing braces or spelling numbers or bytes, and for fields against variants (witnesses); keys with the same text characterised exactly; proved for value paths without such keys and for type paths which exist in a type."
  },
  {
   "property": "C72",
   "status": "partial",
   "theorems": [
    "Verif.C72_newtype_violated",
    "Verif.C72_items_violated",
    "Verif.C72_struct",
    "Verif.C72_tuple_partial",
    "Verif.C72_variants",
    "Verif.C72_option",
    "Verif.C72_number",
    "Verif.C72_strings",
    "Verif.C72_string_forms",
    "Verif.C72_items_partial",
    "Verif.C72_map"
   ],
   "note": "Violated for one-field tuples (panic, or a field of the field) and for items of byte lists and restricted strings (witnesses); structs, unions, enums, options, numbers, strings and maps proved in full; tuples of other sizes and items of other lists and sets."
  },
  {
   "property": "C73",
   "status": "partial",
   "theorems": [
    "Verif.C73_labels_violated",
    "Verif.C73_ranges",
    "Verif.C73_ranges_meaning",
    "Verif.C73_labels_partial",
    "Verif.C73_layouts_partial",
    "Verif.C73_types_partial"
   ],
   "note": "Labels are not told by their text if a value of an enumeration is called tag or len, or a type has the name of another label (C73_labels_violated). Proved for all other labels, for all layouts with them, and for the types they show; ranges are told without condition."
  },
  {
   "property": "C74",
   "status": "partial",
   "theorems": [
    "Verif.C74_values_violated",
    "Verif.C74_readable",
    "Verif.C74_values_partial",
    "Verif.C74_stable",
    "Verif.C74_documents"
   ],
   "note": "Partial: the code violates the claim (untagged variants), C74_values_violated. Proved: every document is read, exactly which values come back, a second trip loses nothing, and exactly when two values share a document. Assumes that documents of big numbers (external crate) are not those of other parts."
  },
  {
   "property": "C75",
   "status": "partial",
   "theorems": [
    "Verif.C75_bytes_violated",
    "Verif.C75_sets_violated",
    "Verif.C75_pairs_violated",
    "Verif.C75_letters_violated",
    "Verif.C75_typed_partial"
   ],
   "note": "Violated for byte strings, sets, maps, pairs led by something like a tag and one-letter variants (witnesses); proved exactly: a well-typed value of a sane system is restored if it has no part listed in `Unrestored`, and never if it has one."
  },
  {
   "property": "C76",
   "status": "partial",
   "theorems": [
    "Verif.C76_system_sane",
    "Verif.C76_contents_partial",
    "Verif.C76_crates_sane"
   ],
   "note": "The system contains nothing but the described types; that each is found under its id needs definitions with the same id to be the same (see C58)."
  },
  {
   "property": "C77",
   "status": "partial",
   "theorems": [
    "Verif.C77_read_partial",
    "Verif.C77_read_violated",
    "Verif.C77_u128_violated"
   ],
   "note": "Conditions: definitions with the same id are the same, no tuple looks like a restricted string (the code misreads it, C77_read_violated), numbers up to 64 bits (reading others is not implemented, C77_u128_violated), collections below 2^32 items."
  },
  {
   "property": "C78",
   "status": "partial",
   "theorems": [
    "Verif.C78_write_partial",
    "Verif.C78_array_violated"
   ],
   "note": "Conditions of C77 (but numbers up to 128 bits are covered), and no arrays of anything but bytes: writing them is not implemented and panics (C78_array_violated)."
  },
  {
   "property": "C79",
   "status": "partial",
   "theorems": [
    "Verif.C79_ids",
    "Verif.C79_texts",
    "Verif.C79_alias_violated",
    "Verif.C79_crates_partial",
    "Verif.C79_read_write_partial"
   ],
   "note": "Violated: a type which two libraries declare under the same name is refused by the name of the library imported first (C16). Missing from the results on crates: such types, types also found unnamed inside of others, and what is missing from C77 and C78."
  },
  {
   "property": "C80",
   "status": "partial",
   "theorems": [
    "Verif.C80_exact_partial"
   ],
   "note": "Missing: systems with two definitions under one id (C58), tuples which look like restricted strings (C77), integers of more than 128 bits, collections declared for 2^32 items and more."
  },
  {
   "property": "C81",
   "status": "partial",
   "theorems": [
    "Verif.C81_typify_partial",
    "Verif.C81_by_name_partial",
    "Verif.C81_byte_violated",
    "Verif.C81_u128_violated"
   ],
   "note": "Violated: a raw byte (`Byte`) becomes a signed number; values of `u128` are refused (C81_u128_violated). Signed numbers of 128 bits are covered. Missing otherwise: what is missing from C77, C78 and C79."
  },
  {
   "property": "C82",
   "status": "partial",
   "theorems": [
    "Verif.C82_apart",
    "Verif.C82_outlines",
    "Verif.C82_ids_partial",
    "Verif.C82_system_partial",
    "Verif.C82_ids_violated",
    "Verif.C82_read_violated"
   ],
   "note": "Violated: tuples nested in tuples can have the same id though they are different, and then values are misread. Missing: crates with types not told apart by the comparison used (it looks at lengths only when a byte stands against an id)."
  },
  {
   "property": "C83",
   "status": "proved",
   "theorems": [
    "Verif.C83_self_description"
   ],
   "note": ""
  },
  {
   "property": "C84",
   "status": "partial",
   "theorems": [
    "Verif.C84_whole_partial"
   ],
   "note": "Proved for all crates of regular, distinguishable types. Missing are the kinds of types for which C77, C78, C81 and C82 are violated, among them numbers of more than 64 bits."
  },
  {
   "property": "C85",
   "status": "partial",
   "theorems": [
    "Verif.C85_record",
    "Verif.C85_enum",
    "Verif.C85_union",
    "Verif.C85_definer",
    "Verif.C85_definer_writes_violated",
    "Verif.C85_definer_checks"
   ],
   "note": "Violated for definers which go on to write: completing always panics (theorem for all fields); proved for the calls derived for structs, tuples, enums and unions."
  },
  {
   "property": "C86",
   "status": "partial",
   "theorems": [
    "Verif.C86_none_violated",
    "Verif.C86_names_violated",
    "Verif.C86_outside_violated",
    "Verif.C86_system_partial",
    "Verif.C86_symbolic_partial",
    "Verif.C86_symbols_partial"
   ],
   "note": "`C86_system_partial`, `C86_symbolic_partial`: same text, same system, under the conditions excluded by the witnesses (payload of `none` in unions shaped as an option is one fixed type; full names stand for one type each; the system is complete). Libraries of a symbolic system are shown by `Symbols` only, by name and mnemonic. The texts of ids are assumed to be chunks with dashes and different for different ids."
  },
  {
   "property": "C87",
   "status": "proved",
   "theorems": [
    "Verif.C87_kinds",
    "Verif.C87_symbolic",
    "Verif.C87_tags",
    "Verif.C87_clash"
   ],
   "note": ""
  },
  {
   "property": "C88",
   "status": "partial",
   "theorems": [
    "Verif.C88_files",
    "Verif.C88_place",
    "Verif.C88_binary_partial",
    "Verif.C88_binary_violated",
    "Verif.C88_source_partial",
    "Verif.C88_compiled_partial",
    "Verif.C88_source_violated",
    "Verif.C88_symbolic_place",
    "Verif.C88_symbolic_partial"
   ],
   "note": "Proved: paths are different for different names, versions or formats; binary files below 2^24 bytes are read back; source files determine id, name, version with header, and the shown library. The same for symbolic libraries. Violated: libraries of 2^24 bytes or more cannot be exported in binary form, and the source form of a library with an unrecorded external type panics (witnesses). Missing: definitions which the text does not show (C68) and headers which contain the end of a comment; compiled libraries up to the room of C24."
  },
  {
   "property": "C89",
   "status": "proved",
   "theorems": [
    "Verif.C89_tells",
    "Verif.C89_top",
    "Verif.C89_below",
    "Verif.C89_names",
    "Verif.C89_kind_unique"
   ],
   "note": ""
  },
  {
   "property": "C90",
   "status": "partial",
   "theorems": [
    "Verif.C90_one_of",
    "Verif.C90_values",
    "Verif.C90_char_enum_violated",
    "Verif.C90_char_enum_partial",
    "Verif.C90_ends"
   ],
   "note": "Violated: is_char_enum takes a pair with a character in front for an enum of characters, and a newtype of an enum of characters for one only while it is defined in place (witnesses). Proved: the partition of types, the shapes of values, the ends of unions; is_char_enum where no tuple of several fields is in the way. Exactly what is recognised: characters in front, through tuples of any length."
  },
  {
   "property": "C91",
   "status": "proved",
   "theorems": [
    "Verif.C91_enum",
    "Verif.C91_typed",
    "Verif.C91_bool",
    "Verif.C91_option"
   ],
   "note": ""
  },
  {
   "property": "C92",
   "status": "partial",
   "theorems": [
    "Verif.C92_roundtrip",
    "Verif.C92_injective",
    "Verif.C92_reading",
    "Verif.C92_display_violated",
    "Verif.C92_described"
   ],
   "note": "What is read is not checked: files of no items or of several roots are accepted, and showing them panics (C92_display_violated)."
  },
  {
   "property": "C93",
   "status": "partial",
   "theorems": [
    "Verif.C93_layout",
    "Verif.C93_shown_partial",
    "Verif.C93_strict_types"
   ],
   "note": "The text shown is proved for types without options (with options it is wrong, see C49)."
  },
  {
   "property": "C94",
   "status": "proved",
   "theorems": [
    "Verif.C94_libraries",
    "Verif.C94_vesper"
   ],
   "note": ""
  },
  {
   "property": "C95",
   "status": "proved",
   "theorems": [
    "Verif.C95_equality",
    "Verif.C95_equivalence",
    "Verif.C95_typed",
    "Verif.C95_read",
    "Verif.C95_distinct"
   ],
   "note": ""
  },
  {
   "property": "C96",
   "status": "partial",
   "theorems": [
    "Verif.C96_named_violated",
    "Verif.C96_read_partial",
    "Verif.C96_left",
    "Verif.C96_closed",
    "Verif.C96_typify",
    "Verif.C96_write"
   ],
   "note": "Reading a list whose item type is absent names the list type, which is in the system."
  },
  {
   "property": "C97",
   "status": "proved",
   "theorems": [
    "Verif.C97_list",
    "Verif.C97_array",
    "Verif.C97_newtype"
   ],
   "note": ""
  },
  {
   "property": "C98",
   "status": "proved",
   "theorems": [
    "Verif.C98_value_paths",
    "Verif.C98_injective",
    "Verif.C98_described",
    "Verif.C98_type_steps",
    "Verif.C98_versions",
    "Verif.C98_types"
   ],
   "note": ""
  },
  {
   "property": "C99",
   "status": "partial",
   "theorems": [
    "Verif.C99_type_told",
    "Verif.C99_shown_by_id",
    "Verif.C99_told_partial",
    "Verif.C99_told_violated"
   ],
   "note": "Violated for results of typify: absent options given by tag or by name, and items of arrays, which are not looked at (witnesses). Types are told in full; values which were read are told if their strings have no quotation marks (C52)."
  },
  {
   "property": "C100",
   "status": "proved",
   "theorems": [
    "Verif.C100_characters",
    "Verif.C100_names",
    "Verif.C100_names_of_model"
   ],
   "note": ""
  },
  {
   "property": "C101",
   "status": "partial",
   "theorems": [
    "Verif.C101_check_violated",
    "Verif.C101_check_partial",
    "Verif.C101_write"
   ],
   "note": "Violated for tuples of one field and options which wrap each other without an end (witness); proved otherwise. Writing is proved in full."
  },
  {
   "property": "C102",
   "status": "partial",
   "theorems": [
    "Verif.C102_violated",
    "Verif.C102_understood_partial",
    "Verif.C102_meant",
    "Verif.C102_unambiguous"
   ],
   "note": "`typify` drops the items of a list in excess of the fields of a tuple and all but the last of repeated entries of a map given for a structure (`C102_violated`). `C102_understood_partial` is exact for values without repeated names; the items in excess are visible in it as `more`."
  },
  {
   "property": "C103",
   "status": "partial",
   "theorems": [
    "Verif.C103_violated",
    "Verif.C103_encoding_partial",
    "Verif.C103_read_partial",
    "Verif.C103_prefix_free",
    "Verif.C103_tags"
   ],
   "note": "The limit of a restricted string whose tail is declared for 2^64 - 1 characters overflows: a length of one byte in place of eight in builds without overflow checks, a panic in others (`C103_violated`). Other restricted strings and all other types are covered."
  },
  {
   "property": "C104",
   "status": "partial",
   "theorems": [
    "Verif.C104_text_violated",
    "Verif.C104_option_violated",
    "Verif.C104_width_needed",
    "Verif.C104_read_partial",
    "Verif.C104_write_partial",
    "Verif.C104_values_partial",
    "Verif.C104_text_partial"
   ],
   "note": "A variant whose tag is the code of a letter changes how a text of this letter is understood, which before named another variant, and an optional type with a further variant is no longer optional (`C104_text_violated`, `C104_option_violated`); all other values given are understood as before. Reading, writing and being a value are covered for all types."
  },
  {
   "property": "C105",
   "status": "partial",
   "theorems": [
    "Verif.C105_violated",
    "Verif.C105_items",
    "Verif.C105_weightless",
    "Verif.C105_space_partial",
    "Verif.C105_strings"
   ],
   "note": "Violated for lists, sets and maps of items which take no bytes (`C105_violated`, `C105_items`); proved for all other systems, and for strings of all systems. Memory reserved for announced items which do not follow is not counted."
  },
  {
   "property": "C106",
   "status": "proved",
   "theorems": [
    "Verif.C106_ids",
    "Verif.C106_extended"
   ],
   "note": "Ids are compared for libraries which compile; when they do is C22."
  },
  {
   "property": "C107",
   "status": "partial",
   "theorems": [
    "Verif.C107_violated",
    "Verif.C107_values_partial",
    "Verif.C107_extract_partial",
    "Verif.C107_libraries_partial"
   ],
   "note": "Violated for inline types whose texts coincide (`C107_violated`, from C03). Proved for libraries without inline types, and for all systems with the same definitions under common ids."
  },
  {
   "property": "C108",
   "status": "partial",
   "theorems": [
    "Verif.C108_violated",
    "Verif.C108_bytes_violated",
    "Verif.C108_typed_partial",
    "Verif.C108_accepted_partial",
    "Verif.C108_written_partial"
   ],
   "note": "Violated: sets and maps are kept, compared and written in the order given, so one set has many encodings, and a set of sets may have one set twice. Proved: type, acceptance, and the bytes up to their places do not depend on the order."
  },
  {
   "property": "C109",
   "status": "proved",
   "theorems": [
    "Verif.C109_follows",
    "Verif.C109_cut",
    "Verif.C109_surplus",
    "Verif.C109_spoilt",
    "Verif.C109_streams"
   ],
   "note": "For data in memory without the limit of 4 GiB of the reader, which C112 is about."
  },
  {
   "property": "C110",
   "status": "partial",
   "theorems": [
    "Verif.C110_violated",
    "Verif.C110_values_partial",
    "Verif.C110_systems_partial",
    "Verif.C110_libraries_partial",
    "Verif.C110_programs_partial",
    "Verif.C110_data_partial",
    "Verif.C110_well_typed_partial",
    "Verif.C110_parts_partial",
    "Verif.C110_compiled",
    "Verif.C110_checking",
    "Verif.C110_builders_partial",
    "Verif.C110_builders_violated"
   ],
   "note": "Violated: with checks, some inputs panic which are processed without. What holds: a check never leads to another answer, for every function modelled; where both agree is stated for data, well-typed values, systems and compiling."
  },
  {
   "property": "C111",
   "status": "partial",
   "theorems": [
    "Verif.C111_attained_partial",
    "Verif.C111_attained_violated",
    "Verif.C111_violated",
    "Verif.C111_read_violated",
    "Verif.C111_written_partial",
    "Verif.C111_read_partial",
    "Verif.C111_exists",
    "Verif.C111_unique",
    "Verif.C111_fixed_partial",
    "Verif.C111_crates_partial"
   ],
   "note": "Violated: a type may contain itself, then there is data of every length; the decoder takes more items than declared, up to what the length can express. What holds: the lengths of written and of read data for all types which have bounds, their existence in systems without cycles and for the types of crates, and their uniqueness; that they are attained (the best possible) for systems without sets and maps, and a set for which they are not."
  },
  {
   "property": "C112",
   "status": "partial",
   "theorems": [
    "Verif.C112_violated",
    "Verif.C112_within",
    "Verif.C112_beyond",
    "Verif.C112_types_partial"
   ],
   "note": "Violated: byte strings of nearly 4 GiB are written and not read back. What holds: agreement with the unlimited functions for all data within the limit, rejection beyond it, and round trip for types within the limit. That the external reader fails beyond its limit as at the end of the data is assumed."
  },
  {
   "property": "C113",
   "status": "partial",
   "theorems": [
    "Verif.C113_violated",
    "Verif.C113_read_partial",
    "Verif.C113_data_partial",
    "Verif.C113_values_partial",
    "Verif.C113_equivalence"
   ],
   "note": "Violated for fields with and without names which make a restricted string: the same bytes are data of one type and not of the other. Holds for all other types of sane systems, recursive ones included. Values which are read back when written (C29) are written as data of the other type."
  },
  {
   "property": "C114",
   "status": "proved",
   "theorems": [
    "Verif.C114_read",
    "Verif.C114_write",
    "Verif.C114_replace",
    "Verif.C114_rewrite"
   ],
   "note": "Proved for sane systems; for writing, of well-typed values (whose replaced parts may be any values). Characters of restricted strings and of text, and bytes of byte strings, are not parts."
  }
 ]
}