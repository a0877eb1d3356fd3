{
 "claims": [
  {
   "property": "C01",
   "status": "proved",
   "theorems": [
    "Verif.C01_identifier_syntax",
    "Verif.C01_identifier_ascii"
   ],
   "note": ""
  },
  {
   "property": "C02",
   "status": "proved",
   "theorems": [
    "Verif.C02_namespace_syntax",
    "Verif.C02_namespace_split",
    "Verif.C02_namespace_split_join"
   ],
   "note": ""
  },
  {
   "property": "C03",
   "status": "proved",
   "theorems": [
    "Verif.C03_parse_display",
    "Verif.C03_display_parse",
    "Verif.C03_fromStr_iff_captures",
    "Verif.C03_isValid_iff_regex",
    "Verif.C03_display_injective"
   ],
   "note": ""
  },
  {
   "property": "C04",
   "status": "proved",
   "theorems": [
    "Verif.C04_identEq_iff_sameText",
    "Verif.C04_ceq_iff",
    "Verif.C04_ceq_equivalence",
    "Verif.C04_identEq_equivalence",
    "Verif.C04_member_ne_shape"
   ],
   "note": ""
  },
  {
   "property": "C05",
   "status": "proved",
   "theorems": [
    "Verif.C05_hash_contract_violated",
    "Verif.C05_lookup",
    "Verif.C05_lookup_not_determined",
    "Verif.C05_lookup_iff"
   ],
   "note": "The expectation is refuted (C05_hash_contract_violated, C05_lookup_not_determined). C05_lookup_iff is exact; C05_lookup is the case without keys that differ only by case."
  },
  {
   "property": "C06",
   "status": "proved",
   "theorems": [
    "Verif.C06_shapeOnly",
    "Verif.C06_make",
    "Verif.C06_isValidMember_iff",
    "Verif.C06_makeMember_valid",
    "Verif.C06_constructors"
   ],
   "note": ""
  },
  {
   "property": "C07",
   "status": "proved",
   "theorems": [
    "Verif.C07_urn_roundtrip",
    "Verif.C07_urn_inverse",
    "Verif.C07_urn_injective",
    "Verif.C07_isShapeIri_iff",
    "Verif.C07_refused",
    "Verif.C07_query_ignored"
   ],
   "note": ""
  },
  {
   "property": "C08",
   "status": "proved",
   "theorems": [
    "Verif.C08_simple",
    "Verif.C08_shapeType",
    "Verif.C08_comparator",
    "Verif.C08_errorSource",
    "Verif.C08_fileFormat",
    "Verif.C08_version",
    "Verif.C08_simple_subset_shapeType"
   ],
   "note": ""
  },
  {
   "property": "C09",
   "status": "proved",
   "theorems": [
    "Verif.C09_eq_iff_spec",
    "Verif.C09_eq_symm_trans",
    "Verif.C09_eq_refl_iff",
    "Verif.C09_eq_order_independent",
    "Verif.C09_permuted_object_same",
    "Verif.C09_eq_same_type"
   ],
   "note": ""
  },
  {
   "property": "C10",
   "status": "proved",
   "theorems": [
    "Verif.C10_addMetadata",
    "Verif.C10_removeMetadata"
   ],
   "note": ""
  },
  {
   "property": "C11",
   "status": "proved",
   "theorems": [
    "Verif.C11_predicates_negated",
    "Verif.C11_predicates_always_wrong",
    "Verif.C11_other_predicates"
   ],
   "note": "The expectation is refuted (C11_predicates_negated, C11_predicates_always_wrong); C11_other_predicates is what holds."
  },
  {
   "property": "C12",
   "status": "proved",
   "theorems": [
    "Verif.C12_applyWithValue",
    "Verif.C12_traitMerge_functional",
    "Verif.C12_appendTraits",
    "Verif.C12_removeTrait"
   ],
   "note": ""
  },
  {
   "property": "C13",
   "status": "proved",
   "theorems": [
    "Verif.C13_equal_without_traits",
    "Verif.C13_addShape_new",
    "Verif.C13_addShape_conflict",
    "Verif.C13_addShape_existing",
    "Verif.C13_body_never_replaced",
    "Verif.C13_addShape_frame",
    "Verif.C13_removeShape"
   ],
   "note": ""
  },
  {
   "property": "C14",
   "status": "proved",
   "theorems": [
    "Verif.C14_panic_iff",
    "Verif.C14_panic_possible_iff",
    "Verif.C14_panic_certain_iff",
    "Verif.C14_addShape_panics",
    "Verif.C14_panic_only_missing_member",
    "Verif.C14_panic_certain",
    "Verif.C14_panic_depends_on_order"
   ],
   "note": "The expectation is refuted (C14_addShape_panics). C14_panic_iff, C14_panic_possible_iff and C14_panic_certain_iff are exact."
  },
  {
   "property": "C15",
   "status": "proved",
   "theorems": [
    "Verif.C15_merge_ok_iff",
    "Verif.C15_merge_result",
    "Verif.C15_merge_keeps_everything",
    "Verif.C15_merge_traits"
   ],
   "note": ""
  },
  {
   "property": "C16",
   "status": "proved",
   "theorems": [
    "Verif.C16_merge_empty"
   ],
   "note": ""
  },
  {
   "property": "C17",
   "status": "proved",
   "theorems": [
    "Verif.C17_merge_order_independent",
    "Verif.C17_perm_same",
    "Verif.C17_merge_any_enumeration"
   ],
   "note": ""
  },
  {
   "property": "C18",
   "status": "proved",
   "theorems": [
    "Verif.C18_failed_merge",
    "Verif.C18_failed_merge_changes_model",
    "Verif.C18_merge_frame",
    "Verif.C18_addMetadata_atomic"
   ],
   "note": "The expectation is refuted (C18_failed_merge_changes_model). C18_failed_merge says exactly what is left; C18_merge_frame what a merge can never change. Version conflicts cannot occur: the Version type has one value."
  },
  {
   "property": "C19",
   "status": "proved",
   "theorems": [
    "Verif.C19_merge_success_symmetric",
    "Verif.C19_merge_results_agree"
   ],
   "note": ""
  },
  {
   "property": "C20",
   "status": "proved",
   "theorems": [
    "Verif.C20_self_merge_unchanged_iff",
    "Verif.C20_self_merge_ok_iff",
    "Verif.C20_self_merge_doubles",
    "Verif.C20_self_merge_changes",
    "Verif.C20_self_merge_unchanged"
   ],
   "note": "C20_self_merge_ok_iff, C20_self_merge_doubles and C20_self_merge_unchanged_iff are exact."
  },
  {
   "property": "C21",
   "status": "proved",
   "theorems": [
    "Verif.C21_isComplete_iff",
    "Verif.C21_merge_defines",
    "Verif.C21_merge_complete_iff"
   ],
   "note": ""
  },
  {
   "property": "C22",
   "status": "proved",
   "theorems": [
    "Verif.C22_reachable_invariant",
    "Verif.C22_names_partition"
   ],
   "note": ""
  },
  {
   "property": "C23",
   "status": "proved",
   "theorems": [
    "Verif.C23_array_operations",
    "Verif.C23_array_history",
    "Verif.C23_service_setters",
    "Verif.C23_operation_setters",
    "Verif.C23_resource_setters",
    "Verif.C23_hasAnyResourceOperation",
    "Verif.C23_service_version",
    "Verif.C23_withMembers"
   ],
   "note": ""
  },
  {
   "property": "C24",
   "status": "proved",
   "theorems": [
    "Verif.C24_resolution",
    "Verif.C24_resolution_fails",
    "Verif.C24_order_independent",
    "Verif.C24_name_syntax",
    "Verif.C24_prelude",
    "Verif.C24_prelude_apart"
   ],
   "note": ""
  },
  {
   "property": "C25",
   "status": "proved",
   "theorems": [
    "Verif.C25_build_needs_names",
    "Verif.C25_built_model",
    "Verif.C25_entry_built",
    "Verif.C25_member_ids"
   ],
   "note": ""
  },
  {
   "property": "C26",
   "status": "proved",
   "theorems": [
    "Verif.C26_defines_iff",
    "Verif.C26_placeholder_iff",
    "Verif.C26_complete_iff",
    "Verif.C26_unknown_name"
   ],
   "note": ""
  },
  {
   "property": "C27",
   "status": "proved",
   "theorems": [
    "Verif.C27_type",
    "Verif.C27_type_kept",
    "Verif.C27_set_becomes_list"
   ],
   "note": "C27_type is exact; C27_set_becomes_list is the exception."
  },
  {
   "property": "C28",
   "status": "proved",
   "theorems": [
    "Verif.C28_no_conflict_reported",
    "Verif.C28_conflict_dropped",
    "Verif.C28_insert_replaces",
    "Verif.C28_distinct_ids",
    "Verif.C28_added_in_turn",
    "Verif.C28_first_definition"
   ],
   "note": "The expectation is refuted (C28_no_conflict_reported, C28_conflict_dropped). C28_added_in_turn, C28_first_definition, C28_insert_replaces and C28_distinct_ids say what happens."
  },
  {
   "property": "C29",
   "status": "proved",
   "theorems": [
    "Verif.C29_last_wins",
    "Verif.C29_distinct_traits",
    "Verif.C29_rules_violated"
   ],
   "note": "The expectation is refuted (C29_rules_violated). C29_last_wins is exact for an entry that alone stands for its id; several entries are in C28."
  },
  {
   "property": "C30",
   "status": "proved",
   "theorems": [
    "Verif.C30_round_trip_iff",
    "Verif.C30_written_is_ast",
    "Verif.C30_read_ast",
    "Verif.C30_read_model_wf",
    "Verif.C30_round_trip",
    "Verif.C30_round_trip_changes",
    "Verif.C30_map_changes",
    "Verif.C30_valueless_changes"
   ],
   "note": "C30_round_trip_changes and C30_round_trip_iff are exact. Models with NaNs or infinities are in C32. JSON text (serde_json) is not modelled."
  },
  {
   "property": "C31",
   "status": "proved",
   "theorems": [
    "Verif.C31_panic_iff",
    "Verif.C31_no_panic",
    "Verif.C31_empty_version_panics"
   ],
   "note": "C31_panic_iff is exact. JSON text (serde_json) is not modelled."
  },
  {
   "property": "C32",
   "status": "proved",
   "theorems": [
    "Verif.C32_value_round_trip",
    "Verif.C32_written_denotes",
    "Verif.C32_write_panics_iff",
    "Verif.C32_read_denotes",
    "Verif.C32_big_integers_change",
    "Verif.C32_model_panics_iff"
   ],
   "note": ""
  },
  {
   "property": "C33",
   "status": "proved",
   "theorems": [
    "Verif.C33_sorted",
    "Verif.C33_order_independent",
    "Verif.C33_equal_models_differ",
    "Verif.C33_written"
   ],
   "note": "C33_sorted, C33_order_independent, C33_written. C33_equal_models_differ is the witness for the last sentence."
  },
  {
   "property": "C34",
   "status": "proved",
   "theorems": [
    "Verif.C34_lines_iff",
    "Verif.C34_line_count",
    "Verif.C34_form_determines",
    "Verif.C34_metadata_determined",
    "Verif.C34_values_ambiguous",
    "Verif.C34_order_lost",
    "Verif.Listed.C34_tells",
    "Verif.Listed.C34_values_tell",
    "Verif.Listed.C34_tells_example"
   ],
   "note": "C34_lines_iff gives both directions, C34_line_count the multiplicities, C34_form_determines and C34_metadata_determined what the form determines, C34_tells and C34_values_tell exactly what it tells; C34_values_ambiguous and C34_order_lost show what it does not determine."
  },
  {
   "property": "C35",
   "status": "proved",
   "theorems": [
    "Verif.C35_issues_iff",
    "Verif.C35_one_each",
    "Verif.C35_silent_iff"
   ],
   "note": ""
  },
  {
   "property": "C36",
   "status": "proved",
   "theorems": [
    "Verif.C36_issues_iff",
    "Verif.C36_error_iff",
    "Verif.C36_warning_iff",
    "Verif.C36_counts",
    "Verif.C36_order_independent"
   ],
   "note": ""
  },
  {
   "property": "C37",
   "status": "proved",
   "theorems": [
    "Verif.C37_failFast_ignored",
    "Verif.C37_collects_in_order",
    "Verif.C37_failFast_last",
    "Verif.C37_failFast_violated",
    "Verif.C37_drained",
    "Verif.C37_levels",
    "Verif.C37_issue_new"
   ],
   "note": "C37_collects_in_order and C37_failFast_ignored are exact. The expectation for fail_fast is refuted (C37_failFast_violated)."
  },
  {
   "property": "C38",
   "status": "proved",
   "theorems": [
    "Verif.C38_naming",
    "Verif.C38_terms_warn",
    "Verif.C38_violated"
   ],
   "note": "C38_naming and C38_terms_warn are exact. The expectation is refuted (C38_violated)."
  },
  {
   "property": "C39",
   "status": "proved",
   "theorems": [
    "Verif.C39_walk_with_members",
    "Verif.C39_walk_without_members"
   ],
   "note": ""
  },
  {
   "property": "C40",
   "status": "proved",
   "theorems": [
    "Verif.C40_query_iff",
    "Verif.C40_order_of_expressions",
    "Verif.C40_panics_iff"
   ],
   "note": "C40_query_iff is exact for queries made of shape types and variable definitions, C40_order_of_expressions gives the order clause. Beyond the property: every other selector panics (C40_panics_iff)."
  },
  {
   "property": "C41",
   "status": "proved",
   "theorems": [
    "Verif.C41_documented",
    "Verif.C41_number_violated",
    "Verif.C41_collection_violated"
   ],
   "note": "C41_documented, C41_number_violated and C41_collection_violated are exact."
  },
  {
   "property": "C42",
   "status": "proved",
   "theorems": [
    "Verif.C42_extensions",
    "Verif.C42_removed",
    "Verif.C42_get_iff",
    "Verif.C42_contains",
    "Verif.C42_mime_iff",
    "Verif.C42_default"
   ],
   "note": ""
  },
  {
   "property": "C43",
   "status": "proved",
   "theorems": [
    "Verif.C43_paths",
    "Verif.C43_assembly",
    "Verif.C43_unlistable_panics",
    "Verif.C43_nothing_found",
    "Verif.C43_each_file_once",
    "Verif.C43_overlapping_paths_read_twice"
   ],
   "note": "C43_assembly is exact, given that readers return well-formed models (C30_read_model_wf for JSON). C43_overlapping_paths_read_twice shows that C43_each_file_once needs its hypothesis."
  },
  {
   "property": "C44",
   "status": "proved",
   "theorems": [
    "Verif.C44_apply_to_shape",
    "Verif.C44_apply_to_member",
    "Verif.C44_local_member_panics",
    "Verif.C44_apply_wf",
    "Verif.C44_apply_to_definition",
    "Verif.C44_apply_changes_names",
    "Verif.C44_target_changed",
    "Verif.C44_apply"
   ],
   "note": "The expectation is violated; the exact behaviour is C44_apply."
  },
  {
   "property": "C45",
   "status": "proved",
   "theorems": [
    "Verif.C45_meq_iff",
    "Verif.C45_meq_symm_trans",
    "Verif.C45_order_independent",
    "Verif.C45_refl_iff"
   ],
   "note": ""
  },
  {
   "property": "C46",
   "status": "proved",
   "theorems": [
    "Verif.C46_reads_tidy",
    "Verif.C46_tidy_strict",
    "Verif.C46_accepts_tidy_iff",
    "Verif.C46_strict_is_tidy",
    "Verif.C46_read_is_ast",
    "Verif.C46_accepts_iff",
    "Verif.C46_skips_metadata",
    "Verif.C46_skips_traits"
   ],
   "note": "C46_accepts_tidy_iff is exact; C46_reads_tidy, C46_tidy_strict and C46_strict_is_tidy say what tidy documents are."
  },
  {
   "property": "C47",
   "status": "proved",
   "theorems": [
    "Verif.C47_issues_iff"
   ],
   "note": ""
  },
  {
   "property": "C48",
   "status": "proved",
   "theorems": [
    "Verif.C48_issues",
    "Verif.C48_reported_iff",
    "Verif.C48_each_once",
    "Verif.C48_locus_depends_on_order",
    "Verif.C48_checked_iff",
    "Verif.C48_second_check"
   ],
   "note": "C48_reported_iff, C48_each_once, C48_checked_iff, C48_second_check; C48_locus_depends_on_order shows the one thing enumeration order decides. heck's snake case is a parameter."
  },
  {
   "property": "C49",
   "status": "proved",
   "theorems": [
    "Verif.C49_exact",
    "Verif.C49_selector_roundTrip",
    "Verif.C49_selector_injective",
    "Verif.C49_violation_orEqual",
    "Verif.C49_violation_text",
    "Verif.C49_violation_changed",
    "Verif.C49_violation_identifier"
   ],
   "note": "Exact within the limits written in the statement; C49_violation_* prove that the limits are needed. The semantics of pest (ordered choice, implicit whitespace, atomic rules) and f64 formatting and parsing are in the trusted base (flt and Fmt are parameters)."
  },
  {
   "property": "C50",
   "status": "proved",
   "theorems": [
    "Verif.C50_selector_outcome",
    "Verif.C50_selector_stable",
    "Verif.C50_outcomes_occur"
   ],
   "note": "C50_selector_outcome covers every text; termination of the grammar is proved (SelGrammar.terminating, matchSelector_iff)."
  },
  {
   "property": "C51",
   "status": "proved",
   "theorems": [
    "Verif.C51_same_iff",
    "Verif.C51_written_rejected",
    "Verif.C51_round_trip",
    "Verif.C51_same_model",
    "Verif.C51_no_text",
    "Verif.C51_target_namespace_lost"
   ],
   "note": "C51_round_trip and C51_same_iff are exact for every writable model; C51_no_text, C51_target_namespace_lost and C51_written_rejected are about the others."
  },
  {
   "property": "C52",
   "status": "proved",
   "theorems": [
    "Verif.C52_read_models"
   ],
   "note": "Relative to pest's semantics (Peg.lean) and f64::from_str (parameter flt)."
  },
  {
   "property": "C53",
   "status": "proved",
   "theorems": [
    "Verif.C53_metadata",
    "Verif.C53_metadata_lost",
    "Verif.C53_no_namespace",
    "Verif.C53_metadata_keys"
   ],
   "note": "C53_metadata is exact; C53_no_namespace and C53_metadata_lost are about the lost metadata."
  },
  {
   "property": "C55",
   "status": "proved",
   "theorems": [
    "Verif.C55_defines",
    "Verif.C55_import_defined",
    "Verif.C55_origin"
   ],
   "note": "C55_defines is exact; C55_origin for all shapes; C55_import_defined is a text that defines an import."
  },
  {
   "property": "C56",
   "status": "proved",
   "theorems": [
    "Verif.C56_one_namespace"
   ],
   "note": ""
  },
  {
   "property": "C57",
   "status": "proved",
   "theorems": [
    "Verif.C57_no_panic",
    "Verif.C57_violated"
   ],
   "note": "The expectation is violated: C57_violated has five texts that panic. C57_no_panic shows what every panicking text contains."
  },
  {
   "property": "C54",
   "status": "proved",
   "theorems": [
    "Verif.C54_apply_rejected",
    "Verif.C54_apply_matches"
   ],
   "note": "The expectation is violated for every text: C54_apply_rejected; C54_apply_matches has a family of such texts."
  },
  {
   "property": "C58",
   "status": "proved",
   "theorems": [
    "Verif.C58_keyword_rejected",
    "Verif.C58_keyword_namespace",
    "Verif.C58_operation_rejected",
    "Verif.C58_name",
    "Verif.C58_keyword_split"
   ],
   "note": "The expectation is violated: C58_keyword_split, C58_keyword_rejected. C58_name is for names without such a prefix."
  },
  {
   "property": "C59",
   "status": "proved",
   "theorems": [
    "Verif.C59_leading_blank",
    "Verif.C59_open_comment"
   ],
   "note": ""
  },
  {
   "property": "C60",
   "status": "proved",
   "theorems": [
    "Verif.C60_escapes_kept"
   ],
   "note": "The expectation is violated: C60_escapes_kept."
  },
  {
   "property": "C61",
   "status": "proved",
   "theorems": [
    "Verif.C61_documentation"
   ],
   "note": ""
  },
  {
   "property": "C67",
   "status": "proved",
   "theorems": [
    "Verif.C67_rejected",
    "Verif.C67_comments"
   ],
   "note": "The expectation is violated: C67_rejected. C67_comments proves that comments of all other characters are read."
  },
  {
   "property": "C62",
   "status": "proved",
   "theorems": [
    "Verif.C62_trait_functions",
    "Verif.C62_panics",
    "Verif.C62_in_prelude",
    "Verif.C62_large_bound",
    "Verif.C62_valueless"
   ],
   "note": "The expectation is violated: C62_large_bound, C62_valueless. C62_trait_functions proves it for all other functions and arguments, C62_panics is exact."
  },
  {
   "property": "C63",
   "status": "proved",
   "theorems": [
    "Verif.C63_setters",
    "Verif.C63_array",
    "Verif.C63_object"
   ],
   "note": ""
  },
  {
   "property": "C64",
   "status": "proved",
   "theorems": [
    "Verif.C64_member_helper",
    "Verif.C64_structure_helper",
    "Verif.C64_shadowed_program"
   ],
   "note": "The expectation is violated: C64_structure_helper says exactly when, C64_shadowed_program is a program. C64_member_helper holds without conditions."
  },
  {
   "property": "C65",
   "status": "proved",
   "theorems": [
    "Verif.C65_service",
    "Verif.C65_operation",
    "Verif.C65_resource",
    "Verif.C65_structure"
   ],
   "note": ""
  },
  {
   "property": "C66",
   "status": "proved",
   "theorems": [
    "Verif.C66_finite",
    "Verif.C66_written",
    "Verif.C66_well_formed",
    "Verif.C66_valid",
    "Verif.C66_round_trip",
    "Verif.C66_member_import"
   ],
   "note": "C66_well_formed has no exception; C66_valid and C66_round_trip are for programs without imports of members; C66_member_import is the witness for these."
  },
  {
   "property": "C68",
   "status": "proved",
   "theorems": [
    "Verif.Rdf.C68_describes"
   ],
   "note": ""
  },
  {
   "property": "C69",
   "status": "proved",
   "theorems": [
    "Verif.Rdf.C69_same_graph",
    "Verif.Rdf.C69_tells",
    "Verif.Rdf.C69_tells_example"
   ],
   "note": "Up to the losses of C70, which the code has: metadata, placeholders, renames, order and repetitions of lists. Map members need the names key and value (MapNames), which all readers give."
  },
  {
   "property": "C70",
   "status": "proved",
   "theorems": [
    "Verif.Rdf.C70_metadata",
    "Verif.Rdf.C70_placeholders",
    "Verif.Rdf.C70_renames",
    "Verif.Rdf.C70_arrays"
   ],
   "note": "The expectation is violated: the theorems state, for all models, what is lost."
  },
  {
   "property": "C71",
   "status": "proved",
   "theorems": [
    "Verif.Rdf.C71_reading",
    "Verif.Rdf.C71_other_iri",
    "Verif.Rdf.C71_ambiguous"
   ],
   "note": "The expectation is violated: C71_reading says exactly what happens for every model."
  },
  {
   "property": "C72",
   "status": "proved",
   "theorems": [
    "Verif.GraphML.C72_document",
    "Verif.GraphML.C72_same_document",
    "Verif.GraphML.C72_tells",
    "Verif.GraphML.C72_tells_example"
   ],
   "note": ""
  },
  {
   "property": "C73",
   "status": "proved",
   "theorems": [
    "Verif.GraphML.C73_panics",
    "Verif.GraphML.C73_shared_ids"
   ],
   "note": "The expectation is violated: the theorems say exactly what happens for all models with too many edges."
  },
  {
   "property": "C74",
   "status": "proved",
   "theorems": [
    "Verif.GraphML.C74_keys",
    "Verif.GraphML.C74_ends",
    "Verif.GraphML.C74_made_up"
   ],
   "note": "The expectation is violated: the theorems say, for all models, how."
  },
  {
   "property": "C75",
   "status": "proved",
   "theorems": [
    "Verif.GraphML.C75_metadata",
    "Verif.GraphML.C75_placeholders",
    "Verif.GraphML.C75_details"
   ],
   "note": "The expectation is violated: the theorems state, for all models, what is lost."
  },
  {
   "property": "C76",
   "status": "proved",
   "theorems": [
    "Verif.PlantUml.C76_panics_iff"
   ],
   "note": ""
  },
  {
   "property": "C77",
   "status": "proved",
   "theorems": [
    "Verif.PlantUml.C77_packages"
   ],
   "note": "The expectation is violated: C77_packages says exactly which packages and drawings are written, for all models."
  },
  {
   "property": "C78",
   "status": "proved",
   "theorems": [
    "Verif.PlantUml.C78_alike",
    "Verif.PlantUml.C78_metadata",
    "Verif.PlantUml.C78_lifecycle",
    "Verif.PlantUml.C78_tells",
    "Verif.PlantUml.C78_tells_example"
   ],
   "note": "The expectation is violated: the theorems state, for all pairs of models that are alike, that the texts are the same."
  },
  {
   "property": "C79",
   "status": "proved",
   "theorems": [
    "Verif.PlantUml.C79_made_up"
   ],
   "note": "The expectation is violated: C79_made_up."
  },
  {
   "property": "C80",
   "status": "proved",
   "theorems": [
    "Verif.Describe.C80_reachable",
    "Verif.Describe.C80_panics_iff"
   ],
   "note": ""
  },
  {
   "property": "C81",
   "status": "proved",
   "theorems": [
    "Verif.Describe.C81_document",
    "Verif.Describe.C81_once",
    "Verif.Describe.C81_twice"
   ],
   "note": "The expectation is violated: C81_document says exactly what the document is, for all models; C81_once and C81_twice say when shapes are described once."
  },
  {
   "property": "C82",
   "status": "proved",
   "theorems": [
    "Verif.Describe.C82_described",
    "Verif.Describe.C82_alike",
    "Verif.Describe.C82_tells"
   ],
   "note": "The expectation is violated: C82_alike states, for all pairs of models that are alike, that the documents are the same; C82_described is what holds."
  },
  {
   "property": "C83",
   "status": "proved",
   "theorems": [
    "Verif.Describe.C83_links",
    "Verif.Describe.C83_links_lead",
    "Verif.Describe.C83_labels_distinct",
    "Verif.Describe.C83_external"
   ],
   "note": "The expectation is violated: C83_labels_distinct and C83_links_lead say exactly when it holds; C83_external: addresses are put in quotes."
  },
  {
   "property": "C84",
   "status": "proved",
   "theorems": [
    "Verif.SelApi.C84_builds",
    "Verif.SelApi.C84_panics_iff"
   ],
   "note": ""
  },
  {
   "property": "C85",
   "status": "proved",
   "theorems": [
    "Verif.SelApi.C85_reads",
    "Verif.SelApi.C85_never_read"
   ],
   "note": "The expectation is violated: C85_never_read; C85_reads is what holds."
  },
  {
   "property": "C86",
   "status": "proved",
   "theorems": [
    "Verif.SelApi.C86_scoped_text",
    "Verif.SelApi.C86_attribute_number"
   ],
   "note": "The expectation is violated for scoped attributes: C86_scoped_text."
  },
  {
   "property": "C87",
   "status": "proved",
   "theorems": [
    "Verif.Cli.C87_never_written",
    "Verif.Cli.C87_status_zero",
    "Verif.Cli.C87_write_model_to_file"
   ],
   "note": "The expectation is violated for all inputs: C87_never_written, C87_write_model_to_file, C87_status_zero."
  },
  {
   "property": "C88",
   "status": "proved",
   "theorems": [
    "Verif.Cli.C88_check_status",
    "Verif.Cli.C88_errors_ignored",
    "Verif.Cli.C88_convert_status",
    "Verif.Cli.C88_not_json",
    "Verif.Cli.C88_output_status",
    "Verif.Cli.C88_not_utf8"
   ],
   "note": "The expectation is violated; the theorems give the status for all inputs: C88_check_status, C88_errors_ignored, C88_convert_status, C88_not_json."
  },
  {
   "property": "C89",
   "status": "proved",
   "theorems": [
    "Verif.Cli.C89_json",
    "Verif.Cli.C89_smithy",
    "Verif.Cli.C89_smithy_default",
    "Verif.Cli.C89_uml",
    "Verif.Cli.C89_document",
    "Verif.Cli.C89_json_to_json",
    "Verif.Cli.C89_no_output",
    "Verif.Cli.C89_files_kept"
   ],
   "note": ""
  },
  {
   "property": "C90",
   "status": "proved",
   "theorems": [
    "Verif.Cli.C90_colors_injective",
    "Verif.Cli.C90_printed",
    "Verif.Cli.C90_report_injective",
    "Verif.Cli.C90_command_line"
   ],
   "note": ""
  },
  {
   "property": "C91",
   "status": "proved",
   "theorems": [
    "Verif.Cli.C91_validation",
    "Verif.Cli.C91_silent_iff",
    "Verif.Cli.C91_lint"
   ],
   "note": ""
  },
  {
   "property": "C92",
   "status": "proved",
   "theorems": [
    "Verif.Cli.C92_validate",
    "Verif.Cli.C92_validate_clean",
    "Verif.Cli.C92_output_appended",
    "Verif.Cli.C92_assembled",
    "Verif.Cli.C92_unlistable",
    "Verif.Cli.C92_well_formed"
   ],
   "note": ""
  },
  {
   "property": "C93",
   "status": "proved",
   "theorems": [
    "Verif.Cli.C93_printed",
    "Verif.Cli.C93_quiet",
    "Verif.Cli.C93_noise"
   ],
   "note": "The expectation is violated: C93_noise. C93_printed says exactly what is printed; C93_quiet proves it when no JSON file has a resource with identifiers."
  },
  {
   "property": "C94",
   "status": "proved",
   "theorems": [
    "Verif.C94_entries",
    "Verif.C94_metadata",
    "Verif.C94_calls",
    "Verif.C94_panics",
    "Verif.C94_apply_forgets",
    "Verif.C94_runs",
    "Verif.C94_model"
   ],
   "note": "C94_calls, C94_panics, C94_entries, C94_metadata and C94_model say what programs make. The expectation is violated: C94_apply_forgets. C94_model is for names that no import, apply or absolute declaration shares (others are in C25, C26, C44); sets become lists (C27)."
  },
  {
   "property": "C95",
   "status": "proved",
   "theorems": [
    "Verif.C95_read",
    "Verif.C95_version",
    "Verif.C95_layout",
    "Verif.C95_front",
    "Verif.C95_shapes"
   ],
   "note": "C95_read, C95_layout, C95_shapes, C95_version and C95_front. The expectation is violated as the statement says; the specification in IdlLayoutSpec describes what is read. Apply statements are in C54, a repeated name or a name shared with an import in C25 and C26. A name that starts with true, false or null is not read as a value (C59)."
  },
  {
   "property": "C96",
   "status": "proved",
   "theorems": [
    "Verif.C96_read",
    "Verif.C96_models"
   ],
   "note": "C96_read and C96_models. The code accepts more than the syntax as the statement says; IdlLooseSpec describes what is accepted. When an import ends in the name of a statement, C26 says which ids are defined."
  },
  {
   "property": "C97",
   "status": "proved",
   "theorems": [
    "Verif.C97_merge_all_iff",
    "Verif.C97_merge_all"
   ],
   "note": ""
  },
  {
   "property": "C98",
   "status": "proved",
   "theorems": [
    "Verif.C98_assembly",
    "Verif.C98_arrays_in_order",
    "Verif.C98_member_trait_order",
    "Verif.C98_commands",
    "Verif.C98_any_order"
   ],
   "note": ""
  },
  {
   "property": "C99",
   "status": "proved",
   "theorems": [
    "Verif.C99_three",
    "Verif.C99_grouping"
   ],
   "note": ""
  },
  {
   "property": "C100",
   "status": "proved",
   "theorems": [
    "Verif.C100_questions",
    "Verif.C100_independent",
    "Verif.C100_has_traits",
    "Verif.C100_history",
    "Verif.C100_history_questions",
    "Verif.C100_failed_call",
    "Verif.C100_merged",
    "Verif.C100_functions",
    "Verif.C100_case_violated",
    "Verif.C100_member",
    "Verif.C100_has_members",
    "Verif.C100_has_members_violated",
    "Verif.C100_member_case",
    "Verif.C100_prelude",
    "Verif.C100_prelude_named"
   ],
   "note": ""
  },
  {
   "property": "C101",
   "status": "proved",
   "theorems": [
    "Verif.C101_reachable",
    "Verif.C101_extends",
    "Verif.C101_placeholder_violated",
    "Verif.C101_set_id",
    "Verif.C101_set_id_merged",
    "Verif.C101_list",
    "Verif.C101_list_from",
    "Verif.C101_list_violated",
    "Verif.C101_map",
    "Verif.C101_map_set",
    "Verif.C101_map_violated",
    "Verif.C101_new",
    "Verif.C101_struct",
    "Verif.C101_with_members",
    "Verif.C101_edit_frame",
    "Verif.C101_edit_parts"
   ],
   "note": ""
  },
  {
   "property": "C102",
   "status": "proved",
   "theorems": [
    "Verif.C102_builder",
    "Verif.C102_builder_example",
    "Verif.C102_idl",
    "Verif.C102_idl_examples",
    "Verif.C102_json",
    "Verif.C102_json_violated",
    "Verif.C102_json_examples"
   ],
   "note": ""
  },
  {
   "property": "C103",
   "status": "proved",
   "theorems": [
    "Verif.C103_idl",
    "Verif.C103_idl_metadata",
    "Verif.C103_json",
    "Verif.C103_json_again"
   ],
   "note": ""
  },
  {
   "property": "C104",
   "status": "proved",
   "theorems": [
    "Verif.C104_idl_to_json",
    "Verif.C104_idl_json_same_iff",
    "Verif.C104_idl_json_idl"
   ],
   "note": ""
  },
  {
   "property": "C105",
   "status": "proved",
   "theorems": [
    "Verif.C105_error",
    "Verif.C105_issue",
    "Verif.C105_found",
    "Verif.C105_issue_text",
    "Verif.C105_error_text",
    "Verif.C105_error_violated"
   ],
   "note": ""
  },
  {
   "property": "C106",
   "status": "proved",
   "theorems": [
    "Verif.C106_outline",
    "Verif.C106_json",
    "Verif.C106_json_again",
    "Verif.C106_idl_to_json",
    "Verif.C106_idl"
   ],
   "note": ""
  },
  {
   "property": "C107",
   "status": "proved",
   "theorems": [
    "Verif.C107_faults",
    "Verif.C107_model",
    "Verif.C107_examples"
   ],
   "note": ""
  },
  {
   "property": "C108",
   "status": "proved",
   "theorems": [
    "Verif.PlantUml.C108_plantuml",
    "Verif.Describe.C108_documents",
    "Verif.GraphML.C108_graphml",
    "Verif.C108_idl",
    "Verif.JsonWriter.C108_json",
    "Verif.JsonWriter.C108_json_sorted",
    "Verif.Rdf.C108_rdf",
    "Verif.Rdf.C108_rdf_violated"
   ],
   "note": ""
  },
  {
   "property": "C109",
   "status": "proved",
   "theorems": [
    "Verif.C109_json_order",
    "Verif.C109_json_fixed",
    "Verif.Cli.C109_pipeline",
    "Verif.Cli.C109_reports",
    "Verif.Cli.C109_again",
    "Verif.Cli.C109_smithy",
    "Verif.C109_merge",
    "Verif.C109_parts",
    "Verif.C109_merge_not_conversely"
   ],
   "note": ""
  },
  {
   "property": "C110",
   "status": "proved",
   "theorems": [
    "Verif.Cli.C110_command",
    "Verif.Cli.C110_files",
    "Verif.Cli.C110_options",
    "Verif.Cli.C110_environment",
    "Verif.Cli.C110_examples"
   ],
   "note": ""
  },
  {
   "property": "C111",
   "status": "proved",
   "theorems": [
    "Verif.C111_lines",
    "Verif.C111_idl",
    "Verif.C111_graphml",
    "Verif.C111_plantuml",
    "Verif.C111_prefix",
    "Verif.C111_limited",
    "Verif.C111_string",
    "Verif.C111_examples"
   ],
   "note": ""
  },
  {
   "property": "C112",
   "status": "proved",
   "theorems": [
    "Verif.C112_smithy",
    "Verif.C112_json",
    "Verif.C112_string",
    "Verif.C112_cut_off",
    "Verif.C112_examples",
    "Verif.C112_json_examples"
   ],
   "note": ""
  },
  {
   "property": "C113",
   "status": "proved",
   "theorems": [
    "Verif.C113_parse",
    "Verif.C113_refused",
    "Verif.C113_relative_member",
    "Verif.C113_round_trip",
    "Verif.C113_parts",
    "Verif.C113_equal",
    "Verif.C113_examples"
   ],
   "note": ""
  },
  {
   "property": "C114",
   "status": "proved",
   "theorems": [
    "Verif.SelEdits.C114_comparison",
    "Verif.SelEdits.C114_attribute",
    "Verif.SelEdits.C114_scoped",
    "Verif.SelEdits.C114_functions",
    "Verif.SelEdits.C114_equal",
    "Verif.SelEdits.C114_equal_violated",
    "Verif.SelEdits.C114_emptied",
    "Verif.SelEdits.C114_made_text",
    "Verif.SelEdits.C114_made",
    "Verif.SelEdits.C114_values",
    "Verif.SelEdits.C114_expressions",
    "Verif.SelEdits.C114_projection"
   ],
   "note": ""
  }
 ]
}