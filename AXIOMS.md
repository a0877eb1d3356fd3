# Axioms of the theorems in MANIFEST.json

Generated by `tools/axioms.py` from Lean's `#print axioms`.

| property | theorem | axioms |
|---|---|---|
| C01 | `Verif.C01_identifier_syntax` | propext, Classical.choice, Quot.sound |
| C01 | `Verif.C01_identifier_ascii` | propext, Classical.choice, Quot.sound |
| C02 | `Verif.C02_namespace_syntax` | propext, Classical.choice, Quot.sound |
| C02 | `Verif.C02_namespace_split` | propext, Classical.choice, Quot.sound |
| C02 | `Verif.C02_namespace_split_join` | propext |
| C03 | `Verif.C03_parse_display` | propext, Classical.choice, Quot.sound |
| C03 | `Verif.C03_display_parse` | propext, Classical.choice, Quot.sound |
| C03 | `Verif.C03_fromStr_iff_captures` | propext, Classical.choice, Quot.sound |
| C03 | `Verif.C03_isValid_iff_regex` | propext, Classical.choice, Quot.sound |
| C03 | `Verif.C03_display_injective` | propext, Classical.choice, Quot.sound |
| C04 | `Verif.C04_identEq_iff_sameText` | propext, Quot.sound |
| C04 | `Verif.C04_ceq_iff` | propext, Quot.sound |
| C04 | `Verif.C04_ceq_equivalence` | propext |
| C04 | `Verif.C04_identEq_equivalence` | propext, Classical.choice, Quot.sound |
| C04 | `Verif.C04_member_ne_shape` | propext |
| C05 | `Verif.C05_hash_contract_violated` | propext, Quot.sound |
| C05 | `Verif.C05_lookup` | propext |
| C05 | `Verif.C05_lookup_not_determined` | propext, Quot.sound |
| C05 | `Verif.C05_lookup_iff` | propext, Quot.sound |
| C06 | `Verif.C06_shapeOnly` | propext |
| C06 | `Verif.C06_make` | propext |
| C06 | `Verif.C06_isValidMember_iff` | propext, Quot.sound |
| C06 | `Verif.C06_makeMember_valid` | propext, Quot.sound |
| C06 | `Verif.C06_constructors` | propext, Classical.choice, Quot.sound |
| C07 | `Verif.C07_urn_roundtrip` | propext, Classical.choice, Quot.sound |
| C07 | `Verif.C07_urn_inverse` | propext, Classical.choice, Quot.sound |
| C07 | `Verif.C07_urn_injective` | propext, Classical.choice, Quot.sound |
| C07 | `Verif.C07_isShapeIri_iff` | propext, Classical.choice, Quot.sound |
| C07 | `Verif.C07_refused` | propext, Classical.choice, Quot.sound |
| C07 | `Verif.C07_query_ignored` | propext |
| C08 | `Verif.C08_simple` | propext |
| C08 | `Verif.C08_shapeType` | propext |
| C08 | `Verif.C08_comparator` | propext |
| C08 | `Verif.C08_errorSource` | propext |
| C08 | `Verif.C08_fileFormat` | propext |
| C08 | `Verif.C08_version` | propext |
| C08 | `Verif.C08_simple_subset_shapeType` | none |
| C09 | `Verif.C09_eq_iff_spec` | propext, Classical.choice, Quot.sound |
| C09 | `Verif.C09_eq_symm_trans` | propext, Classical.choice, Quot.sound |
| C09 | `Verif.C09_eq_refl_iff` | propext, Classical.choice, Quot.sound |
| C09 | `Verif.C09_eq_order_independent` | propext, Classical.choice, Quot.sound |
| C09 | `Verif.C09_permuted_object_same` | propext, Quot.sound |
| C09 | `Verif.C09_eq_same_type` | propext |
| C10 | `Verif.C10_addMetadata` | propext, Classical.choice, Quot.sound |
| C10 | `Verif.C10_removeMetadata` | propext, Quot.sound |
| C11 | `Verif.C11_predicates_negated` | propext |
| C11 | `Verif.C11_predicates_always_wrong` | propext |
| C11 | `Verif.C11_other_predicates` | propext, Quot.sound |
| C12 | `Verif.C12_applyWithValue` | propext, Classical.choice, Quot.sound |
| C12 | `Verif.C12_traitMerge_functional` | propext |
| C12 | `Verif.C12_appendTraits` | propext, Classical.choice, Quot.sound |
| C12 | `Verif.C12_removeTrait` | propext, Quot.sound |
| C13 | `Verif.C13_equal_without_traits` | propext, Classical.choice, Quot.sound |
| C13 | `Verif.C13_addShape_new` | propext, Quot.sound |
| C13 | `Verif.C13_addShape_conflict` | propext, Classical.choice, Quot.sound |
| C13 | `Verif.C13_addShape_existing` | propext, Classical.choice, Quot.sound |
| C13 | `Verif.C13_body_never_replaced` | propext, Quot.sound |
| C13 | `Verif.C13_addShape_frame` | propext, Quot.sound |
| C13 | `Verif.C13_removeShape` | propext, Quot.sound |
| C14 | `Verif.C14_panic_iff` | propext, Classical.choice, Quot.sound |
| C14 | `Verif.C14_panic_possible_iff` | propext, Classical.choice, Quot.sound |
| C14 | `Verif.C14_panic_certain_iff` | propext, Classical.choice, Quot.sound |
| C14 | `Verif.C14_addShape_panics` | propext, Quot.sound |
| C14 | `Verif.C14_panic_only_missing_member` | propext, Quot.sound |
| C14 | `Verif.C14_panic_certain` | propext, Classical.choice, Quot.sound |
| C14 | `Verif.C14_panic_depends_on_order` | propext, Quot.sound |
| C15 | `Verif.C15_merge_ok_iff` | propext, Classical.choice, Quot.sound |
| C15 | `Verif.C15_merge_result` | propext, Classical.choice, Quot.sound |
| C15 | `Verif.C15_merge_keeps_everything` | propext, Classical.choice, Quot.sound |
| C15 | `Verif.C15_merge_traits` | propext, Classical.choice, Quot.sound |
| C16 | `Verif.C16_merge_empty` | propext, Quot.sound |
| C17 | `Verif.C17_merge_order_independent` | propext, Classical.choice, Quot.sound |
| C17 | `Verif.C17_perm_same` | propext, Quot.sound |
| C17 | `Verif.C17_merge_any_enumeration` | propext, Classical.choice, Quot.sound |
| C18 | `Verif.C18_failed_merge` | propext, Classical.choice, Quot.sound |
| C18 | `Verif.C18_failed_merge_changes_model` | propext |
| C18 | `Verif.C18_merge_frame` | propext, Quot.sound |
| C18 | `Verif.C18_addMetadata_atomic` | propext |
| C19 | `Verif.C19_merge_success_symmetric` | propext, Classical.choice, Quot.sound |
| C19 | `Verif.C19_merge_results_agree` | propext, Classical.choice, Quot.sound |
| C20 | `Verif.C20_self_merge_unchanged_iff` | propext, Classical.choice, Quot.sound |
| C20 | `Verif.C20_self_merge_ok_iff` | propext, Classical.choice, Quot.sound |
| C20 | `Verif.C20_self_merge_doubles` | propext, Classical.choice, Quot.sound |
| C20 | `Verif.C20_self_merge_changes` | propext |
| C20 | `Verif.C20_self_merge_unchanged` | propext, Classical.choice, Quot.sound |
| C21 | `Verif.C21_isComplete_iff` | propext, Classical.choice, Quot.sound |
| C21 | `Verif.C21_merge_defines` | propext, Classical.choice, Quot.sound |
| C21 | `Verif.C21_merge_complete_iff` | propext, Classical.choice, Quot.sound |
| C22 | `Verif.C22_reachable_invariant` | propext, Classical.choice, Quot.sound |
| C22 | `Verif.C22_names_partition` | propext, Classical.choice, Quot.sound |
| C23 | `Verif.C23_array_operations` | propext, Quot.sound |
| C23 | `Verif.C23_array_history` | propext, Quot.sound |
| C23 | `Verif.C23_service_setters` | propext, Quot.sound |
| C23 | `Verif.C23_operation_setters` | propext, Quot.sound |
| C23 | `Verif.C23_resource_setters` | propext, Quot.sound |
| C23 | `Verif.C23_hasAnyResourceOperation` | propext |
| C23 | `Verif.C23_service_version` | propext, Quot.sound |
| C23 | `Verif.C23_withMembers` | propext, Quot.sound |
| C24 | `Verif.C24_resolution` | propext, Quot.sound |
| C24 | `Verif.C24_resolution_fails` | propext, Quot.sound |
| C24 | `Verif.C24_order_independent` | propext, Quot.sound |
| C24 | `Verif.C24_name_syntax` | propext, Classical.choice, Quot.sound |
| C24 | `Verif.C24_prelude` | propext, Quot.sound |
| C24 | `Verif.C24_prelude_apart` | propext, Quot.sound |
| C25 | `Verif.C25_build_needs_names` | propext, Classical.choice, Quot.sound |
| C25 | `Verif.C25_built_model` | propext, Classical.choice, Quot.sound |
| C25 | `Verif.C25_entry_built` | propext, Classical.choice, Quot.sound |
| C25 | `Verif.C25_member_ids` | propext, Classical.choice, Quot.sound |
| C26 | `Verif.C26_defines_iff` | propext, Classical.choice, Quot.sound |
| C26 | `Verif.C26_placeholder_iff` | propext, Classical.choice, Quot.sound |
| C26 | `Verif.C26_complete_iff` | propext, Classical.choice, Quot.sound |
| C26 | `Verif.C26_unknown_name` | propext, Classical.choice, Quot.sound |
| C27 | `Verif.C27_type` | propext, Classical.choice, Quot.sound |
| C27 | `Verif.C27_type_kept` | propext, Classical.choice, Quot.sound |
| C27 | `Verif.C27_set_becomes_list` | propext, Classical.choice, Quot.sound |
| C28 | `Verif.C28_no_conflict_reported` | propext, Quot.sound |
| C28 | `Verif.C28_conflict_dropped` | propext, Quot.sound |
| C28 | `Verif.C28_insert_replaces` | propext, Quot.sound |
| C28 | `Verif.C28_distinct_ids` | propext, Classical.choice, Quot.sound |
| C28 | `Verif.C28_added_in_turn` | propext, Classical.choice, Quot.sound |
| C28 | `Verif.C28_first_definition` | propext, Classical.choice, Quot.sound |
| C29 | `Verif.C29_last_wins` | propext, Classical.choice, Quot.sound |
| C29 | `Verif.C29_distinct_traits` | propext, Classical.choice, Quot.sound |
| C29 | `Verif.C29_rules_violated` | propext |
| C30 | `Verif.C30_round_trip_iff` | propext, Classical.choice, Quot.sound |
| C30 | `Verif.C30_written_is_ast` | propext, Classical.choice, Quot.sound |
| C30 | `Verif.C30_read_ast` | propext, Classical.choice, Quot.sound |
| C30 | `Verif.C30_read_model_wf` | propext, Classical.choice, Quot.sound |
| C30 | `Verif.C30_round_trip` | propext, Classical.choice, Quot.sound |
| C30 | `Verif.C30_round_trip_changes` | propext, Classical.choice, Quot.sound |
| C30 | `Verif.C30_map_changes` | propext, Classical.choice, Quot.sound |
| C30 | `Verif.C30_valueless_changes` | propext, Classical.choice, Quot.sound |
| C31 | `Verif.C31_panic_iff` | propext, Classical.choice, Quot.sound |
| C31 | `Verif.C31_no_panic` | propext, Classical.choice, Quot.sound |
| C31 | `Verif.C31_empty_version_panics` | propext, Classical.choice, Quot.sound |
| C32 | `Verif.C32_value_round_trip` | propext, Quot.sound |
| C32 | `Verif.C32_written_denotes` | propext, Quot.sound |
| C32 | `Verif.C32_write_panics_iff` | propext, Quot.sound |
| C32 | `Verif.C32_read_denotes` | propext, Classical.choice, Quot.sound |
| C32 | `Verif.C32_big_integers_change` | propext, Quot.sound |
| C32 | `Verif.C32_model_panics_iff` | propext, Classical.choice, Quot.sound |
| C33 | `Verif.C33_sorted` | propext, Classical.choice, Quot.sound |
| C33 | `Verif.C33_order_independent` | propext, Classical.choice, Quot.sound |
| C33 | `Verif.C33_equal_models_differ` | propext, Classical.choice, Quot.sound |
| C33 | `Verif.C33_written` | propext, Classical.choice, Quot.sound |
| C34 | `Verif.C34_lines_iff` | propext, Classical.choice, Quot.sound |
| C34 | `Verif.C34_line_count` | propext, Classical.choice, Quot.sound |
| C34 | `Verif.C34_form_determines` | propext, Classical.choice, Quot.sound |
| C34 | `Verif.C34_metadata_determined` | propext, Classical.choice, Quot.sound |
| C34 | `Verif.C34_values_ambiguous` | propext, Classical.choice, Quot.sound |
| C34 | `Verif.C34_order_lost` | propext, Classical.choice, Quot.sound |
| C34 | `Verif.Listed.C34_tells` | propext, Classical.choice, Quot.sound |
| C34 | `Verif.Listed.C34_values_tell` | propext, Classical.choice, Quot.sound |
| C34 | `Verif.Listed.C34_tells_example` | propext, Classical.choice, Quot.sound |
| C35 | `Verif.C35_issues_iff` | propext, Quot.sound |
| C35 | `Verif.C35_one_each` | propext, Classical.choice, Quot.sound |
| C35 | `Verif.C35_silent_iff` | propext, Classical.choice, Quot.sound |
| C36 | `Verif.C36_issues_iff` | propext, Quot.sound |
| C36 | `Verif.C36_error_iff` | propext, Quot.sound |
| C36 | `Verif.C36_warning_iff` | propext, Quot.sound |
| C36 | `Verif.C36_counts` | propext, Quot.sound |
| C36 | `Verif.C36_order_independent` | propext, Classical.choice, Quot.sound |
| C37 | `Verif.C37_failFast_ignored` | propext, Quot.sound |
| C37 | `Verif.C37_collects_in_order` | propext, Quot.sound |
| C37 | `Verif.C37_failFast_last` | propext, Quot.sound |
| C37 | `Verif.C37_failFast_violated` | propext, Quot.sound |
| C37 | `Verif.C37_drained` | propext, Quot.sound |
| C37 | `Verif.C37_levels` | none |
| C37 | `Verif.C37_issue_new` | propext |
| C38 | `Verif.C38_naming` | propext, Quot.sound |
| C38 | `Verif.C38_terms_warn` | propext, Quot.sound |
| C38 | `Verif.C38_violated` | propext, Quot.sound |
| C39 | `Verif.C39_walk_with_members` | propext, Quot.sound |
| C39 | `Verif.C39_walk_without_members` | propext, Quot.sound |
| C40 | `Verif.C40_query_iff` | propext, Quot.sound |
| C40 | `Verif.C40_order_of_expressions` | propext, Quot.sound |
| C40 | `Verif.C40_panics_iff` | propext, Classical.choice, Quot.sound |
| C41 | `Verif.C41_documented` | propext |
| C41 | `Verif.C41_number_violated` | propext |
| C41 | `Verif.C41_collection_violated` | propext |
| C42 | `Verif.C42_extensions` | propext, Quot.sound |
| C42 | `Verif.C42_removed` | propext, Quot.sound |
| C42 | `Verif.C42_get_iff` | propext, Quot.sound |
| C42 | `Verif.C42_contains` | propext, Quot.sound |
| C42 | `Verif.C42_mime_iff` | propext, Quot.sound |
| C42 | `Verif.C42_default` | propext |
| C43 | `Verif.C43_paths` | propext, Classical.choice, Quot.sound |
| C43 | `Verif.C43_assembly` | propext, Quot.sound |
| C43 | `Verif.C43_unlistable_panics` | propext, Quot.sound |
| C43 | `Verif.C43_nothing_found` | propext, Quot.sound |
| C43 | `Verif.C43_each_file_once` | propext, Quot.sound |
| C43 | `Verif.C43_overlapping_paths_read_twice` | propext |
| C44 | `Verif.C44_apply_to_shape` | propext, Quot.sound |
| C44 | `Verif.C44_apply_to_member` | propext, Quot.sound |
| C44 | `Verif.C44_local_member_panics` | propext, Classical.choice, Quot.sound |
| C44 | `Verif.C44_apply_wf` | propext, Quot.sound |
| C44 | `Verif.C44_apply_to_definition` | propext, Classical.choice, Quot.sound |
| C44 | `Verif.C44_apply_changes_names` | propext, Classical.choice, Quot.sound |
| C44 | `Verif.C44_target_changed` | propext |
| C44 | `Verif.C44_apply` | propext, Classical.choice, Quot.sound |
| C45 | `Verif.C45_meq_iff` | propext, Classical.choice, Quot.sound |
| C45 | `Verif.C45_meq_symm_trans` | propext, Classical.choice, Quot.sound |
| C45 | `Verif.C45_order_independent` | propext, Classical.choice, Quot.sound |
| C45 | `Verif.C45_refl_iff` | propext, Classical.choice, Quot.sound |
| C46 | `Verif.C46_reads_tidy` | propext, Quot.sound |
| C46 | `Verif.C46_tidy_strict` | propext, Quot.sound |
| C46 | `Verif.C46_accepts_tidy_iff` | propext, Classical.choice, Quot.sound |
| C46 | `Verif.C46_strict_is_tidy` | propext, Quot.sound |
| C46 | `Verif.C46_read_is_ast` | propext, Classical.choice, Quot.sound |
| C46 | `Verif.C46_accepts_iff` | propext, Classical.choice, Quot.sound |
| C46 | `Verif.C46_skips_metadata` | propext |
| C46 | `Verif.C46_skips_traits` | propext |
| C47 | `Verif.C47_issues_iff` | propext, Quot.sound |
| C48 | `Verif.C48_issues` | propext, Quot.sound |
| C48 | `Verif.C48_reported_iff` | propext, Quot.sound |
| C48 | `Verif.C48_each_once` | propext, Quot.sound |
| C48 | `Verif.C48_locus_depends_on_order` | propext, Quot.sound |
| C48 | `Verif.C48_checked_iff` | propext, Quot.sound |
| C48 | `Verif.C48_second_check` | propext, Quot.sound |
| C49 | `Verif.C49_exact` | propext, Classical.choice, Quot.sound |
| C49 | `Verif.C49_selector_roundTrip` | propext, Classical.choice, Quot.sound |
| C49 | `Verif.C49_selector_injective` | propext, Classical.choice, Quot.sound |
| C49 | `Verif.C49_violation_orEqual` | propext, Classical.choice, Quot.sound |
| C49 | `Verif.C49_violation_text` | propext, Classical.choice, Quot.sound |
| C49 | `Verif.C49_violation_changed` | propext, Classical.choice, Quot.sound |
| C49 | `Verif.C49_violation_identifier` | propext, Classical.choice, Quot.sound |
| C50 | `Verif.C50_selector_outcome` | propext, Classical.choice, Quot.sound |
| C50 | `Verif.C50_selector_stable` | propext, Classical.choice, Quot.sound |
| C50 | `Verif.C50_outcomes_occur` | propext |
| C51 | `Verif.C51_same_iff` | propext, Classical.choice, Quot.sound |
| C51 | `Verif.C51_written_rejected` | propext, Classical.choice, Quot.sound |
| C51 | `Verif.C51_round_trip` | propext, Classical.choice, Quot.sound |
| C51 | `Verif.C51_same_model` | propext, Classical.choice, Quot.sound |
| C51 | `Verif.C51_no_text` | propext, Classical.choice, Quot.sound |
| C51 | `Verif.C51_target_namespace_lost` | propext, Classical.choice, Quot.sound |
| C52 | `Verif.C52_read_models` | propext, Classical.choice, Quot.sound |
| C53 | `Verif.C53_metadata` | propext, Classical.choice, Quot.sound |
| C53 | `Verif.C53_metadata_lost` | propext |
| C53 | `Verif.C53_no_namespace` | propext, Classical.choice, Quot.sound |
| C53 | `Verif.C53_metadata_keys` | propext, Classical.choice, Quot.sound |
| C55 | `Verif.C55_defines` | propext, Classical.choice, Quot.sound |
| C55 | `Verif.C55_import_defined` | propext, Classical.choice, Quot.sound |
| C55 | `Verif.C55_origin` | propext, Classical.choice, Quot.sound |
| C56 | `Verif.C56_one_namespace` | propext, Classical.choice, Quot.sound |
| C57 | `Verif.C57_no_panic` | propext, Classical.choice, Quot.sound |
| C57 | `Verif.C57_violated` | propext |
| C54 | `Verif.C54_apply_rejected` | propext, Classical.choice, Quot.sound |
| C54 | `Verif.C54_apply_matches` | propext, Classical.choice, Quot.sound |
| C58 | `Verif.C58_keyword_rejected` | propext, Classical.choice, Quot.sound |
| C58 | `Verif.C58_keyword_namespace` | propext |
| C58 | `Verif.C58_operation_rejected` | propext, Classical.choice, Quot.sound |
| C58 | `Verif.C58_name` | propext, Classical.choice, Quot.sound |
| C58 | `Verif.C58_keyword_split` | propext, Classical.choice, Quot.sound |
| C59 | `Verif.C59_leading_blank` | propext, Classical.choice, Quot.sound |
| C59 | `Verif.C59_open_comment` | propext, Quot.sound |
| C60 | `Verif.C60_escapes_kept` | propext, Classical.choice, Quot.sound |
| C61 | `Verif.C61_documentation` | propext, Classical.choice, Quot.sound |
| C67 | `Verif.C67_rejected` | propext, Classical.choice, Quot.sound |
| C67 | `Verif.C67_comments` | propext, Classical.choice, Quot.sound |
| C62 | `Verif.C62_trait_functions` | propext, Classical.choice, Quot.sound |
| C62 | `Verif.C62_panics` | propext, Classical.choice, Quot.sound |
| C62 | `Verif.C62_in_prelude` | propext |
| C62 | `Verif.C62_large_bound` | propext, Quot.sound |
| C62 | `Verif.C62_valueless` | propext |
| C63 | `Verif.C63_setters` | propext, Quot.sound |
| C63 | `Verif.C63_array` | propext |
| C63 | `Verif.C63_object` | propext, Quot.sound |
| C64 | `Verif.C64_member_helper` | propext, Classical.choice, Quot.sound |
| C64 | `Verif.C64_structure_helper` | propext, Classical.choice, Quot.sound |
| C64 | `Verif.C64_shadowed_program` | propext |
| C65 | `Verif.C65_service` | propext, Classical.choice, Quot.sound |
| C65 | `Verif.C65_operation` | propext, Classical.choice, Quot.sound |
| C65 | `Verif.C65_resource` | propext, Classical.choice, Quot.sound |
| C65 | `Verif.C65_structure` | propext, Classical.choice, Quot.sound |
| C66 | `Verif.C66_finite` | propext, Classical.choice, Quot.sound |
| C66 | `Verif.C66_written` | propext, Classical.choice, Quot.sound |
| C66 | `Verif.C66_well_formed` | propext, Classical.choice, Quot.sound |
| C66 | `Verif.C66_valid` | propext, Classical.choice, Quot.sound |
| C66 | `Verif.C66_round_trip` | propext, Classical.choice, Quot.sound |
| C66 | `Verif.C66_member_import` | propext, Quot.sound |
| C68 | `Verif.Rdf.C68_describes` | propext, Classical.choice, Quot.sound |
| C69 | `Verif.Rdf.C69_same_graph` | propext, Classical.choice, Quot.sound |
| C69 | `Verif.Rdf.C69_tells` | propext, Classical.choice, Quot.sound |
| C69 | `Verif.Rdf.C69_tells_example` | propext, Classical.choice, Quot.sound |
| C70 | `Verif.Rdf.C70_metadata` | propext, Classical.choice, Quot.sound |
| C70 | `Verif.Rdf.C70_placeholders` | propext, Classical.choice, Quot.sound |
| C70 | `Verif.Rdf.C70_renames` | propext, Classical.choice, Quot.sound |
| C70 | `Verif.Rdf.C70_arrays` | propext, Classical.choice, Quot.sound |
| C71 | `Verif.Rdf.C71_reading` | propext, Classical.choice, Quot.sound |
| C71 | `Verif.Rdf.C71_other_iri` | propext, Classical.choice, Quot.sound |
| C71 | `Verif.Rdf.C71_ambiguous` | propext, Classical.choice, Quot.sound |
| C72 | `Verif.GraphML.C72_document` | propext, Classical.choice, Quot.sound |
| C72 | `Verif.GraphML.C72_same_document` | propext, Classical.choice, Quot.sound |
| C72 | `Verif.GraphML.C72_tells` | propext, Classical.choice, Quot.sound |
| C72 | `Verif.GraphML.C72_tells_example` | propext, Classical.choice, Quot.sound |
| C73 | `Verif.GraphML.C73_panics` | propext, Classical.choice, Quot.sound |
| C73 | `Verif.GraphML.C73_shared_ids` | propext, Classical.choice, Quot.sound |
| C74 | `Verif.GraphML.C74_keys` | propext, Classical.choice, Quot.sound |
| C74 | `Verif.GraphML.C74_ends` | propext, Classical.choice, Quot.sound |
| C74 | `Verif.GraphML.C74_made_up` | propext, Classical.choice, Quot.sound |
| C75 | `Verif.GraphML.C75_metadata` | propext, Classical.choice, Quot.sound |
| C75 | `Verif.GraphML.C75_placeholders` | propext, Classical.choice, Quot.sound |
| C75 | `Verif.GraphML.C75_details` | propext, Classical.choice, Quot.sound |
| C76 | `Verif.PlantUml.C76_panics_iff` | propext, Classical.choice, Quot.sound |
| C77 | `Verif.PlantUml.C77_packages` | propext, Classical.choice, Quot.sound |
| C78 | `Verif.PlantUml.C78_alike` | propext, Classical.choice, Quot.sound |
| C78 | `Verif.PlantUml.C78_metadata` | propext, Classical.choice, Quot.sound |
| C78 | `Verif.PlantUml.C78_lifecycle` | propext, Classical.choice, Quot.sound |
| C78 | `Verif.PlantUml.C78_tells` | propext, Classical.choice, Quot.sound |
| C78 | `Verif.PlantUml.C78_tells_example` | propext, Classical.choice, Quot.sound |
| C79 | `Verif.PlantUml.C79_made_up` | propext, Classical.choice, Quot.sound |
| C80 | `Verif.Describe.C80_reachable` | propext, Classical.choice, Quot.sound |
| C80 | `Verif.Describe.C80_panics_iff` | propext, Classical.choice, Quot.sound |
| C81 | `Verif.Describe.C81_document` | propext, Classical.choice, Quot.sound |
| C81 | `Verif.Describe.C81_once` | propext, Classical.choice, Quot.sound |
| C81 | `Verif.Describe.C81_twice` | propext, Classical.choice, Quot.sound |
| C82 | `Verif.Describe.C82_described` | propext, Classical.choice, Quot.sound |
| C82 | `Verif.Describe.C82_alike` | propext, Classical.choice, Quot.sound |
| C82 | `Verif.Describe.C82_tells` | propext, Classical.choice, Quot.sound |
| C83 | `Verif.Describe.C83_links` | propext, Classical.choice, Quot.sound |
| C83 | `Verif.Describe.C83_links_lead` | propext, Classical.choice, Quot.sound |
| C83 | `Verif.Describe.C83_labels_distinct` | propext, Classical.choice, Quot.sound |
| C83 | `Verif.Describe.C83_external` | propext, Classical.choice, Quot.sound |
| C84 | `Verif.SelApi.C84_builds` | propext, Classical.choice, Quot.sound |
| C84 | `Verif.SelApi.C84_panics_iff` | propext, Classical.choice, Quot.sound |
| C85 | `Verif.SelApi.C85_reads` | propext, Classical.choice, Quot.sound |
| C85 | `Verif.SelApi.C85_never_read` | propext, Classical.choice, Quot.sound |
| C86 | `Verif.SelApi.C86_scoped_text` | propext, Classical.choice, Quot.sound |
| C86 | `Verif.SelApi.C86_attribute_number` | propext |
| C87 | `Verif.Cli.C87_never_written` | propext, Classical.choice, Quot.sound |
| C87 | `Verif.Cli.C87_status_zero` | propext, Classical.choice, Quot.sound |
| C87 | `Verif.Cli.C87_write_model_to_file` | propext, Quot.sound |
| C88 | `Verif.Cli.C88_check_status` | propext, Classical.choice, Quot.sound |
| C88 | `Verif.Cli.C88_errors_ignored` | propext, Classical.choice, Quot.sound |
| C88 | `Verif.Cli.C88_convert_status` | propext, Classical.choice, Quot.sound |
| C88 | `Verif.Cli.C88_not_json` | propext, Classical.choice, Quot.sound |
| C88 | `Verif.Cli.C88_output_status` | propext, Classical.choice, Quot.sound |
| C88 | `Verif.Cli.C88_not_utf8` | propext, Classical.choice, Quot.sound |
| C89 | `Verif.Cli.C89_json` | propext, Classical.choice, Quot.sound |
| C89 | `Verif.Cli.C89_smithy` | propext, Classical.choice, Quot.sound |
| C89 | `Verif.Cli.C89_smithy_default` | propext, Classical.choice, Quot.sound |
| C89 | `Verif.Cli.C89_uml` | propext, Classical.choice, Quot.sound |
| C89 | `Verif.Cli.C89_document` | propext, Classical.choice, Quot.sound |
| C89 | `Verif.Cli.C89_json_to_json` | propext, Classical.choice, Quot.sound |
| C89 | `Verif.Cli.C89_no_output` | propext, Classical.choice, Quot.sound |
| C89 | `Verif.Cli.C89_files_kept` | propext, Classical.choice, Quot.sound |
| C90 | `Verif.Cli.C90_colors_injective` | propext, Classical.choice, Quot.sound |
| C90 | `Verif.Cli.C90_printed` | propext, Classical.choice, Quot.sound |
| C90 | `Verif.Cli.C90_report_injective` | propext, Classical.choice, Quot.sound |
| C90 | `Verif.Cli.C90_command_line` | propext |
| C91 | `Verif.Cli.C91_validation` | propext, Quot.sound |
| C91 | `Verif.Cli.C91_silent_iff` | propext, Quot.sound |
| C91 | `Verif.Cli.C91_lint` | propext, Quot.sound |
| C92 | `Verif.Cli.C92_validate` | propext, Classical.choice, Quot.sound |
| C92 | `Verif.Cli.C92_validate_clean` | propext, Classical.choice, Quot.sound |
| C92 | `Verif.Cli.C92_output_appended` | propext, Classical.choice, Quot.sound |
| C92 | `Verif.Cli.C92_assembled` | propext, Classical.choice, Quot.sound |
| C92 | `Verif.Cli.C92_unlistable` | propext, Quot.sound |
| C92 | `Verif.Cli.C92_well_formed` | propext, Classical.choice, Quot.sound |
| C93 | `Verif.Cli.C93_printed` | propext, Classical.choice, Quot.sound |
| C93 | `Verif.Cli.C93_quiet` | propext, Classical.choice, Quot.sound |
| C93 | `Verif.Cli.C93_noise` | propext, Classical.choice, Quot.sound |
| C94 | `Verif.C94_entries` | propext, Classical.choice, Quot.sound |
| C94 | `Verif.C94_metadata` | propext, Classical.choice, Quot.sound |
| C94 | `Verif.C94_calls` | propext, Classical.choice, Quot.sound |
| C94 | `Verif.C94_panics` | propext, Classical.choice, Quot.sound |
| C94 | `Verif.C94_apply_forgets` | propext, Classical.choice, Quot.sound |
| C94 | `Verif.C94_runs` | propext, Classical.choice, Quot.sound |
| C94 | `Verif.C94_model` | propext, Classical.choice, Quot.sound |
| C95 | `Verif.C95_read` | propext, Classical.choice, Quot.sound |
| C95 | `Verif.C95_version` | propext, Classical.choice, Quot.sound |
| C95 | `Verif.C95_layout` | propext, Classical.choice, Quot.sound |
| C95 | `Verif.C95_front` | propext, Classical.choice, Quot.sound |
| C95 | `Verif.C95_shapes` | propext, Classical.choice, Quot.sound |
| C96 | `Verif.C96_read` | propext, Classical.choice, Quot.sound |
| C96 | `Verif.C96_models` | propext, Classical.choice, Quot.sound |
| C97 | `Verif.C97_merge_all_iff` | propext, Classical.choice, Quot.sound |
| C97 | `Verif.C97_merge_all` | propext, Classical.choice, Quot.sound |
| C98 | `Verif.C98_assembly` | propext, Classical.choice, Quot.sound |
| C98 | `Verif.C98_arrays_in_order` | propext, Classical.choice, Quot.sound |
| C98 | `Verif.C98_member_trait_order` | propext, Classical.choice, Quot.sound |
| C98 | `Verif.C98_commands` | propext, Classical.choice, Quot.sound |
| C98 | `Verif.C98_any_order` | propext, Classical.choice, Quot.sound |
| C99 | `Verif.C99_three` | propext, Classical.choice, Quot.sound |
| C99 | `Verif.C99_grouping` | propext, Classical.choice, Quot.sound |
| C100 | `Verif.C100_questions` | propext, Quot.sound |
| C100 | `Verif.C100_independent` | propext, Quot.sound |
| C100 | `Verif.C100_has_traits` | propext, Quot.sound |
| C100 | `Verif.C100_history` | propext, Quot.sound |
| C100 | `Verif.C100_history_questions` | propext, Quot.sound |
| C100 | `Verif.C100_failed_call` | propext, Quot.sound |
| C100 | `Verif.C100_merged` | propext, Classical.choice, Quot.sound |
| C100 | `Verif.C100_functions` | propext, Quot.sound |
| C100 | `Verif.C100_case_violated` | propext, Classical.choice, Quot.sound |
| C100 | `Verif.C100_member` | propext, Quot.sound |
| C100 | `Verif.C100_has_members` | propext |
| C100 | `Verif.C100_has_members_violated` | propext, Classical.choice, Quot.sound |
| C100 | `Verif.C100_member_case` | propext |
| C100 | `Verif.C100_prelude` | propext |
| C100 | `Verif.C100_prelude_named` | propext, Classical.choice, Quot.sound |
| C101 | `Verif.C101_reachable` | propext, Classical.choice, Quot.sound |
| C101 | `Verif.C101_extends` | propext |
| C101 | `Verif.C101_placeholder_violated` | propext |
| C101 | `Verif.C101_set_id` | propext, Quot.sound |
| C101 | `Verif.C101_set_id_merged` | propext, Quot.sound |
| C101 | `Verif.C101_list` | propext |
| C101 | `Verif.C101_list_from` | none |
| C101 | `Verif.C101_list_violated` | propext |
| C101 | `Verif.C101_map` | propext |
| C101 | `Verif.C101_map_set` | propext |
| C101 | `Verif.C101_map_violated` | propext |
| C101 | `Verif.C101_new` | propext, Quot.sound |
| C101 | `Verif.C101_struct` | propext, Quot.sound |
| C101 | `Verif.C101_with_members` | propext, Quot.sound |
| C101 | `Verif.C101_edit_frame` | propext, Quot.sound |
| C101 | `Verif.C101_edit_parts` | propext, Quot.sound |
| C102 | `Verif.C102_builder` | propext, Classical.choice, Quot.sound |
| C102 | `Verif.C102_builder_example` | propext |
| C102 | `Verif.C102_idl` | propext, Classical.choice, Quot.sound |
| C102 | `Verif.C102_idl_examples` | propext |
| C102 | `Verif.C102_json` | propext, Classical.choice, Quot.sound |
| C102 | `Verif.C102_json_violated` | propext |
| C102 | `Verif.C102_json_examples` | propext |
| C103 | `Verif.C103_idl` | propext, Classical.choice, Quot.sound |
| C103 | `Verif.C103_idl_metadata` | propext, Classical.choice, Quot.sound |
| C103 | `Verif.C103_json` | propext, Classical.choice, Quot.sound |
| C103 | `Verif.C103_json_again` | propext, Classical.choice, Quot.sound |
| C104 | `Verif.C104_idl_to_json` | propext, Classical.choice, Quot.sound |
| C104 | `Verif.C104_idl_json_same_iff` | propext, Classical.choice, Quot.sound |
| C104 | `Verif.C104_idl_json_idl` | propext, Classical.choice, Quot.sound |
| C105 | `Verif.C105_error` | propext, Classical.choice, Quot.sound |
| C105 | `Verif.C105_issue` | propext, Classical.choice, Quot.sound |
| C105 | `Verif.C105_found` | propext, Classical.choice, Quot.sound |
| C105 | `Verif.C105_issue_text` | propext |
| C105 | `Verif.C105_error_text` | propext |
| C105 | `Verif.C105_error_violated` | propext |
| C106 | `Verif.C106_outline` | propext, Classical.choice, Quot.sound |
| C106 | `Verif.C106_json` | propext, Classical.choice, Quot.sound |
| C106 | `Verif.C106_json_again` | propext, Classical.choice, Quot.sound |
| C106 | `Verif.C106_idl_to_json` | propext, Classical.choice, Quot.sound |
| C106 | `Verif.C106_idl` | propext, Classical.choice, Quot.sound |
| C107 | `Verif.C107_faults` | propext, Classical.choice, Quot.sound |
| C107 | `Verif.C107_model` | propext, Classical.choice, Quot.sound |
| C107 | `Verif.C107_examples` | propext |
| C108 | `Verif.PlantUml.C108_plantuml` | propext, Classical.choice, Quot.sound |
| C108 | `Verif.Describe.C108_documents` | propext, Classical.choice, Quot.sound |
| C108 | `Verif.GraphML.C108_graphml` | propext, Classical.choice, Quot.sound |
| C108 | `Verif.C108_idl` | propext, Classical.choice, Quot.sound |
| C108 | `Verif.JsonWriter.C108_json` | propext, Classical.choice, Quot.sound |
| C108 | `Verif.JsonWriter.C108_json_sorted` | propext, Classical.choice, Quot.sound |
| C108 | `Verif.Rdf.C108_rdf` | propext, Classical.choice, Quot.sound |
| C108 | `Verif.Rdf.C108_rdf_violated` | propext, Classical.choice, Quot.sound |
| C109 | `Verif.C109_json_order` | propext, Classical.choice, Quot.sound |
| C109 | `Verif.C109_json_fixed` | propext, Classical.choice, Quot.sound |
| C109 | `Verif.Cli.C109_pipeline` | propext, Classical.choice, Quot.sound |
| C109 | `Verif.Cli.C109_reports` | propext, Classical.choice, Quot.sound |
| C109 | `Verif.Cli.C109_again` | propext, Classical.choice, Quot.sound |
| C109 | `Verif.Cli.C109_smithy` | propext, Classical.choice, Quot.sound |
| C109 | `Verif.C109_merge` | propext, Classical.choice, Quot.sound |
| C109 | `Verif.C109_parts` | propext, Classical.choice, Quot.sound |
| C109 | `Verif.C109_merge_not_conversely` | propext |
| C110 | `Verif.Cli.C110_command` | propext, Quot.sound |
| C110 | `Verif.Cli.C110_files` | propext, Quot.sound |
| C110 | `Verif.Cli.C110_options` | propext, Classical.choice, Quot.sound |
| C110 | `Verif.Cli.C110_environment` | propext, Classical.choice, Quot.sound |
| C110 | `Verif.Cli.C110_examples` | none |
| C111 | `Verif.C111_lines` | propext, Classical.choice, Quot.sound |
| C111 | `Verif.C111_idl` | propext, Classical.choice, Quot.sound |
| C111 | `Verif.C111_graphml` | propext, Classical.choice, Quot.sound |
| C111 | `Verif.C111_plantuml` | propext, Classical.choice, Quot.sound |
| C111 | `Verif.C111_prefix` | propext |
| C111 | `Verif.C111_limited` | propext, Classical.choice, Quot.sound |
| C111 | `Verif.C111_string` | propext |
| C111 | `Verif.C111_examples` | propext, Classical.choice, Quot.sound |
| C112 | `Verif.C112_smithy` | propext, Classical.choice, Quot.sound |
| C112 | `Verif.C112_json` | propext, Classical.choice, Quot.sound |
| C112 | `Verif.C112_string` | propext, Classical.choice, Quot.sound |
| C112 | `Verif.C112_cut_off` | propext, Classical.choice, Quot.sound |
| C112 | `Verif.C112_examples` | propext, Classical.choice, Quot.sound |
| C112 | `Verif.C112_json_examples` | propext |
| C113 | `Verif.C113_parse` | propext, Classical.choice, Quot.sound |
| C113 | `Verif.C113_refused` | none |
| C113 | `Verif.C113_relative_member` | propext, Classical.choice, Quot.sound |
| C113 | `Verif.C113_round_trip` | propext, Classical.choice, Quot.sound |
| C113 | `Verif.C113_parts` | propext |
| C113 | `Verif.C113_equal` | propext, Classical.choice, Quot.sound |
| C113 | `Verif.C113_examples` | propext |
| C114 | `Verif.SelEdits.C114_comparison` | propext, Quot.sound |
| C114 | `Verif.SelEdits.C114_attribute` | propext |
| C114 | `Verif.SelEdits.C114_scoped` | propext, Quot.sound |
| C114 | `Verif.SelEdits.C114_functions` | propext, Quot.sound |
| C114 | `Verif.SelEdits.C114_equal` | propext, Classical.choice, Quot.sound |
| C114 | `Verif.SelEdits.C114_equal_violated` | propext, Classical.choice, Quot.sound |
| C114 | `Verif.SelEdits.C114_emptied` | propext, Classical.choice, Quot.sound |
| C114 | `Verif.SelEdits.C114_made_text` | propext, Classical.choice, Quot.sound |
| C114 | `Verif.SelEdits.C114_made` | propext |
| C114 | `Verif.SelEdits.C114_values` | propext |
| C114 | `Verif.SelEdits.C114_expressions` | propext |
| C114 | `Verif.SelEdits.C114_projection` | propext |
