{
 "C05": [
  "proved",
  "The expectation is refuted (C05_hash_contract_violated, C05_lookup_not_determined). C05_lookup_iff is exact; C05_lookup is the case without keys that differ only by case."
 ],
 "C11": [
  "proved",
  "The expectation is refuted (C11_predicates_negated, C11_predicates_always_wrong); C11_other_predicates is what holds."
 ],
 "C14": [
  "proved",
  "The expectation is refuted (C14_addShape_panics). C14_panic_iff, C14_panic_possible_iff and C14_panic_certain_iff are exact."
 ],
 "C18": [
  "proved",
  "The expectation is refuted (C18_failed_merge_changes_model). C18_failed_merge says exactly what is left; C18_merge_frame what a merge can never change. Version conflicts cannot occur: the Version type has one value."
 ],
 "C20": [
  "proved",
  "C20_self_merge_ok_iff, C20_self_merge_doubles and C20_self_merge_unchanged_iff are exact."
 ],
 "C27": [
  "proved",
  "C27_type is exact; C27_set_becomes_list is the exception."
 ],
 "C28": [
  "proved",
  "The expectation is refuted (C28_no_conflict_reported, C28_conflict_dropped). C28_added_in_turn, C28_first_definition, C28_insert_replaces and C28_distinct_ids say what happens."
 ],
 "C29": [
  "proved",
  "The expectation is refuted (C29_rules_violated). C29_last_wins is exact for an entry that alone stands for its id; several entries are in C28."
 ],
 "C44": [
  "proved",
  "The expectation is violated; the exact behaviour is C44_apply."
 ],
 "C30": [
  "proved",
  "C30_round_trip_changes and C30_round_trip_iff are exact. Models with NaNs or infinities are in C32. JSON text (serde_json) is not modelled."
 ],
 "C31": [
  "proved",
  "C31_panic_iff is exact. JSON text (serde_json) is not modelled."
 ],
 "C46": [
  "proved",
  "C46_accepts_tidy_iff is exact; C46_reads_tidy, C46_tidy_strict and C46_strict_is_tidy say what tidy documents are."
 ],
 "C33": [
  "proved",
  "C33_sorted, C33_order_independent, C33_written. C33_equal_models_differ is the witness for the last sentence."
 ],
 "C34": [
  "proved",
  "C34_lines_iff gives both directions, C34_line_count the multiplicities, C34_form_determines and C34_metadata_determined what the form determines, C34_tells and C34_values_tell exactly what it tells; C34_values_ambiguous and C34_order_lost show what it does not determine."
 ],
 "C37": [
  "proved",
  "C37_collects_in_order and C37_failFast_ignored are exact. The expectation for fail_fast is refuted (C37_failFast_violated)."
 ],
 "C38": [
  "proved",
  "C38_naming and C38_terms_warn are exact. The expectation is refuted (C38_violated)."
 ],
 "C48": [
  "proved",
  "C48_reported_iff, C48_each_once, C48_checked_iff, C48_second_check; C48_locus_depends_on_order shows the one thing enumeration order decides. heck's snake case is a parameter."
 ],
 "C40": [
  "proved",
  "C40_query_iff is exact for queries made of shape types and variable definitions, C40_order_of_expressions gives the order clause. Beyond the property: every other selector panics (C40_panics_iff)."
 ],
 "C41": [
  "proved",
  "C41_documented, C41_number_violated and C41_collection_violated are exact."
 ],
 "C43": [
  "proved",
  "C43_assembly is exact, given that readers return well-formed models (C30_read_model_wf for JSON). C43_overlapping_paths_read_twice shows that C43_each_file_once needs its hypothesis."
 ],
 "C49": [
  "proved",
  "Exact within the limits written in the statement; C49_violation_* prove that the limits are needed. The semantics of pest (ordered choice, implicit whitespace, atomic rules) and f64 formatting and parsing are in the trusted base (flt and Fmt are parameters)."
 ],
 "C50": [
  "proved",
  "C50_selector_outcome covers every text; termination of the grammar is proved (SelGrammar.terminating, matchSelector_iff)."
 ],
 "C51": [
  "proved",
  "C51_round_trip and C51_same_iff are exact for every writable model; C51_no_text, C51_target_namespace_lost and C51_written_rejected are about the others."
 ],
 "C52": [
  "proved",
  "Relative to pest's semantics (Peg.lean) and f64::from_str (parameter flt)."
 ],
 "C53": [
  "proved",
  "C53_metadata is exact; C53_no_namespace and C53_metadata_lost are about the lost metadata."
 ],
 "C55": [
  "proved",
  "C55_defines is exact; C55_origin for all shapes; C55_import_defined is a text that defines an import."
 ],
 "C56": [
  "proved",
  ""
 ],
 "C57": [
  "proved",
  "The expectation is violated: C57_violated has five texts that panic. C57_no_panic shows what every panicking text contains."
 ],
 "C54": [
  "proved",
  "The expectation is violated for every text: C54_apply_rejected; C54_apply_matches has a family of such texts."
 ],
 "C58": [
  "proved",
  "The expectation is violated: C58_keyword_split, C58_keyword_rejected. C58_name is for names without such a prefix."
 ],
 "C60": [
  "proved",
  "The expectation is violated: C60_escapes_kept."
 ],
 "C62": [
  "proved",
  "The expectation is violated: C62_large_bound, C62_valueless. C62_trait_functions proves it for all other functions and arguments, C62_panics is exact."
 ],
 "C64": [
  "proved",
  "The expectation is violated: C64_structure_helper says exactly when, C64_shadowed_program is a program. C64_member_helper holds without conditions."
 ],
 "C66": [
  "proved",
  "C66_well_formed has no exception; C66_valid and C66_round_trip are for programs without imports of members; C66_member_import is the witness for these."
 ],
 "C67": [
  "proved",
  "The expectation is violated: C67_rejected. C67_comments proves that comments of all other characters are read."
 ],
 "C69": [
  "proved",
  "Up to the losses of C70, which the code has: metadata, placeholders, renames, order and repetitions of lists. Map members need the names key and value (MapNames), which all readers give."
 ],
 "C70": [
  "proved",
  "The expectation is violated: the theorems state, for all models, what is lost."
 ],
 "C71": [
  "proved",
  "The expectation is violated: C71_reading says exactly what happens for every model."
 ],
 "C73": [
  "proved",
  "The expectation is violated: the theorems say exactly what happens for all models with too many edges."
 ],
 "C74": [
  "proved",
  "The expectation is violated: the theorems say, for all models, how."
 ],
 "C75": [
  "proved",
  "The expectation is violated: the theorems state, for all models, what is lost."
 ],
 "C77": [
  "proved",
  "The expectation is violated: C77_packages says exactly which packages and drawings are written, for all models."
 ],
 "C78": [
  "proved",
  "The expectation is violated: the theorems state, for all pairs of models that are alike, that the texts are the same."
 ],
 "C79": [
  "proved",
  "The expectation is violated: C79_made_up."
 ],
 "C81": [
  "proved",
  "The expectation is violated: C81_document says exactly what the document is, for all models; C81_once and C81_twice say when shapes are described once."
 ],
 "C82": [
  "proved",
  "The expectation is violated: C82_alike states, for all pairs of models that are alike, that the documents are the same; C82_described is what holds."
 ],
 "C83": [
  "proved",
  "The expectation is violated: C83_labels_distinct and C83_links_lead say exactly when it holds; C83_external: addresses are put in quotes."
 ],
 "C85": [
  "proved",
  "The expectation is violated: C85_never_read; C85_reads is what holds."
 ],
 "C86": [
  "proved",
  "The expectation is violated for scoped attributes: C86_scoped_text."
 ],
 "C87": [
  "proved",
  "The expectation is violated for all inputs: C87_never_written, C87_write_model_to_file, C87_status_zero."
 ],
 "C88": [
  "proved",
  "The expectation is violated; the theorems give the status for all inputs: C88_check_status, C88_errors_ignored, C88_convert_status, C88_not_json."
 ],
 "C93": [
  "proved",
  "The expectation is violated: C93_noise. C93_printed says exactly what is printed; C93_quiet proves it when no JSON file has a resource with identifiers."
 ],
 "C94": [
  "proved",
  "C94_calls, C94_panics, C94_entries, C94_metadata and C94_model say what programs make. The expectation is violated: C94_apply_forgets. C94_model is for names that no import, apply or absolute declaration shares (others are in C25, C26, C44); sets become lists (C27)."
 ],
 "C95": [
  "proved",
  "C95_read, C95_layout, C95_shapes, C95_version and C95_front. The expectation is violated as the statement says; the specification in IdlLayoutSpec describes what is read. Apply statements are in C54, a repeated name or a name shared with an import in C25 and C26. A name that starts with true, false or null is not read as a value (C59)."
 ],
 "C96": [
  "proved",
  "C96_read and C96_models. The code accepts more than the syntax as the statement says; IdlLooseSpec describes what is accepted. When an import ends in the name of a statement, C26 says which ids are defined."
 ]
}