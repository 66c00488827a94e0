{
 "claims": [
  {
   "property": "C01",
   "status": "proved",
   "theorems": [
    "Verif.Props.C01_lossless"
   ],
   "note": ""
  },
  {
   "property": "C02",
   "status": "proved",
   "theorems": [
    "Verif.Props.C02_longest_match",
    "Verif.Props.C02_error",
    "Verif.Props.C02_unique",
    "Verif.Props.C02_ties",
    "Verif.Props.C02_comment_tie_at_end"
   ],
   "note": ""
  },
  {
   "property": "C03",
   "status": "proved",
   "theorems": [
    "Verif.Props.C03_no_panic"
   ],
   "note": ""
  },
  {
   "property": "C04",
   "status": "proved",
   "theorems": [
    "Verif.Props.C04_before",
    "Verif.Props.C04_between",
    "Verif.Props.C04_after",
    "Verif.Props.C04_join",
    "Verif.Props.C04_run"
   ],
   "note": ""
  },
  {
   "property": "C05",
   "status": "proved",
   "theorems": [
    "Verif.Props.C05_same_element",
    "Verif.Props.C05_filtered",
    "Verif.Props.C05_error"
   ],
   "note": ""
  },
  {
   "property": "C06",
   "status": "proved",
   "theorems": [
    "Verif.Props.C06_exact",
    "Verif.Props.C06_unique"
   ],
   "note": ""
  },
  {
   "property": "C07",
   "status": "proved",
   "theorems": [
    "Verif.Props.C07_round_trip",
    "Verif.Props.C07_reread",
    "Verif.Props.C07_injective"
   ],
   "note": ""
  },
  {
   "property": "C08",
   "status": "proved",
   "theorems": [
    "Verif.Props.C08_same_entries",
    "Verif.Props.C08_network_is_set"
   ],
   "note": ""
  },
  {
   "property": "C09",
   "status": "proved",
   "theorems": [
    "Verif.Props.C09_panics",
    "Verif.Props.C09_err",
    "Verif.Props.C09_panic",
    "Verif.Props.C09_classes",
    "Verif.Props.C09_scripts",
    "Verif.Props.C09_message",
    "Verif.Props.C09_message_blind"
   ],
   "note": "Always-an-error is refuted with witnesses; the exact outcome of every token sequence is proved."
  },
  {
   "property": "C10",
   "status": "proved",
   "theorems": [
    "Verif.Props.C10_read_back",
    "Verif.Props.C10_unchanged",
    "Verif.Props.C10_once",
    "Verif.Props.C10_id_displayed"
   ],
   "note": "Values with a quote inside a quote are excluded: the grammar has no such form."
  },
  {
   "property": "C11",
   "status": "proved",
   "theorems": [
    "Verif.Props.C11_print_alike",
    "Verif.Props.C11_layout",
    "Verif.Props.C11_untagged_injective",
    "Verif.Props.C11_prefix_free"
   ],
   "note": ""
  },
  {
   "property": "C12",
   "status": "proved",
   "theorems": [
    "Verif.Props.C12_write_string",
    "Verif.Props.C12_display_element",
    "Verif.Props.C12_injective",
    "Verif.Props.C12_agree",
    "Verif.Props.C12_one_token"
   ],
   "note": ""
  },
  {
   "property": "C13",
   "status": "proved",
   "theorems": [
    "Verif.Props.C13_append",
    "Verif.Props.C13_first_failure",
    "Verif.Props.C13_command_outcome",
    "Verif.Props.C13_script"
   ],
   "note": ""
  },
  {
   "property": "C14",
   "status": "proved",
   "theorems": [
    "Verif.Props.C14_last_value",
    "Verif.Props.C14_last_command",
    "Verif.Props.C14_script",
    "Verif.Props.C14_no_calls",
    "Verif.Props.C14_blank_script"
   ],
   "note": ""
  },
  {
   "property": "C15",
   "status": "proved",
   "theorems": [
    "Verif.Props.C15_unknown_command",
    "Verif.Props.C15_standard_names"
   ],
   "note": ""
  },
  {
   "property": "C16",
   "status": "proved",
   "theorems": [
    "Verif.Props.C16_depth_bounded",
    "Verif.Props.C16_script_depth"
   ],
   "note": ""
  },
  {
   "property": "C17",
   "status": "proved",
   "theorems": [
    "Verif.Props.C17_let_read",
    "Verif.Props.C17_parser_form_unchanged",
    "Verif.Props.C17_let_replaces",
    "Verif.Props.C17_let_quote",
    "Verif.Props.C17_script_values",
    "Verif.Props.C17_script_round_trip"
   ],
   "note": ""
  },
  {
   "property": "C18",
   "status": "proved",
   "theorems": [
    "Verif.Props.C18_any_argument",
    "Verif.Props.C18_let_isolated",
    "Verif.Props.C18_let_listing"
   ],
   "note": ""
  },
  {
   "property": "C19",
   "status": "proved",
   "theorems": [
    "Verif.Props.C19_only_let_writes",
    "Verif.Props.C19_commands_that_never_write"
   ],
   "note": ""
  },
  {
   "property": "C20",
   "status": "proved",
   "theorems": [
    "Verif.Props.C20_union",
    "Verif.Props.C20_union_laws",
    "Verif.Props.C20_union_misuse"
   ],
   "note": ""
  },
  {
   "property": "C21",
   "status": "proved",
   "theorems": [
    "Verif.Props.C21_filter_exact",
    "Verif.Props.C21_filter_missing"
   ],
   "note": ""
  },
  {
   "property": "C22",
   "status": "proved",
   "theorems": [
    "Verif.Props.C22_named_variables"
   ],
   "note": ""
  },
  {
   "property": "C23",
   "status": "proved",
   "theorems": [
    "Verif.Props.C23_assert_equal_iff",
    "Verif.Props.C23_message",
    "Verif.Props.C23_failing_argument",
    "Verif.Props.C23_symmetric"
   ],
   "note": ""
  },
  {
   "property": "C24",
   "status": "proved",
   "theorems": [
    "Verif.Props.C24_assert_fail_iff",
    "Verif.Props.C24_assert_fail_otherwise",
    "Verif.Props.C24_assert_fail_misuse"
   ],
   "note": ""
  },
  {
   "property": "C25",
   "status": "proved",
   "theorems": [
    "Verif.Props.C25_order_independent",
    "Verif.Props.C25_docs_exact",
    "Verif.Props.C25_standard_docs"
   ],
   "note": ""
  },
  {
   "property": "C26",
   "status": "proved",
   "theorems": [
    "Verif.Props.C26_parametric_calls",
    "Verif.Props.C26_parametric",
    "Verif.Props.C26_standard_table"
   ],
   "note": ""
  },
  {
   "property": "C27",
   "status": "proved",
   "theorems": [
    "Verif.Props.C27_mem_refines_map",
    "Verif.Props.C27_mem_missing_is_error",
    "Verif.Props.C27_mem_outcomes",
    "Verif.Props.C27_mem_filter"
   ],
   "note": "Refinement of a plain map by induction over histories; outcomes and filter included."
  },
  {
   "property": "C28",
   "status": "proved",
   "theorems": [
    "Verif.Props.C28_heed_add_existing_noop",
    "Verif.Props.C28_mem_add_existing_empties",
    "Verif.Props.C28_mem_violates",
    "Verif.Props.C28_duck_add_existing_panics",
    "Verif.Props.C28_duck_violates"
   ],
   "note": "Documented clause proved for the LMDB store, refuted with a witness for the in-memory store (which empties the collection) and the DuckDB store (which panics); what those do instead is proved for all histories."
  },
  {
   "property": "C29",
   "status": "proved",
   "theorems": [
    "Verif.Props.C29_mem_remove_missing_noop",
    "Verif.Props.C29_duck_remove_missing_noop",
    "Verif.Props.C29_heed_remove_missing_panics",
    "Verif.Props.C29_heed_violates"
   ],
   "note": "Proved for the in-memory and DuckDB stores; the LMDB store panics (proved for all histories), so the clause is refuted there."
  },
  {
   "property": "C30",
   "status": "proved",
   "theorems": [
    "Verif.Props.C30_duck_write_missing_errs",
    "Verif.Props.C30_mem_write_missing_panics",
    "Verif.Props.C30_mem_violates",
    "Verif.Props.C30_heed_write_missing_panics",
    "Verif.Props.C30_heed_violates"
   ],
   "note": "Proved for DuckDB; in-memory and LMDB stores panic (proved for all histories), so the clause is refuted there."
  },
  {
   "property": "C31",
   "status": "proved",
   "theorems": [
    "Verif.Props.C31_mem_remove_absent_noop",
    "Verif.Props.C31_duck_remove_absent_noop",
    "Verif.Props.C31_heed_remove_absent",
    "Verif.Props.C31_heed_violates"
   ],
   "note": "Proved for in-memory and DuckDB; for LMDB the exact condition for Ok versus panic is proved and the clause refuted."
  },
  {
   "property": "C32",
   "status": "proved",
   "theorems": [
    "Verif.Props.C32_mem",
    "Verif.Props.C32_heed",
    "Verif.Props.C32_duck",
    "Verif.Props.C32_acked"
   ],
   "note": ""
  },
  {
   "property": "C33",
   "status": "proved",
   "theorems": [
    "Verif.Props.C33_mem",
    "Verif.Props.C33_heed",
    "Verif.Props.C33_duck"
   ],
   "note": ""
  },
  {
   "property": "C34",
   "status": "proved",
   "theorems": [
    "Verif.Props.C34_mem",
    "Verif.Props.C34_heed",
    "Verif.Props.C34_duck"
   ],
   "note": ""
  },
  {
   "property": "C35",
   "status": "proved",
   "theorems": [
    "Verif.Props.C35_mem",
    "Verif.Props.C35_heed",
    "Verif.Props.C35_duck",
    "Verif.Props.C35_parser_form"
   ],
   "note": ""
  },
  {
   "property": "C36",
   "status": "proved",
   "theorems": [
    "Verif.Props.C36_filter_agrees_with_entries",
    "Verif.Props.C36_missing",
    "Verif.Props.C36_others_unimplemented"
   ],
   "note": "For the in-memory store; filter is unimplemented (panics, C59) on the LMDB and DuckDB stores."
  },
  {
   "property": "C37",
   "status": "proved",
   "theorems": [
    "Verif.Props.C37_graph_keeps_callers_set",
    "Verif.Props.C37_mem_drains",
    "Verif.Props.C37_others_keep"
   ],
   "note": "Both stores' behaviour is proved exactly; see the property text for where the documentation is not met."
  },
  {
   "property": "C38",
   "status": "proved",
   "theorems": [
    "Verif.Props.C38_match_iff_assignment",
    "Verif.Props.C38_bindings_exact",
    "Verif.Props.C38_match_all"
   ],
   "note": ""
  },
  {
   "property": "C39",
   "status": "proved",
   "theorems": [
    "Verif.Props.C39_heed_refines_map",
    "Verif.Props.C39_heed_outcomes"
   ],
   "note": ""
  },
  {
   "property": "C40",
   "status": "proved",
   "theorems": [
    "Verif.Props.C40_ids_unique",
    "Verif.Props.C40_ids_never_reused"
   ],
   "note": ""
  },
  {
   "property": "C41",
   "status": "proved",
   "theorems": [
    "Verif.Props.C41_indexes_agree"
   ],
   "note": ""
  },
  {
   "property": "C42",
   "status": "proved",
   "theorems": [
    "Verif.Props.C42_key_decodes",
    "Verif.Props.C42_key_injective",
    "Verif.Props.C42_key_order",
    "Verif.Props.C42_keys_contiguous"
   ],
   "note": ""
  },
  {
   "property": "C43",
   "status": "proved",
   "theorems": [
    "Verif.Props.C43_mem",
    "Verif.Props.C43_heed",
    "Verif.Props.C43_duck"
   ],
   "note": ""
  },
  {
   "property": "C44",
   "status": "proved",
   "theorems": [
    "Verif.Props.C44_mem",
    "Verif.Props.C44_heed",
    "Verif.Props.C44_duck"
   ],
   "note": ""
  },
  {
   "property": "C45",
   "status": "proved",
   "theorems": [
    "Verif.Props.C45_crash_atomic",
    "Verif.Props.C45_failed_commit",
    "Verif.Props.C45_recovered_usable"
   ],
   "note": ""
  },
  {
   "property": "C46",
   "status": "proved",
   "theorems": [
    "Verif.Props.C46_acknowledged_is_stored",
    "Verif.Props.C46_failed_commit_acknowledged",
    "Verif.Props.C46_failed_commit_same_answer",
    "Verif.Props.C46_illegal_name_acknowledged"
   ],
   "note": "Proved for successful commits and legal names; refuted in general (failed commit, illegal name acknowledged)."
  },
  {
   "property": "C47",
   "status": "proved",
   "theorems": [
    "Verif.Props.C47_duck_refines_map",
    "Verif.Props.C47_duck_outcomes",
    "Verif.Props.C47_duck_removal_complete"
   ],
   "note": ""
  },
  {
   "property": "C48",
   "status": "proved",
   "theorems": [
    "Verif.Props.C48_stores_agree"
   ],
   "note": ""
  },
  {
   "property": "C49",
   "status": "proved",
   "theorems": [
    "Verif.Props.C49_exact",
    "Verif.Props.C49_closed",
    "Verif.Props.C49_one_edge_each"
   ],
   "note": ""
  },
  {
   "property": "C50",
   "status": "proved",
   "theorems": [
    "Verif.Props.C50_export",
    "Verif.Props.C50_run"
   ],
   "note": ""
  },
  {
   "property": "C51",
   "status": "proved",
   "theorems": [
    "Verif.Props.C51_command",
    "Verif.Props.C51_script",
    "Verif.Props.C51_end_of_input",
    "Verif.Props.C51_prints",
    "Verif.Props.C51_session_store",
    "Verif.Props.C51_ends",
    "Verif.Props.C51_panics"
   ],
   "note": ""
  },
  {
   "property": "C52",
   "status": "proved",
   "theorems": [
    "Verif.Props.C52_replies",
    "Verif.Props.C52_dies"
   ],
   "note": ""
  },
  {
   "property": "C53",
   "status": "proved",
   "theorems": [
    "Verif.Props.C53_history",
    "Verif.Props.C53_pad",
    "Verif.Props.C53_no_memory",
    "Verif.Props.C53_run_again"
   ],
   "note": ""
  },
  {
   "property": "C54",
   "status": "proved",
   "theorems": [
    "Verif.Props.C54_counts",
    "Verif.Props.C54_crash",
    "Verif.Props.C54_order",
    "Verif.Props.C54_bounds"
   ],
   "note": "Counting is stated for runs that reach the end; a panicking script ends the runner."
  },
  {
   "property": "C55",
   "status": "proved",
   "theorems": [
    "Verif.Props.C55_counts_up",
    "Verif.Props.C55_fresh"
   ],
   "note": ""
  },
  {
   "property": "C56",
   "status": "proved",
   "theorems": [
    "Verif.Props.C56_total_orders",
    "Verif.Props.C56_ascending",
    "Verif.Props.C56_insertion_order",
    "Verif.Props.C56_equal",
    "Verif.Props.C56_triples"
   ],
   "note": ""
  },
  {
   "property": "C57",
   "status": "proved",
   "theorems": [
    "Verif.Props.C57_crash_history",
    "Verif.Props.C57_no_crash_determined"
   ],
   "note": ""
  },
  {
   "property": "C58",
   "status": "proved",
   "theorems": [
    "Verif.Props.C58_simulation",
    "Verif.Props.C58_same_on_all_stores"
   ],
   "note": ""
  },
  {
   "property": "C59",
   "status": "proved",
   "theorems": [
    "Verif.Props.C59_let_new_heed",
    "Verif.Props.C59_let_new_duck",
    "Verif.Props.C59_let_existing_heed_merges",
    "Verif.Props.C59_let_existing_duck_panics",
    "Verif.Props.C59_read_missing",
    "Verif.Props.C59_filter_unimplemented"
   ],
   "note": ""
  },
  {
   "property": "C60",
   "status": "proved",
   "theorems": [
    "Verif.Props.C60_effect_is_lets",
    "Verif.Props.C60_invariants",
    "Verif.Props.C60_never_deletes",
    "Verif.Props.C60_never_loses"
   ],
   "note": ""
  },
  {
   "property": "C61",
   "status": "proved",
   "theorems": [
    "Verif.Props.C61_frame"
   ],
   "note": ""
  },
  {
   "property": "C62",
   "status": "proved",
   "theorems": [
    "Verif.Props.C62_depends_on_named",
    "Verif.Props.C62_commute_mem",
    "Verif.Props.C62_commute_duck",
    "Verif.Props.C62_depends_duck",
    "Verif.Props.C62_depends_heed",
    "Verif.Props.C62_commute_heed"
   ],
   "note": ""
  },
  {
   "property": "C63",
   "status": "proved",
   "theorems": [
    "Verif.Props.C63_join",
    "Verif.Props.C63_trailing",
    "Verif.Props.C63_malformed",
    "Verif.Props.C63_many",
    "Verif.Props.C63_one_request",
    "Verif.Props.C63_newline"
   ],
   "note": ""
  },
  {
   "property": "C64",
   "status": "proved",
   "theorems": [
    "Verif.Props.C64_semantics",
    "Verif.Props.C64_scripts",
    "Verif.Props.C64_deterministic"
   ],
   "note": ""
  },
  {
   "property": "C65",
   "status": "proved",
   "theorems": [
    "Verif.Props.C65_backup_unique",
    "Verif.Props.C65_load_mem",
    "Verif.Props.C65_mem_exact",
    "Verif.Props.C65_migrate",
    "Verif.Props.C65_histories",
    "Verif.Props.C65_needs_plain"
   ],
   "note": ""
  },
  {
   "property": "C66",
   "status": "proved",
   "theorems": [
    "Verif.Props.C66_tokens",
    "Verif.Props.C66_error",
    "Verif.Props.C66_no_ties",
    "Verif.Props.C66_names_panic",
    "Verif.Props.C66_lossless",
    "Verif.Props.C66_filter",
    "Verif.Props.C66_read_tokenize",
    "Verif.Props.C66_no_round_trip",
    "Verif.Props.C66_write_string"
   ],
   "note": "logos' longest-match behaviour is trusted as for C02."
  },
  {
   "property": "C67",
   "status": "proved",
   "theorems": [
    "Verif.Props.C67_calls",
    "Verif.Props.C67_scripts",
    "Verif.Props.C67_queries",
    "Verif.Props.C67_store",
    "Verif.Props.C67_reserved_matter",
    "Verif.Props.C67_heed",
    "Verif.Props.C67_duck"
   ],
   "note": ""
  },
  {
   "property": "C68",
   "status": "proved",
   "theorems": [
    "Verif.Props.C68_all_or_nothing",
    "Verif.Props.C68_unlimited",
    "Verif.Props.C68_answer",
    "Verif.Props.C68_ok_not_stored",
    "Verif.Props.C68_history"
   ],
   "note": ""
  },
  {
   "property": "C69",
   "status": "proved",
   "theorems": [
    "Verif.Props.C69_linearizable",
    "Verif.Props.C69_answers",
    "Verif.Props.C69_no_deadlock",
    "Verif.Props.C69_let_not_atomic"
   ],
   "note": ""
  },
  {
   "property": "C70",
   "status": "proved",
   "theorems": [
    "Verif.Props.C70_record_is_faithful",
    "Verif.Props.C70_crash_points",
    "Verif.Props.C70_nothing_lost",
    "Verif.Props.C70_run_again"
   ],
   "note": ""
  },
  {
   "property": "C71",
   "status": "proved",
   "theorems": [
    "Verif.C71_value_round_trip",
    "Verif.C71_quotes",
    "Verif.C71_distinct",
    "Verif.C71_others_distinct",
    "Verif.C71_written",
    "Verif.C71_others_round_trip",
    "Verif.C71_network_any_order",
    "Verif.C71_role_any_field_order",
    "Verif.C71_reads_exactly",
    "Verif.C71_any_spelling",
    "Verif.C71_unambiguous",
    "Verif.C71_unknown_field"
   ],
   "note": ""
  },
  {
   "property": "C72",
   "status": "proved",
   "theorems": [
    "Verif.C72_hash",
    "Verif.C72_kinds"
   ],
   "note": ""
  },
  {
   "property": "C73",
   "status": "proved",
   "theorems": [
    "Verif.Props.C73_steps_are_run",
    "Verif.Props.C73_isolated_heed",
    "Verif.Props.C73_isolated_mem",
    "Verif.Props.C73_isolated_duck",
    "Verif.Props.C73_never_waits",
    "Verif.Props.C73_conflict_heed"
   ],
   "note": ""
  },
  {
   "property": "C74",
   "status": "proved",
   "theorems": [
    "Verif.Props.C74_deterministic",
    "Verif.Props.C74_macro",
    "Verif.Props.C74_conservative",
    "Verif.Props.C74_standard",
    "Verif.Props.C74_loops",
    "Verif.Props.C74_ends"
   ],
   "note": ""
  },
  {
   "property": "C75",
   "status": "proved",
   "theorems": [
    "Verif.Props.C75_same_answers",
    "Verif.Props.C75_kept",
    "Verif.Props.C75_history",
    "Verif.Props.C75_same_on_all_stores"
   ],
   "note": ""
  },
  {
   "property": "C76",
   "status": "proved",
   "theorems": [
    "Verif.Props.C76_shown",
    "Verif.Props.C76_error_text",
    "Verif.Props.C76_lines",
    "Verif.Props.C76_told_apart",
    "Verif.Props.C76_element_confusable",
    "Verif.Props.C76_paste"
   ],
   "note": ""
  },
  {
   "property": "C77",
   "status": "proved",
   "theorems": [
    "Verif.Props.C77_value",
    "Verif.Props.C77_order",
    "Verif.Props.C77_tells_apart"
   ],
   "note": ""
  },
  {
   "property": "C78",
   "status": "proved",
   "theorems": [
    "Verif.Props.C78_store_operations",
    "Verif.Props.C78_terminates",
    "Verif.Props.C78_alone",
    "Verif.Props.C78_text"
   ],
   "note": ""
  },
  {
   "property": "C79",
   "status": "proved",
   "theorems": [
    "Verif.Props.C79_no_invention",
    "Verif.Props.C79_alone",
    "Verif.Props.C79_nothing_from_nothing"
   ],
   "note": ""
  },
  {
   "property": "C80",
   "status": "proved",
   "theorems": [
    "Verif.Props.C80_in_memory",
    "Verif.Props.C80_any_store",
    "Verif.Props.C80_script",
    "Verif.Props.C80_exact"
   ],
   "note": ""
  },
  {
   "property": "C81",
   "status": "proved",
   "theorems": [
    "Verif.Props.C81_found_states",
    "Verif.Props.C81_nothing_lost",
    "Verif.Props.C81_no_faults",
    "Verif.Props.C81_let_ok",
    "Verif.Props.C81_ok_not_stored",
    "Verif.Props.C81_verified",
    "Verif.Props.C81_run_again"
   ],
   "note": ""
  },
  {
   "property": "C82",
   "status": "proved",
   "theorems": [
    "Verif.Props.C82_never_errs",
    "Verif.Props.C82_answers_mem",
    "Verif.Props.C82_answers_heed",
    "Verif.Props.C82_answers_duck",
    "Verif.Props.C82_add_existing",
    "Verif.Props.C82_remove_missing",
    "Verif.Props.C82_write_missing",
    "Verif.Props.C82_write_missing_violated",
    "Verif.Props.C82_add_present",
    "Verif.Props.C82_add_present_heed",
    "Verif.Props.C82_remove_absent"
   ],
   "note": ""
  },
  {
   "property": "C83",
   "status": "proved",
   "theorems": [
    "Verif.Props.C83_update",
    "Verif.Props.C83_read",
    "Verif.Props.C83_sessions",
    "Verif.Props.C83_contents",
    "Verif.Props.C83_script"
   ],
   "note": ""
  },
  {
   "property": "C84",
   "status": "proved",
   "theorems": [
    "Verif.Props.C84_report",
    "Verif.Props.C84_stops",
    "Verif.Props.C84_panics_iff",
    "Verif.Props.C84_order"
   ],
   "note": ""
  },
  {
   "property": "C85",
   "status": "proved",
   "theorems": [
    "Verif.Props.C85_messages",
    "Verif.Props.C85_app_messages",
    "Verif.Props.C85_cause",
    "Verif.Props.C85_reply_tells",
    "Verif.Props.C85_same_reply",
    "Verif.Props.C85_command_lines"
   ],
   "note": ""
  },
  {
   "property": "C86",
   "status": "proved",
   "theorems": [
    "Verif.Heed.C86_lmdb_records",
    "Verif.Heed.C86_lmdb_identifiers",
    "Verif.Heed.C86_lmdb_remove_frees_two",
    "Verif.Heed.C86_lmdb_leak",
    "Verif.Heed.C86_lmdb_again_nothing",
    "Verif.Heed.C86_lmdb_churn",
    "Verif.Heed.C86_lmdb_bad_name",
    "Verif.Heed.C86_lmdb_bad_text",
    "Verif.Duck.C86_duck_rows",
    "Verif.Duck.C86_duck_tables",
    "Verif.Duck.C86_duck_add_again"
   ],
   "note": ""
  },
  {
   "property": "C87",
   "status": "proved",
   "theorems": [
    "Verif.Props.C87_mem_blind",
    "Verif.Props.C87_mem_again",
    "Verif.Props.C87_lmdb_again",
    "Verif.Props.C87_duck_again",
    "Verif.Props.C87_from_the_text",
    "Verif.Props.C87_order_matters",
    "Verif.Props.C87_stores_differ"
   ],
   "note": ""
  },
  {
   "property": "C88",
   "status": "proved",
   "theorems": [
    "Verif.Props.C88_any_order",
    "Verif.Props.C88_deterministic",
    "Verif.Props.C88_possible",
    "Verif.Props.C88_all_or_nothing",
    "Verif.Props.C88_scripts"
   ],
   "note": ""
  },
  {
   "property": "C89",
   "status": "proved",
   "theorems": [
    "Verif.Props.C89_display",
    "Verif.Props.C89_write_string",
    "Verif.Props.C89_write_string_refuses",
    "Verif.Props.C89_frame",
    "Verif.Props.C89_quotes_not_enough"
   ],
   "note": ""
  },
  {
   "property": "C90",
   "status": "proved",
   "theorems": [
    "Verif.Props.C90_lmdb_copy",
    "Verif.Props.C90_lmdb_smaller",
    "Verif.Props.C90_lmdb_smallest",
    "Verif.Props.C90_lmdb_canonical",
    "Verif.Props.C90_lmdb_again",
    "Verif.Props.C90_backup_copies",
    "Verif.Props.C90_duck_copy",
    "Verif.Props.C90_duck_smallest"
   ],
   "note": ""
  },
  {
   "property": "C91",
   "status": "proved",
   "theorems": [
    "Verif.Props.C91_open_ok",
    "Verif.Props.C91_open_fails",
    "Verif.Props.C91_open_iff",
    "Verif.Props.C91_crash",
    "Verif.Props.C91_reopen",
    "Verif.Props.C91_exclusive",
    "Verif.Props.C91_default",
    "Verif.Props.C91_temp",
    "Verif.Props.C91_temp_apart",
    "Verif.Props.C91_history"
   ],
   "note": ""
  },
  {
   "property": "C92",
   "status": "proved",
   "theorems": [
    "Verif.Props.C92_scripts",
    "Verif.Props.C92_only_sayable",
    "Verif.Props.C92_values",
    "Verif.Props.C92_stores",
    "Verif.Props.C92_build",
    "Verif.Props.C92_untouchable",
    "Verif.Props.C92_unseen",
    "Verif.Props.C92_unseen_duck",
    "Verif.Props.C92_unseen_heed",
    "Verif.Props.C92_some_unsayable"
   ],
   "note": ""
  },
  {
   "property": "C93",
   "status": "proved",
   "theorems": [
    "Verif.Props.C93_replace",
    "Verif.Props.C93_let_value",
    "Verif.Props.C93_left_value",
    "Verif.Props.C93_right_value",
    "Verif.Props.C93_not_run",
    "Verif.Props.C93_read_filter",
    "Verif.Props.C93_not_in_id",
    "Verif.Props.C93_quote_value"
   ],
   "note": ""
  },
  {
   "property": "C94",
   "status": "proved",
   "theorems": [
    "Verif.Props.C94_mem",
    "Verif.Props.C94_heed",
    "Verif.Props.C94_duck",
    "Verif.Props.C94_needed"
   ],
   "note": ""
  },
  {
   "property": "C95",
   "status": "proved",
   "theorems": [
    "Verif.Props.C95_leave_out",
    "Verif.Props.C95_leave_out_reader",
    "Verif.Props.C95_leave_out_plain",
    "Verif.Props.C95_move_mem",
    "Verif.Props.C95_move_heed",
    "Verif.Props.C95_move_duck",
    "Verif.Props.C95_dead_let",
    "Verif.Props.C95_overwritten",
    "Verif.Props.C95_known_mem",
    "Verif.Props.C95_known_heed",
    "Verif.Props.C95_known_duck",
    "Verif.Props.C95_known_after_let",
    "Verif.Props.C95_merge_lmdb",
    "Verif.Props.C95_needed"
   ],
   "note": ""
  },
  {
   "property": "C96",
   "status": "proved",
   "theorems": [
    "Verif.Spec.C96_overlaid",
    "Verif.Spec.C96_this_template",
    "Verif.Spec.C96_order",
    "Verif.Spec.C96_otherwise_untouched",
    "Verif.Spec.C96_again",
    "Verif.Spec.C96_cut_off"
   ],
   "note": ""
  },
  {
   "property": "C97",
   "status": "proved",
   "theorems": [
    "Verif.Props.C97_copy_mem",
    "Verif.Props.C97_copy_heed",
    "Verif.Props.C97_copy_duck",
    "Verif.Props.C97_filter_all",
    "Verif.Props.C97_pick",
    "Verif.Props.C97_filter_steps",
    "Verif.Props.C97_filter_again"
   ],
   "note": ""
  },
  {
   "property": "C98",
   "status": "proved",
   "theorems": [
    "Verif.Props.C98_one_script",
    "Verif.Props.C98_repl_server",
    "Verif.Props.C98_shown_from_reply",
    "Verif.Props.C98_page_server",
    "Verif.Props.C98_requests_on_page"
   ],
   "note": ""
  },
  {
   "property": "C99",
   "status": "proved",
   "theorems": [
    "Verif.Props.C99_script",
    "Verif.Props.C99_scripts",
    "Verif.Props.C99_server"
   ],
   "note": ""
  },
  {
   "property": "C100",
   "status": "proved",
   "theorems": [
    "Verif.Props.C100_reads",
    "Verif.Props.C100_stores_mem",
    "Verif.Props.C100_stores_duck",
    "Verif.Props.C100_remain",
    "Verif.Props.C100_scripts_mem",
    "Verif.Props.C100_scripts_duck"
   ],
   "note": ""
  },
  {
   "property": "C101",
   "status": "proved",
   "theorems": [
    "Verif.Props.C101_mem",
    "Verif.Props.C101_heed",
    "Verif.Props.C101_duck",
    "Verif.Props.C101_undo"
   ],
   "note": ""
  },
  {
   "property": "C102",
   "status": "proved",
   "theorems": [
    "Verif.Props.C102_mem",
    "Verif.Props.C102_duck",
    "Verif.Props.C102_heed"
   ],
   "note": ""
  },
  {
   "property": "C103",
   "status": "proved",
   "theorems": [
    "Verif.Props.C103_script",
    "Verif.Props.C103_calls",
    "Verif.Props.C103_calls_single",
    "Verif.Props.C103_scripts",
    "Verif.Props.C103_scripts_any",
    "Verif.Props.C103_rearrange"
   ],
   "note": ""
  },
  {
   "property": "C104",
   "status": "proved",
   "theorems": [
    "Verif.Props.C104_contents",
    "Verif.Props.C104_answer",
    "Verif.Props.C104_calls",
    "Verif.Props.C104_sequence",
    "Verif.Props.C104_answers_from",
    "Verif.Props.C104_stores_from",
    "Verif.Props.C104_no_union",
    "Verif.Props.C104_heed_union",
    "Verif.Props.C104_nested"
   ],
   "note": ""
  }
 ]
}