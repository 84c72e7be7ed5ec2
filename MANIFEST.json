{
 "claims": [
  {
   "property": "C01",
   "status": "proved",
   "theorems": [
    "Fixit.C01_bare_directive_silences"
   ],
   "note": "for every tree, position, comment text and rule"
  },
  {
   "property": "C02",
   "status": "proved",
   "theorems": [
    "Fixit.C02_silenced_iff",
    "Fixit.C02_named_directive_silences_exactly",
    "Fixit.commentSilences_iff"
   ],
   "note": "full decision of report, and the named-directive case in terms of its text"
  },
  {
   "property": "C03",
   "status": "proved",
   "theorems": [
    "Fixit.C03_ignore_fixme_interchangeable"
   ],
   "note": ""
  },
  {
   "property": "C04",
   "status": "proved",
   "theorems": [
    "Fixit.C04_no_directive_never_silenced",
    "Fixit.C07_no_match_iff"
   ],
   "note": ""
  },
  {
   "property": "C05",
   "status": "proved",
   "theorems": [
    "Fixit.C05_consulted_iff_associated",
    "Fixit.C05_other_nodes_irrelevant"
   ],
   "note": ""
  },
  {
   "property": "C06",
   "status": "proved",
   "theorems": [
    "Fixit.C06_report",
    "Fixit.C06_report_effect",
    "Fixit.C06_report_silenced",
    "Fixit.C06_message",
    "Fixit.C06_rule_name"
   ],
   "note": ""
  },
  {
   "property": "C07",
   "status": "proved",
   "theorems": [
    "Fixit.C07_search_iff_first_directive",
    "Fixit.C07_no_match_iff",
    "Fixit.C07_first_directive_unique",
    "Fixit.C07_blank"
   ],
   "note": ""
  },
  {
   "property": "C08",
   "status": "proved",
   "theorems": [
    "Fixit.C08_accepts_iff_grammar",
    "Fixit.C08_rejects_with_config_error",
    "Fixit.C08_accepts_iff_grammar_no_newline",
    "Fixit.C08_trailing_newline_accepted"
   ],
   "note": "For every string; the regex is run by the backtracking engine model. Finding: \"fixit.rules\\n\" is accepted."
  },
  {
   "property": "C09",
   "status": "proved",
   "theorems": [
    "Fixit.C09_round_trip",
    "Fixit.C09_round_trip_newline",
    "Fixit.C09_equal_string_equal_rule"
   ],
   "note": ""
  },
  {
   "property": "C10",
   "status": "proved",
   "theorems": [
    "Fixit.C10_root_iff_dot",
    "Fixit.C10_absolute_ignores_root"
   ],
   "note": ""
  },
  {
   "property": "C11",
   "status": "proved",
   "theorems": [
    "Fixit.C11_local_rule_root",
    "Fixit.C11_absolute_rule_no_root",
    "Fixit.C11_not_nearest"
   ],
   "note": "C11_not_nearest is the witness of the finding"
  },
  {
   "property": "C12",
   "status": "proved",
   "theorems": [
    "Fixit.C12_contains_iff",
    "Fixit.C12_single",
    "Fixit.C12_falsy_iff_selects_all"
   ],
   "note": ""
  },
  {
   "property": "C13",
   "status": "proved",
   "theorems": [
    "Fixit.C13_parse_exact",
    "Fixit.C13_parse_order_insensitive"
   ],
   "note": "For every permutation the set iteration may choose; str.lower is abstract."
  },
  {
   "property": "C14",
   "status": "proved",
   "theorems": [
    "Fixit.C14_parse_fails_iff_blank_entry",
    "Fixit.C14_empty_ok",
    "Fixit.C14_trailing_comma_crashes"
   ],
   "note": "Finding: `--tags a,` raises IndexError."
  },
  {
   "property": "C15",
   "status": "proved",
   "theorems": [
    "Fixit.C15_locate_exact",
    "Fixit.C15_locate_outside_root",
    "Fixit.C15_order_strict"
   ],
   "note": "paths are resolved component lists; symbolic links on configuration files are C134"
  },
  {
   "property": "C16",
   "status": "proved",
   "theorems": [
    "Fixit.C16_no_root",
    "Fixit.C16_stops_at_root",
    "Fixit.C16_first_error",
    "Fixit.C16_root_only_last"
   ],
   "note": "file reading and TOML parsing are a parameter"
  },
  {
   "property": "C17",
   "status": "proved",
   "theorems": [
    "Fixit.C17_last_mention_wins"
   ],
   "note": ""
  },
  {
   "property": "C18",
   "status": "proved",
   "theorems": [
    "Fixit.C18_disjoint_sorted"
   ],
   "note": ""
  },
  {
   "property": "C19",
   "status": "proved",
   "theorems": [
    "Fixit.C19_python_version",
    "Fixit.C19_formatter",
    "Fixit.C19_output"
   ],
   "note": ""
  },
  {
   "property": "C20",
   "status": "proved",
   "theorems": [
    "Fixit.C20_options_nearest_table"
   ],
   "note": "TOML tables have distinct keys"
  },
  {
   "property": "C21",
   "status": "proved",
   "theorems": [
    "Fixit.C21_only_applicable_sections_matter",
    "Fixit.C21_inapplicable_override_is_inert"
   ],
   "note": ""
  },
  {
   "property": "C22",
   "status": "proved",
   "theorems": [
    "Fixit.C22_root_is_specified",
    "Fixit.C22_root_import",
    "Fixit.C22_import_dir_inside_root",
    "Fixit.C22_given"
   ],
   "note": ""
  },
  {
   "property": "C23",
   "status": "proved",
   "theorems": [
    "Fixit.C23_accepts_iff_valid",
    "Fixit.C23_well_typed_only_config_error",
    "Fixit.C23_other_errors_escape",
    "Fixit.C23_unreadable",
    "Fixit.C23_misshapen",
    "Fixit.C23_escapes",
    "Fixit.C23_options_array",
    "Fixit.C23_documented_override"
   ],
   "note": "C23_other_errors_escape is the witness of the finding"
  },
  {
   "property": "C24",
   "status": "proved",
   "theorems": [
    "Fixit.C24_options_override",
    "Fixit.C24_options_preserve_failure"
   ],
   "note": ""
  },
  {
   "property": "C25",
   "status": "proved",
   "theorems": [
    "Fixit.C25_only_the_given_file",
    "Fixit.C25_is_the_file_merged",
    "Fixit.C25_outside_directory_ignored",
    "Fixit.C25_no_settings",
    "Fixit.C25_unreadable"
   ],
   "note": ""
  },
  {
   "property": "C26",
   "status": "proved",
   "theorems": [
    "Fixit.C26_order_independent",
    "Fixit.C26_only_last_mentions_matter"
   ],
   "note": ""
  },
  {
   "property": "C27",
   "status": "proved",
   "theorems": [
    "Fixit.C27_unknown_key_warned_and_inert",
    "Fixit.C27_unknown_key_harmless",
    "Fixit.C27_warnings_exact"
   ],
   "note": ""
  },
  {
   "property": "C28",
   "status": "proved",
   "theorems": [
    "Fixit.C28_collected_exact",
    "Fixit.C28_succeeds_iff"
   ],
   "note": "importing and class attributes are parameters; the order of rules is an arbitrary permutation"
  },
  {
   "property": "C29",
   "status": "proved",
   "theorems": [
    "Fixit.C29_failing_enable_is_inert",
    "Fixit.C29_failing_disable_is_inert",
    "Fixit.C29_warnings_exact"
   ],
   "note": ""
  },
  {
   "property": "C30",
   "status": "proved",
   "theorems": [
    "Fixit.C30_sys_path_restored",
    "Fixit.C30_sys_path_leaks_on_error",
    "Fixit.C30_any_change",
    "Fixit.C30_additions",
    "Fixit.C30_keeps_own_entry",
    "Fixit.C30_entry_gone"
   ],
   "note": "imports are assumed not to change sys.path"
  },
  {
   "property": "C31",
   "status": "proved",
   "theorems": [
    "Fixit.C31_module_rules_exact",
    "Fixit.C31_named_rule_exact",
    "Fixit.C31_import_failure",
    "Fixit.C31_where_imported"
   ],
   "note": ""
  },
  {
   "property": "C32",
   "status": "proved",
   "theorems": [
    "Fixit.C32_reports_exact",
    "Fixit.C32_clean_iff_all_load",
    "Fixit.C32_unreadable",
    "Fixit.C32_nothing_to_validate",
    "Fixit.C32_invalid_iff",
    "Fixit.C32_command",
    "Fixit.C32_command_unreadable"
   ],
   "note": ""
  },
  {
   "property": "C33",
   "status": "proved",
   "theorems": [
    "Fixit.C33_reason_or_returned",
    "Fixit.C33_reason_is_first_stage"
   ],
   "note": ""
  },
  {
   "property": "C34",
   "status": "proved",
   "theorems": [
    "Fixit.C34_no_fixes_identity",
    "Fixit.C34_empty_selection"
   ],
   "note": ""
  },
  {
   "property": "C35",
   "status": "proved",
   "theorems": [
    "Fixit.C35_outermost_wins",
    "Fixit.C35_module_replaced"
   ],
   "note": "trees whose nodes are distinct objects"
  },
  {
   "property": "C36",
   "status": "proved",
   "theorems": [
    "Fixit.C36_order_irrelevant",
    "Fixit.C36_last_wins"
   ],
   "note": ""
  },
  {
   "property": "C37",
   "status": "proved",
   "theorems": [
    "Fixit.C37_only_replaced_text_changes",
    "Fixit.C37_emptied_line_is_dropped"
   ],
   "note": "libCST codegen and visit modelled after documented behaviour; second theorem is the finding outside the conditions"
  },
  {
   "property": "C38",
   "status": "proved",
   "theorems": [
    "Fixit.C38_diff_is_single_fix",
    "Fixit.C38_shown"
   ],
   "note": "The displayed diff of a violation without replacement stays empty (C38_shown; see also C39)."
  },
  {
   "property": "C39",
   "status": "proved",
   "theorems": [
    "Fixit.C39_yields_recorded",
    "Fixit.C39_all_and_count",
    "Fixit.C39_visit_raises"
   ],
   "note": ""
  },
  {
   "property": "C40",
   "status": "proved",
   "theorems": [
    "Fixit.C40_hook_at_the_end",
    "Fixit.C40_metrics_exact"
   ],
   "note": ""
  },
  {
   "property": "C41",
   "status": "proved",
   "theorems": [
    "Fixit.C41_counts_add_up",
    "Fixit.C41_shared_name_overwrites",
    "Fixit.C41_total_overwrites_rule_count"
   ],
   "note": "The unconditional claim is false: two counterexamples are proved."
  },
  {
   "property": "C42",
   "status": "proved",
   "theorems": [
    "Fixit.C42_lint_never_writes",
    "Fixit.C42_stdin_never_writes"
   ],
   "note": "At every world of the run, not only at the end."
  },
  {
   "property": "C43",
   "status": "proved",
   "theorems": [
    "Fixit.C43_written_at_most_once",
    "Fixit.C43_other_files_untouched"
   ],
   "note": ""
  },
  {
   "property": "C44",
   "status": "proved",
   "theorems": [
    "Fixit.C44_result_shape",
    "Fixit.C44_clean_or_violations"
   ],
   "note": ""
  },
  {
   "property": "C45",
   "status": "proved",
   "theorems": [
    "Fixit.C45_exact",
    "Fixit.C45_never_raises",
    "Fixit.C45_load_error",
    "Fixit.C45_lint_error",
    "Fixit.C45_error_leaves_file",
    "Fixit.C45_stdin_never_raises"
   ],
   "note": ""
  },
  {
   "property": "C46",
   "status": "proved",
   "theorems": [
    "Fixit.C46_autofix_applies_all"
   ],
   "note": ""
  },
  {
   "property": "C47",
   "status": "proved",
   "theorems": [
    "Fixit.C47_interactive_applies_accepted"
   ],
   "note": ""
  },
  {
   "property": "C48",
   "status": "proved",
   "theorems": [
    "Fixit.C48_lint_prints_nothing",
    "Fixit.C48_prints_once",
    "Fixit.C48_unreadable",
    "Fixit.C48_files_untouched"
   ],
   "note": ""
  },
  {
   "property": "C49",
   "status": "proved",
   "theorems": [
    "Fixit.C49_stopping_early",
    "Fixit.C49_several_files"
   ],
   "note": "The second for several distinct files that are no part of the configuration or the rules."
  },
  {
   "property": "C50",
   "status": "proved",
   "theorems": [
    "Fixit.C50_stdin_unnamed",
    "Fixit.C50_stdin_named",
    "Fixit.C50_too_many",
    "Fixit.C50_files",
    "Fixit.C50_walk_raises",
    "Fixit.C50_pool_iff"
   ],
   "note": "Arguments are pathlib paths as their parts (so `./-` is `-`). trailrunner.walk is a parameter; the log message for an ignored `-` is left out."
  },
  {
   "property": "C51",
   "status": "proved",
   "theorems": [
    "Fixit.C51_fix_any_schedule",
    "Fixit.C51_lint_any_schedule",
    "Fixit.C51_modes_agree",
    "Fixit.C51_pool_completes",
    "Fixit.C51_answers_raise",
    "Fixit.C51_same_file_twice_races",
    "Fixit.C51_fair_ends"
   ],
   "note": "Every interleaving of atomic steps of the worker processes. With autofix the files must be distinct after resolution and no linted file may be part of the configuration or of a rule; linting needs no assumption. Findings: answers raise AttributeError under the pool (C51_answers_raise), and the same file given twice races (C51_same_file_twice_races). trailrunner.run_iter is assumed to run the function once per path and hand out each list when it is complete; pickling is not modelled."
  },
  {
   "property": "C52",
   "status": "proved",
   "theorems": [
    "Fixit.C52_each_on_its_own",
    "Fixit.C52_lint_each_on_its_own",
    "Fixit.C52_contents_of_others_irrelevant"
   ],
   "note": "Sequential runs with arbitrary answers; for the pool see C51."
  },
  {
   "property": "C53",
   "status": "proved",
   "theorems": [
    "Fixit.C53_empty_content_never_written",
    "Fixit.C53_empty_fix_not_applied",
    "Fixit.C53_as_if_declined",
    "Fixit.C53_stdin"
   ],
   "note": "Finding: `if updated and ...` treats empty content as no change."
  },
  {
   "property": "C54",
   "status": "proved",
   "theorems": [
    "Fixit.C54_results_name_the_file",
    "Fixit.C54_stdin",
    "Fixit.C54_paths"
   ],
   "note": ""
  },
  {
   "property": "C55",
   "status": "proved",
   "theorems": [
    "Fixit.C55_exit_status",
    "Fixit.C55_exit_status_files",
    "Fixit.C55_lint_exits",
    "Fixit.C55_bad_config"
   ],
   "note": "Over all pool schedules via PathsRun."
  },
  {
   "property": "C56",
   "status": "proved",
   "theorems": [
    "Fixit.C56_summary"
   ],
   "note": "The summary text is the separate Spec.summary."
  },
  {
   "property": "C57",
   "status": "proved",
   "theorems": [
    "Fixit.C57_session",
    "Fixit.C57_files",
    "Fixit.C57_one_file",
    "Fixit.C57_bad_config",
    "Fixit.C57_quit_discards",
    "Fixit.C57_exit_zero_on_error",
    "Fixit.C57_counted_not_written",
    "Fixit.C57_automatic"
   ],
   "note": "The last three are findings: concrete sessions showing where the natural claim is false."
  },
  {
   "property": "C58",
   "status": "proved",
   "theorems": [
    "Fixit.C58_rules_option",
    "Fixit.C58_invalid_entry_fails"
   ],
   "note": ""
  },
  {
   "property": "C59",
   "status": "proved",
   "theorems": [
    "Fixit.C60_each_answer_once",
    "Fixit.C59_same_values",
    "Fixit.C59_any_history"
   ],
   "note": ""
  },
  {
   "property": "C60",
   "status": "proved",
   "theorems": [
    "Fixit.C60_each_answer_once",
    "Fixit.C60_early_response_raises"
   ],
   "note": "Finding: respond() before the first value makes the iteration raise TypeError."
  },
  {
   "property": "C61",
   "status": "proved",
   "theorems": [
    "Fixit.C61_result",
    "Fixit.C61_not_started",
    "Fixit.C61_iterating_again_loses_result"
   ],
   "note": "Finding: iterating again after the end replaces the result by None."
  },
  {
   "property": "C62",
   "status": "proved",
   "theorems": [
    "Fixit.C62_latest",
    "Fixit.C62_stale_last",
    "Fixit.C62_fair",
    "Fixit.C62_ends"
   ],
   "note": "Finding: with debouncing the last diagnostics published may be stale (C62_stale_last): a validation under way is not stopped by a newer notification and may publish after it."
  },
  {
   "property": "C63",
   "status": "proved",
   "theorems": [
    "Fixit.C63_one_waiting",
    "Fixit.C63_once",
    "Fixit.C63_version",
    "Fixit.C63_not_more",
    "Fixit.C63_superseded"
   ],
   "note": ""
  },
  {
   "property": "C64",
   "status": "proved",
   "theorems": [
    "Fixit.C64_apart"
   ],
   "note": ""
  },
  {
   "property": "C65",
   "status": "proved",
   "theorems": [
    "Fixit.C65_at_once"
   ],
   "note": ""
  },
  {
   "property": "C66",
   "status": "proved",
   "theorems": [
    "Fixit.C66_diagnostics",
    "Fixit.C66_published",
    "Fixit.C66_not_older",
    "Fixit.C66_newer_text"
   ],
   "note": ""
  },
  {
   "property": "C67",
   "status": "proved",
   "theorems": [
    "Fixit.C67_no_edit",
    "Fixit.C67_edit",
    "Fixit.C67_empty",
    "Fixit.C67_extra_newline",
    "Fixit.C67_astral_tail",
    "Fixit.C67_empty_case",
    "Fixit.C67_edit_any",
    "Fixit.C67_line_boundaries"
   ],
   "note": "Findings: the edit's range leaves out the final line terminator, so one is added with every format; columns count characters, not UTF-16 units; IndexError for an empty document."
  },
  {
   "property": "C68",
   "status": "proved",
   "theorems": [
    "Fixit.C68_settled",
    "Fixit.C66_published",
    "Fixit.C68_stale_config",
    "Fixit.C68_request_overtakes"
   ],
   "note": "Findings: the configuration cache is never invalidated; a format request under way can overwrite a newer cached configuration with an older one."
  },
  {
   "property": "C69",
   "status": "proved",
   "theorems": [
    "Fixit.C69_configured_formatter"
   ],
   "note": ""
  },
  {
   "property": "C70",
   "status": "proved",
   "theorems": [
    "Fixit.C70_restored",
    "Fixit.C70_outcome",
    "Fixit.C70_gone"
   ],
   "note": ""
  },
  {
   "property": "C71",
   "status": "proved",
   "theorems": [
    "Fixit.C71_report_dropped",
    "Fixit.C71_longer_word_drops",
    "Fixit.C71_directive_word_required",
    "Fixit.C71_longer_word_is_bare_directive"
   ],
   "note": "Finding: `# lint-ignored` silences everything."
  },
  {
   "property": "C72",
   "status": "proved",
   "theorems": [
    "Fixit.C72_report_at_position",
    "Fixit.C72_position_extends_to_next_line"
   ],
   "note": "Finding: rule.py:253 gives every CodePosition a range up to the next line."
  },
  {
   "property": "C73",
   "status": "proved",
   "theorems": [
    "Fixit.C73_first_decides_report",
    "Fixit.C73_first_decides",
    "Fixit.C73_first_directives_honoured",
    "Fixit.C73_second_directive_ignored"
   ],
   "note": "Finding: search is used once per comment."
  },
  {
   "property": "C74",
   "status": "proved",
   "theorems": [
    "Fixit.C74_report",
    "Fixit.C74_class_or_printed_name_silences",
    "Fixit.C74_printed_name_ending_in_rule",
    "Fixit.C74_printed_name_may_not_silence"
   ],
   "note": "Finding: the printed name of FooRuleRule does not silence it."
  },
  {
   "property": "C75",
   "status": "proved",
   "theorems": [
    "Fixit.C75_local_disable_has_no_effect",
    "Fixit.C75_local_rule_loaded_twice",
    "Fixit.C75_example"
   ],
   "note": ""
  },
  {
   "property": "C76",
   "status": "proved",
   "theorems": [
    "Fixit.C76_only_references_matter",
    "Fixit.C76_accepts_a_broken_config",
    "Fixit.C76_rejects_a_working_config",
    "Fixit.C76_accepts_a_string_for_a_list"
   ],
   "note": ""
  },
  {
   "property": "C77",
   "status": "proved",
   "theorems": [
    "Fixit.C77_crash_midway",
    "Fixit.C77_crash_states",
    "Fixit.C77_write_not_atomic",
    "Fixit.C77_crash_states_parallel"
   ],
   "note": "The second theorem is the finding: a window in which the file is empty, and a failing write leaves a prefix. The third lifts the crash states to the process pool."
  },
  {
   "property": "C78",
   "status": "proved",
   "theorems": [
    "Fixit.C78_formatter_runs_without_fix",
    "Fixit.C78_unwritten_without_formatter",
    "Fixit.C78_rewritten_without_fix"
   ],
   "note": "Finding: a violation without a fix still triggers formatting."
  },
  {
   "property": "C79",
   "status": "proved",
   "theorems": [
    "Fixit.C79_dirty",
    "Fixit.C79_violation",
    "Fixit.C79_error",
    "Fixit.C79_raises",
    "Fixit.C79_builtin_formats",
    "Fixit.C79_path"
   ],
   "note": ""
  },
  {
   "property": "C80",
   "status": "proved",
   "theorems": [
    "Fixit.C80_fix_stdin",
    "Fixit.C80_diff_and_metrics_on_stdout"
   ],
   "note": "The second is a finding."
  },
  {
   "property": "C81",
   "status": "proved",
   "theorems": [
    "Cst.C81_static",
    "Cst.C81_incomplete"
   ],
   "note": "exact characterisation of when it reports, and soundness over all programs; C81_incomplete: finding"
  },
  {
   "property": "C82",
   "status": "proved",
   "theorems": [
    "Cst.C82_truth",
    "Cst.C82_shape",
    "Cst.C82_value_changes",
    "Cst.C82_parentheses_lost"
   ],
   "note": "shape, truth value; the last two are findings"
  },
  {
   "property": "C83",
   "status": "proved",
   "theorems": [
    "Cst.C83_primitives",
    "Cst.C83_singletons",
    "Cst.C83_stable",
    "Cst.C83_primitives_meaning",
    "Cst.C83_singletons_meaning",
    "Cst.C83_meaning_changes"
   ],
   "note": "C83_meaning_changes: finding"
  },
  {
   "property": "C84",
   "status": "proved",
   "theorems": [
    "Cst.C84_disputed",
    "Cst.C84_loop"
   ],
   "note": "finding proved in general"
  },
  {
   "property": "C85",
   "status": "proved",
   "theorems": [
    "Cst.C85_shape",
    "Cst.C85_meaning",
    "Cst.C85_parameter",
    "Cst.C85_called_early"
   ],
   "note": "last two: findings"
  },
  {
   "property": "C86",
   "status": "proved",
   "theorems": [
    "Cst.C86_shape",
    "Cst.C86_meaning",
    "Cst.C86_async"
   ],
   "note": "C86_async: finding"
  },
  {
   "property": "C87",
   "status": "proved",
   "theorems": [
    "Cst.C87_shape",
    "Cst.C87_meaning",
    "Cst.C87_keyword",
    "Cst.C87_star",
    "Cst.C87_star_in_pair"
   ],
   "note": "last three: findings"
  },
  {
   "property": "C88",
   "status": "proved",
   "theorems": [
    "Cst.C88_shape",
    "Cst.C88_meaning",
    "Cst.C88_crash",
    "Cst.C88_truncates",
    "Cst.C88_star"
   ],
   "note": "last three: findings"
  },
  {
   "property": "C89",
   "status": "proved",
   "theorems": [
    "Cst.C89_in_shape",
    "Cst.C89_in_meaning",
    "Cst.C89_none_shape",
    "Cst.C89_none_meaning",
    "Cst.C89_deprecated_shape",
    "Cst.C89_deprecated_meaning",
    "Cst.C89_true_shape",
    "Cst.C89_message"
   ],
   "note": "C89_message: finding"
  },
  {
   "property": "C90",
   "status": "proved",
   "theorems": [
    "Fixit.C90_dedent",
    "Fixit.C90_indent"
   ],
   "note": ""
  },
  {
   "property": "C91",
   "status": "proved",
   "theorems": [
    "Fixit.C91_valid",
    "Fixit.C91_invalid",
    "Fixit.C91_empty_replacement",
    "Fixit.C91_predicts_fix",
    "Fixit.C91_predicts_clean"
   ],
   "note": "C91_empty_replacement: finding"
  },
  {
   "property": "C92",
   "status": "proved",
   "theorems": [
    "Fixit.C92_methods",
    "Fixit.C92_tests",
    "Fixit.C92_exit",
    "Fixit.C92_raises",
    "Fixit.C92_nothing_loads",
    "Fixit.C92_module",
    "Fixit.C92_same_name"
   ],
   "note": "C92_nothing_loads, C92_same_name: findings"
  },
  {
   "property": "C93",
   "status": "proved",
   "theorems": [
    "Fixit.C93_found",
    "Fixit.C93_file",
    "Fixit.C93_lint",
    "Fixit.C93_fix",
    "Fixit.C93_stable",
    "Fixit.C93_fails",
    "Fixit.C93_formatted"
   ],
   "note": "The engine environment is built from the models of generate_config, collect_rules and report; visitors, parser, import system and file system are parameters."
  },
  {
   "property": "C94",
   "status": "proved",
   "theorems": [
    "Fixit.C94_rules_override",
    "Fixit.C94_configured",
    "Fixit.C94_command_line",
    "Fixit.C94_upgrade_rules",
    "Fixit.C94_upgrade"
   ],
   "note": ""
  },
  {
   "property": "C95",
   "status": "proved",
   "theorems": [
    "Fixit.C95_debug",
    "Fixit.C95_dropped_raises",
    "Fixit.C95_fails",
    "Fixit.C95_needs_rich",
    "Fixit.C95_debug_paths",
    "Fixit.C95_debug_stops"
   ],
   "note": "The options printed first and the layout of pprint are not modelled."
  },
  {
   "property": "C96",
   "status": "proved",
   "theorems": [
    "Cst.C96_independent",
    "Cst.C96_raises",
    "Cst.C96_durations",
    "Cst.C96_silent",
    "Cst.C96_rules"
   ],
   "note": "False of rules that pop names out of shared metadata: C102_base_not_renamed. The batched visitor is libCST's, modelled from its documentation."
  },
  {
   "property": "C97",
   "status": "proved",
   "theorems": [
    "Cst.C97_super",
    "Cst.C97_once",
    "Cst.C97_second_argument",
    "Cst.C97_local_class"
   ],
   "note": "The last two are findings."
  },
  {
   "property": "C98",
   "status": "proved",
   "theorems": [
    "Cst.C98_sleep",
    "Cst.C98_once",
    "Cst.C98_forgets",
    "Cst.C98_default"
   ],
   "note": "The last two are findings."
  },
  {
   "property": "C99",
   "status": "proved",
   "theorems": [
    "Cst.C99_types",
    "Cst.C99_raises",
    "Cst.C99_once",
    "Cst.C99_attribute"
   ],
   "note": "The last is a finding."
  },
  {
   "property": "C100",
   "status": "proved",
   "theorems": [
    "Cst.C100_strings",
    "Cst.C100_raises",
    "Cst.C100_once",
    "Cst.C100_annotated"
   ],
   "note": "The last is a finding."
  },
  {
   "property": "C101",
   "status": "proved",
   "theorems": [
    "Cst.C101_reports",
    "Cst.C101_alias_lost",
    "Cst.C101_compound_lost",
    "Cst.C101_only_last",
    "Cst.C101_relative",
    "Cst.C101_twice"
   ],
   "note": "All but the first are findings."
  },
  {
   "property": "C102",
   "status": "proved",
   "theorems": [
    "Cst.C102_imports",
    "Cst.C102_suffix",
    "Cst.C102_suffix_raises",
    "Cst.C102_bases_stay",
    "Cst.C102_base_not_renamed"
   ],
   "note": "The last two are findings: under `fixit upgrade` the import is renamed and the base is not."
  },
  {
   "property": "C103",
   "status": "proved",
   "theorems": [
    "Cst.C103_calls",
    "Cst.C103_raises",
    "Cst.C103_column_lost",
    "Cst.C103_name_not_renamed"
   ],
   "note": "The last two are findings."
  },
  {
   "property": "C104",
   "status": "proved",
   "theorems": [
    "Cst.C104_raises",
    "Cst.C104_reports",
    "Cst.C104_fix",
    "Cst.C104_perm",
    "Cst.C104_idempotent",
    "Cst.C104_moves_between",
    "Cst.C104_attribute_target",
    "Cst.C104_tuple_target"
   ],
   "note": "Findings: lines between assignments move behind all of them; `x.y = 1` or `a, b = …` in such a class fails the file. A sort of two or more elements is taken to compare each element."
  },
  {
   "property": "C105",
   "status": "proved",
   "theorems": [
    "Cst.C105_reports",
    "Cst.C105_mro",
    "Cst.C105_shadowed"
   ],
   "note": "C3 merge as in the Python reference. Finding: the name `object` is not looked up."
  },
  {
   "property": "C106",
   "status": "proved",
   "theorems": [
    "Cst.C106_fix",
    "Cst.C106_idempotent",
    "Cst.C106_import"
   ],
   "note": "Finding: `dataclass` is not imported by the fix. That a frozen dataclass behaves like the named tuple is not claimed (it does not: no tuple interface)."
  },
  {
   "property": "C107",
   "status": "proved",
   "theorems": [
    "Cst.C107_reports",
    "Cst.C107_sound",
    "Cst.C107_missed"
   ],
   "note": "Finding: statements with two or more handlers are not looked at."
  },
  {
   "property": "C108",
   "status": "proved",
   "theorems": [
    "Cst.C108_reports",
    "Cst.C108_sound",
    "Cst.C108_two_nones",
    "Cst.C108_star"
   ],
   "note": "Findings: `Union[None, None]` has no fix; `Union[*Ts, None]` becomes `Optional[*Ts]`; the name `Union` is not looked up."
  },
  {
   "property": "C109",
   "status": "proved",
   "theorems": [
    "Cst.C109_reports",
    "Cst.C109_sound",
    "Cst.C109_empty"
   ],
   "note": "Finding: the empty f-string `f\"\"` is not reported (libCST gives it no parts)."
  },
  {
   "property": "C110",
   "status": "proved",
   "theorems": [
    "Cst.C110_reports",
    "Cst.C110_requoted",
    "Cst.C110_other_quotes",
    "Cst.C110_silent",
    "Cst.C110_format",
    "Cst.C110_format_iff",
    "Cst.C110_sound",
    "Cst.C110_drops",
    "Cst.C110_star",
    "Cst.C110_variable",
    "Cst.C110_unicode",
    "Cst.C110_display",
    "Cst.C110_escape",
    "Cst.C110_named",
    "Cst.C110_quote"
   ],
   "note": "Making text of a value is taken to have no effects and f-string formatting to agree with str(). The hypotheses on the format and fields are needed: C110_drops, _star, _variable, _unicode, _display, _escape, _named and _quote show what goes wrong without them."
  },
  {
   "property": "C111",
   "status": "proved",
   "theorems": [
    "Cst.C111_reports",
    "Cst.C111_sound",
    "Cst.C111_added",
    "Cst.C111_idempotent",
    "Cst.C111_captured",
    "Cst.C111_unknown",
    "Cst.C111_import",
    "Cst.C111_nonlocal",
    "Cst.C111_quoted",
    "Cst.C111_posonly",
    "Cst.C111_star",
    "Cst.C111_module"
   ],
   "note": "That libCST's scope analysis follows Python's naming rules (Spec/Scopes) is assumed. Findings, where a hypothesis fails: C111_captured (an inner `cls`), _unknown, _import, _nonlocal, _quoted, _posonly, _star; _module: a module-level `cls` blocks the fix."
  },
  {
   "property": "C112",
   "status": "proved",
   "theorems": [
    "Cst.C112_reports",
    "Cst.C112_sound",
    "Cst.C112_idempotent",
    "Cst.C112_double"
   ],
   "note": "Finding: with `**options` that contain `frozen` the replacement passes it twice (C112_double)."
  },
  {
   "property": "C113",
   "status": "proved",
   "theorems": [
    "Cst.C113_reports",
    "Cst.C113_spelling"
   ],
   "note": "Finding: `#noqa` is missed and `# noqable` is reported."
  },
  {
   "property": "C114",
   "status": "proved",
   "theorems": [
    "Cst.C114_terminates",
    "Cst.C114_finishes",
    "Cst.C114_both_never",
    "Cst.C114_new_violation"
   ],
   "note": "UseTypesFromTyping and NoRedundantArgumentsSuper included; NoStringTypeAnnotation (replaces a string by its contents) is not part of the relation. C114_both_never, C114_new_violation: findings"
  },
  {
   "property": "C115",
   "status": "proved",
   "theorems": [
    "Cst.C115_expressions",
    "Cst.C115_lambda",
    "Cst.C115_lambda_again",
    "Cst.C115_super",
    "Cst.C115_typing",
    "Cst.C115_abc",
    "Cst.C115_abc_module",
    "Cst.C115_abc_again",
    "Cst.C115_testcase",
    "Cst.C115_deprecated_import",
    "Cst.C115_deprecated_name",
    "Cst.C115_suffix",
    "Cst.C115_quoted_again",
    "Cst.C115_object_union",
    "Cst.C104_idempotent",
    "Cst.C106_idempotent",
    "Cst.C111_idempotent",
    "Cst.C112_idempotent"
   ],
   "note": "C115_lambda_again, C115_suffix, C115_quoted_again, C115_abc_again: the exceptions (findings). The replacements of NoRedundantFString and UseFstring are of another kind of node, which the rule does not visit"
  },
  {
   "property": "C116",
   "status": "proved",
   "theorems": [
    "Fixit.C116_alone",
    "Fixit.C116_same",
    "Fixit.C116_raises",
    "Fixit.C116_which",
    "Fixit.C116_lints",
    "Fixit.C116_repository"
   ],
   "note": "rules as visitor state machines (Model/Visit) inside the whole program (Model/System, Model/Walk)"
  },
  {
   "property": "C117",
   "status": "proved",
   "theorems": [
    "Fixit.C117_dependencies",
    "Fixit.C117_needed",
    "Fixit.C117_autofix",
    "Fixit.C117_autofix_line",
    "Fixit.C117_kept"
   ],
   "note": "get_inherited_dependencies as documented by libCST"
  },
  {
   "property": "C118",
   "status": "proved",
   "theorems": [
    "Fixit.C118_lost",
    "Fixit.C118_written",
    "Fixit.C118_unfixable",
    "Fixit.C118_refused"
   ],
   "note": "black's behaviour as documented is a parameter"
  },
  {
   "property": "C119",
   "status": "proved",
   "theorems": [
    "Fixit.C119_arrives",
    "Fixit.C119_rule",
    "Fixit.C119_message",
    "Fixit.C119_inherited_fails"
   ],
   "note": "pickling of exceptions as documented by Python"
  },
  {
   "property": "C120",
   "status": "proved",
   "theorems": [
    "Fixit.C120_completed",
    "Fixit.C120_lint_completed",
    "Fixit.C120_breaks",
    "Fixit.C120_never_breaks",
    "Fixit.C120_alone"
   ],
   "note": "pickling is a parameter: which exceptions can be rebuilt, and as what"
  },
  {
   "property": "C121",
   "status": "proved",
   "theorems": [
    "Fixit.C121_found",
    "Fixit.C121_lints",
    "Fixit.C121_fails",
    "Cst.C121_offends",
    "Cst.C121_raises",
    "Cst.C121_message",
    "Cst.C121_independent",
    "Fixit.case_found",
    "Cst.C121_fix",
    "Cst.C121_once",
    "Fixit.C121_found_once",
    "Cst.C121_messages",
    "Cst.C121_all_classes",
    "Cst.C121_default_message"
   ],
   "note": "LooksRight: what the rules see of the module (expressions, scopes, metadata) fits the module; case_right shows a module that meets it. The nodes a rule reports are specified in Spec/Bundled.Offends, one line per rule."
  },
  {
   "property": "C122",
   "status": "proved",
   "theorems": [
    "Fixit.C122_says_what_is_wrong",
    "Fixit.C122_complaint_fails",
    "Fixit.C122_only_fault",
    "Fixit.C122_quoted",
    "Fixit.C122_rules_option",
    "Fixit.C122_printed",
    "Fixit.C122_unhelpful",
    "Fixit.C122_quotes",
    "Fixit.C122_one_line"
   ],
   "note": "Texts and complaints are in Spec/Messages. Floats and dates are shown as the interpreter does (left open). Finding: C122_unhelpful."
  },
  {
   "property": "C123",
   "status": "proved",
   "theorems": [
    "Fixit.C123_added",
    "Fixit.C123_others_kept",
    "Fixit.C123_one_class_each",
    "Fixit.C123_package",
    "Fixit.C123_no_package",
    "Fixit.C123_fails_iff",
    "Fixit.C123_script",
    "Fixit.C123_classes_ignored",
    "Fixit.C123_rule_called_package"
   ],
   "note": "Attributes, classes and `__module__` after the call, and when it fails; the tests of each class are those of C92."
  },
  {
   "property": "C124",
   "status": "proved",
   "theorems": [
    "Fixit.C124_only_asked",
    "Fixit.C124_in_turn",
    "Fixit.C124_all_served",
    "Fixit.C124_failure_ends",
    "Fixit.C124_stdio_too",
    "Fixit.C124_nothing"
   ],
   "note": "The channels served, their order and how the command ends, for every list of options; how a channel behaves (pygls) is a parameter."
  },
  {
   "property": "C125",
   "status": "proved",
   "theorems": [
    "Fixit.C125_transcript",
    "Fixit.C125_path_shown",
    "Fixit.C125_path_as_written",
    "Fixit.C125_hides_the_rest"
   ],
   "note": "The list of messages for any table, as a transcript; whether a reference loads does not depend on what was loaded before (LoadsLike, which the modelled loader satisfies). Class names and texts of exceptions raised by imported code are parameters."
  },
  {
   "property": "C126",
   "status": "proved",
   "theorems": [
    "Fixit.C126_sys_path",
    "Fixit.C126_sys_path_after",
    "Fixit.C126_absolute_sees",
    "Fixit.C126_own_directory",
    "Fixit.C126_local_alone",
    "Fixit.C126_in_order",
    "Fixit.C126_ends",
    "Fixit.C126_shared_directory",
    "Fixit.C126_wrong_directory",
    "Fixit.C126_no_directory",
    "Fixit.C126_cached_module"
   ],
   "note": "Invariants over all schedules of a small-step model (one access to the shared state is one step; importlib.import_module is one step). C126_shared_directory, C126_wrong_directory and C126_no_directory are concrete schedules showing what fails: findings."
  },
  {
   "property": "C127",
   "status": "proved",
   "theorems": [
    "Fixit.C127_reply",
    "Fixit.C127_ends",
    "Fixit.C127_one_reply",
    "Fixit.C127_at_once"
   ],
   "note": "The histories of the model include those in which the main thread takes other messages before it has replied, which the code excludes."
  },
  {
   "property": "C128",
   "status": "proved",
   "theorems": [
    "Fixit.C128_valid",
    "Fixit.C128_invalid",
    "Fixit.C128_diff_vacuous",
    "Fixit.C128_error"
   ],
   "note": "Spec.FirstMismatch (Spec/Testing.lean) lists the discrepancies in the order they are looked at; both directions for VALID and INVALID cases; all ways are met by examples in Props/TestingMessages.lean; C128_diff_vacuous is a finding"
  },
  {
   "property": "C129",
   "status": "proved",
   "theorems": [
    "Fixit.C129_lint",
    "Fixit.C129_fix",
    "Fixit.C129_style",
    "Fixit.C129_interactive"
   ],
   "note": "The text of an error and its traceback, and what a custom template makes of its arguments, are parameters (`Console`)."
  },
  {
   "property": "C130",
   "status": "proved",
   "theorems": [
    "Fixit.C130_as_file",
    "Fixit.C130_lint",
    "Fixit.C130_fix",
    "Fixit.C130_program_lint",
    "Fixit.C130_program_fix",
    "Fixit.C130_lost"
   ],
   "note": "The hypotheses `Saved` and `Writable` are in Spec/Paths; `Stable` is discharged for the whole program by C93_stable."
  },
  {
   "property": "C131",
   "status": "proved",
   "theorems": [
    "Fixit.C131_fix_shows_lint",
    "Fixit.C131_editor_shows_lint",
    "Fixit.C131_editor_formats_fix"
   ],
   "note": "`alone env false hook w p` is linting the file p alone, `alone env true` fixing it automatically. `Stable`: the document is not itself a configuration file or read by a rule."
  },
  {
   "property": "C132",
   "status": "proved",
   "theorems": [
    "Fixit.C132_yes_to_all",
    "Fixit.C132_yes_is_automatic",
    "Fixit.C132_no_to_all",
    "Fixit.C132_reformats"
   ],
   "note": "`toFix env w p`: there is a fixable violation in the file."
  },
  {
   "property": "C133",
   "status": "proved",
   "theorems": [
    "Fixit.C133_no_effect",
    "Fixit.C133_config",
    "Fixit.C133_merge"
   ],
   "note": "`withoutOptions o` is the program `o` reading configuration files in which every options table is empty; hypotheses met by a program whose configuration has options for the rule that reports (Props/RuleOptionsCases)."
  },
  {
   "property": "C134",
   "status": "proved",
   "theorems": [
    "Fixit.C134_tables",
    "Fixit.C134_elsewhere",
    "Fixit.C134_linked_from_elsewhere",
    "Fixit.C134_root",
    "Fixit.C134_shared_rules_run",
    "Fixit.C134_validate_misled"
   ],
   "note": "resolution of the path of a configuration file is a parameter (FS.real); FINDING: a linked-in shared configuration has no effect on rule selection, and validate-config disagrees with lint about local rules"
  },
  {
   "property": "C135",
   "status": "proved",
   "theorems": [
    "Fixit.C135_in_turn",
    "Fixit.C135_given_twice"
   ],
   "note": "no assumption on the files (compare C52, which assumes distinct files that no configuration or rule depends on)"
  },
  {
   "property": "C136",
   "status": "proved",
   "theorems": [
    "Fixit.C136_config",
    "Fixit.C136_collect",
    "Fixit.C136_lints",
    "Fixit.C136_found",
    "Fixit.C136_results",
    "Fixit.C136_fix",
    "Fixit.C136_exit",
    "Fixit.C136_debug",
    "Fixit.C136_clash",
    "Cst.C136_bundled"
   ],
   "note": "Two processes differ by the permutations their sets are iterated in (of classes in collect_rules, of references in merge_configs). C136_clash and C136_bundled show that the hypothesis of C136_fix is needed, also with bundled rules (finding)."
  },
  {
   "property": "C137",
   "status": "proved",
   "theorems": [
    "Fixit.C137_config",
    "Fixit.C137_results",
    "Fixit.C137_without_root"
   ],
   "note": "C137_without_root shows that the root marker matters. A file with root = true stops the search even when an earlier one in the same directory does not say so. Rule imports and visitors are hypotheses because they may read anything."
  },
  {
   "property": "C138",
   "status": "proved",
   "theorems": [
    "Fixit.C138_config",
    "Fixit.C138_rules",
    "Fixit.C138_results",
    "Fixit.C138_absolute_override"
   ],
   "note": "Copied/StaysInside/SameImports/TreatedAlike are the hypotheses in Spec terms; met by the project of MovedCases. C138_absolute_override is the counterexample for override paths that are absolute or lead out."
  },
  {
   "property": "C139",
   "status": "proved",
   "theorems": [
    "Fixit.C139_content",
    "Fixit.C139_finished",
    "Fixit.C139_results",
    "Fixit.C139_paths",
    "Fixit.C139_empty_is_needed",
    "Fixit.C139_once_is_needed",
    "Fixit.C139_fair_ends",
    "Fixit.C139_runs",
    "Fixit.C139_runs_end"
   ],
   "note": "For any number of workers on any list of files and every schedule of their steps; writing is modelled exactly (open truncates, write starts at offset 0 and leaves what is behind). The two last theorems are the findings: what happens without the conditions."
  },
  {
   "property": "C140",
   "status": "proved",
   "theorems": [
    "Fixit.C140_disable",
    "Fixit.C140_config",
    "Fixit.C140_selected",
    "Fixit.C140_collects",
    "Fixit.C140_still_lints",
    "Fixit.C140_fewer",
    "Fixit.C140_named_survives"
   ],
   "note": "C140_disable composes the selection of rules with the walk of the tree for one file; C140_config is the text level (one more disabling mention after all others). Hypotheses: importing rules is a function of the reference and the search path (StatelessFind), the changed configuration file is not read by rules or metadata (SameTools), and asking for less metadata raises nothing new (LessIsFine). Local references are left out because of C11 (the same text may mean another directory)."
  },
  {
   "property": "C141",
   "status": "proved",
   "theorems": [
    "Fixit.C141_valid",
    "Fixit.C141_invalid",
    "Fixit.C141_fix",
    "Fixit.C141_elsewhere"
   ],
   "note": "Composes C91 (what a passing case means), C116 (a rule reports the same alone and among others) and the closed form of fixing a file (C136). The hypotheses are InProject (the file can be linted, the rule is selected, the selected rules only read metadata), OnlyCode and, for the first two, distinct rule names; C141_elsewhere shows that OnlyCode is needed."
  },
  {
   "property": "C142",
   "status": "proved",
   "theorems": [
    "Fixit.C142_comment",
    "Fixit.C142_header",
    "Fixit.C142_ordinary",
    "Fixit.C142_silenced",
    "Fixit.C142_header_silenced",
    "Fixit.C142_associated"
   ],
   "note": "For rules that make the same reports in both versions (`SameReports`; a rule that looks at comments may not). Node numbers stand for the same nodes in both versions; ranges are moved by the given function."
  },
  {
   "property": "C143",
   "status": "proved",
   "theorems": [
    "Fixit.C143_enable",
    "Fixit.C143_selected",
    "Fixit.C143_config",
    "Fixit.C143_collects"
   ],
   "note": "For rules that only read shared metadata and references that load independently of each other (`StatelessFind`), as in C140."
  },
  {
   "property": "C144",
   "status": "proved",
   "theorems": [
    "Fixit.C144_tags",
    "Fixit.C144_split",
    "Fixit.C144_common",
    "Fixit.C144_selected",
    "Fixit.C144_tags_lints"
   ],
   "note": "For rules that only read shared metadata, and metadata for which asking for less raises nothing new (`LessIsFine`)."
  },
  {
   "property": "C145",
   "status": "proved",
   "theorems": [
    "Fixit.C145_interrupted",
    "Fixit.C145_interrupted_any_answers",
    "Fixit.C145_interrupted_pool",
    "Fixit.C145_repeat",
    "Fixit.C145_repeat_each",
    "Fixit.C145_emptied_stays_empty"
   ],
   "note": "Concrete runs in Props/InterruptedCases."
  },
  {
   "property": "C146",
   "status": "proved",
   "theorems": [
    "Fixit.C146_clean_lint_nothing_to_fix",
    "Fixit.C146_silent_fix_clean_lint",
    "Fixit.C146_clean_stdin"
   ],
   "note": "Concrete runs in Props/CleanLintCases.lean (C146_clean_case)."
  },
  {
   "property": "C147",
   "status": "proved",
   "theorems": [
    "Fixit.C147_fix_split",
    "Fixit.C147_lint_split",
    "Fixit.C147_lint_reports",
    "Fixit.C147_at_the_same_time",
    "Fixit.C147_ends"
   ],
   "note": "Concrete runs in Props/SplitCases.lean."
  }
 ]
}