{
 "claims": [
  {
   "property": "C01",
   "status": "proved",
   "theorems": [
    "Jarl.C01_rule_names"
   ],
   "note": ""
  },
  {
   "property": "C02",
   "status": "proved",
   "theorems": [
    "Jarl.C02_rule_selection"
   ],
   "note": ""
  },
  {
   "property": "C03",
   "status": "proved",
   "theorems": [
    "Jarl.C03_ignore_wins"
   ],
   "note": ""
  },
  {
   "property": "C04",
   "status": "proved",
   "theorems": [
    "Jarl.C04_unknown_rules_rejected"
   ],
   "note": ""
  },
  {
   "property": "C05",
   "status": "proved",
   "theorems": [
    "Jarl.C05_version_gate",
    "Jarl.C05_version_monotone",
    "Jarl.C05_unknown_version"
   ],
   "note": ""
  },
  {
   "property": "C06",
   "status": "partial",
   "theorems": [
    "Jarl.C06_no_unsafe_fix_partial",
    "Jarl.C06_false_with_fix_only",
    "Jarl.C06_only_unsafe_removed",
    "Jarl.C06_safe_fixes_only_partial"
   ],
   "note": "Full claim is false of the code with --fix --fix-only (negation proved); proved without --fix-only."
  },
  {
   "property": "C07",
   "status": "proved",
   "theorems": [
    "Jarl.C07_fixes",
    "Jarl.C07_only_fixes",
    "Jarl.C07_lists"
   ],
   "note": ""
  },
  {
   "property": "C08",
   "status": "proved",
   "theorems": [
    "Jarl.C08_hidden_iff_suppressed"
   ],
   "note": ""
  },
  {
   "property": "C09",
   "status": "proved",
   "theorems": [
    "Jarl.C09_filter_fast_path",
    "Jarl.C09_collect_fast_path"
   ],
   "note": ""
  },
  {
   "property": "C10",
   "status": "proved",
   "theorems": [
    "Jarl.C10_outdated_iff",
    "Jarl.C10_removal_safe"
   ],
   "note": "Removal is stated on the collected suppressions."
  },
  {
   "property": "C11",
   "status": "proved",
   "theorems": [
    "Jarl.C11_valid",
    "Jarl.C11_unexplained",
    "Jarl.C11_misnamed",
    "Jarl.C11_blanket",
    "Jarl.C11_pipe_only_chunk",
    "Jarl.C11_array_header",
    "Jarl.C11_array_item"
   ],
   "note": ""
  },
  {
   "property": "C12",
   "status": "proved",
   "theorems": [
    "Jarl.C12_regions",
    "Jarl.C12_unmatched_end",
    "Jarl.C12_unmatched_start",
    "Jarl.C12_panics_iff",
    "Jarl.C12_panic_witness"
   ],
   "note": "Finding F9: an end comment visited after a physically later start comment makes jarl panic (proved, with witness)."
  },
  {
   "property": "C13",
   "status": "proved",
   "theorems": [
    "Jarl.C13_inserted_comments_are_valid",
    "Jarl.C13_at_insert_point",
    "Jarl.C13_blank_reason"
   ],
   "note": "Finding F6: a blank reason gives invalid comments (proved)."
  },
  {
   "property": "C14",
   "status": "proved",
   "theorems": [
    "Jarl.C14_chunks",
    "Jarl.C14_chunk_lines",
    "Jarl.C14_slice",
    "Jarl.C14_disjoint",
    "Jarl.Chunks_unique"
   ],
   "note": ""
  },
  {
   "property": "C15",
   "status": "proved",
   "theorems": [
    "Jarl.C15_rmd_reports",
    "Jarl.C15_documents"
   ],
   "note": ""
  },
  {
   "property": "C16",
   "status": "proved",
   "theorems": [
    "Jarl.C16_chunks",
    "Jarl.C16_file_rule_hidden",
    "Jarl.C16_later_file_comment_misplaced",
    "Jarl.C16_outdated_file"
   ],
   "note": ""
  },
  {
   "property": "C17",
   "status": "partial",
   "theorems": [
    "Jarl.C17_row",
    "Jarl.C17_row_col_partial",
    "Jarl.C17_prefix_suffices",
    "Jarl.C17_false_leading_newline",
    "Jarl.C17_location_partial",
    "Jarl.C17_rmd_location_partial",
    "Jarl.C17_false_trailing_comment"
   ],
   "note": "Column is wrong (off by one) on the first line after a leading newline (negation proved); rows are always right when newlines are searched in the whole text."
  },
  {
   "property": "C18",
   "status": "partial",
   "theorems": [
    "Jarl.C18_rewrites_only_fixed_ranges_partial",
    "Jarl.C18_no_panic_partial",
    "Jarl.C19_apart",
    "Jarl.C19_apart_no_panic",
    "Jarl.Rewritten_unique",
    "Jarl.C18_false_non_ascii"
   ],
   "note": "False of the code when a fix changes the number of non-ASCII continuation bytes (negation proved); proved otherwise, placeholders included."
  },
  {
   "property": "C19",
   "status": "partial",
   "theorems": [
    "Jarl.C19_overlap_skipped_partial",
    "Jarl.C19_exact",
    "Jarl.C19_apart",
    "Jarl.C19_apart_no_panic",
    "Jarl.C19_flag_is_sticky",
    "Jarl.C19_false_when_growing",
    "Jarl.C19_false_corrupts_file"
   ],
   "note": "False of the code (negation proved, with a realistic corruption witness); proved when the applied fix does not change the length by more than the accumulated change. C19_exact gives the condition under which the code really skips; C19_apart: whenever that condition is enough (`Apart`), the fixes applied are a part of the list, begin with the first fix and only their ranges change."
  },
  {
   "property": "C20",
   "status": "proved",
   "theorems": [
    "Jarl.C20_no_fix_no_change"
   ],
   "note": ""
  },
  {
   "property": "C21",
   "status": "proved",
   "theorems": [
    "Jarl.C21_fix_outcome",
    "Jarl.C21_recheck",
    "Jarl.C21_parse_error_untouched",
    "Jarl.C21_no_writes",
    "Jarl.C21_documents_untouched"
   ],
   "note": "The package-wide analysis is a parameter that is computed before fixing, as in the code (finding F13)."
  },
  {
   "property": "C22",
   "status": "proved",
   "theorems": [
    "Jarl.C22_terminates",
    "Jarl.C22_skip_means_fix",
    "Jarl.C22_first_fix_applied",
    "Jarl.C22_false_endless",
    "Jarl.C22_false_terminates"
   ],
   "note": "The measure is a hypothesis. C22_false_terminates: without it the loop may run for ever (finding F41)."
  },
  {
   "property": "C23",
   "status": "proved",
   "theorems": [
    "Jarl.C23_only_inserts",
    "Jarl.C23_original_is_sublist",
    "Jarl.C23_never_panics"
   ],
   "note": ""
  },
  {
   "property": "C24",
   "status": "proved",
   "theorems": [
    "Jarl.C24_guard",
    "Jarl.C24_allowed",
    "Jarl.C24_not_consulted",
    "Jarl.checkVersionControl_iff"
   ],
   "note": ""
  },
  {
   "property": "C25",
   "status": "proved",
   "theorems": [
    "Jarl.C25_version_strings",
    "Jarl.C25_round_trip"
   ],
   "note": "An optional leading + per component is accepted (Rust u32::from_str)."
  },
  {
   "property": "C26",
   "status": "proved",
   "theorems": [
    "Jarl.C26_depends_versions",
    "Jarl.C26_no_depends",
    "Jarl.C26_project_version",
    "Jarl.C26_panics_without_version"
   ],
   "note": "The panic on an R entry without version is proved as a finding."
  },
  {
   "property": "C27",
   "status": "proved",
   "theorems": [
    "Jarl.C27_sorted",
    "Jarl.C27_order_independent",
    "Jarl.C27_run"
   ],
   "note": "Full determinism: equal positions keep the order within the file."
  },
  {
   "property": "C28",
   "status": "partial",
   "theorems": [
    "Jarl.C28_exit_code_partial",
    "Jarl.C28_false_statistics",
    "Jarl.C28_false_add_ignore"
   ],
   "note": "False with --statistics / --add-jarl-ignore (finding F5, negations proved); proved otherwise."
  },
  {
   "property": "C29",
   "status": "proved",
   "theorems": [
    "Jarl.C29_hidden_all_or_none"
   ],
   "note": ""
  },
  {
   "property": "C30",
   "status": "proved",
   "theorems": [
    "Jarl.C30_statistics",
    "Jarl.C30_printed"
   ],
   "note": ""
  },
  {
   "property": "C31",
   "status": "proved",
   "theorems": [
    "Jarl.C31_insert_point",
    "Jarl.C31_always_found"
   ],
   "note": ""
  },
  {
   "property": "C32",
   "status": "proved",
   "theorems": [
    "Jarl.C32_schedule_independent",
    "Jarl.C32_isolated",
    "Jarl.C32_all_finish"
   ],
   "note": "Files are identified by their path; two paths naming one file (links) are outside the model."
  },
  {
   "property": "C33",
   "status": "proved",
   "theorems": [
    "Jarl.C33_crash_consistent",
    "Jarl.C33_untouched"
   ],
   "note": "fs::write itself is one step; a kill inside it may truncate the file (finding)."
  },
  {
   "property": "C34",
   "status": "proved",
   "theorems": [
    "Jarl.C34_untouched",
    "Jarl.C34_edited"
   ],
   "note": ""
  },
  {
   "property": "C35",
   "status": "proved",
   "theorems": [
    "Jarl.C35_reported",
    "Jarl.bad_collected"
   ],
   "note": "Stated for R files; for chunks of documents see C16."
  },
  {
   "property": "C36",
   "status": "proved",
   "theorems": [
    "Jarl.C36_flags"
   ],
   "note": ""
  },
  {
   "property": "C37",
   "status": "proved",
   "theorems": [
    "Jarl.C37_reported_code_never_runs",
    "Jarl.C37_reported_top_level_code_never_runs",
    "Jarl.C37_false_bare_return"
   ],
   "note": "Soundness of the CFG analysis against an independent execution semantics (Spec/Exec.lean). The exclusion of bare `return` is needed (C37_false_bare_return, finding F17)."
  },
  {
   "property": "C38",
   "status": "proved",
   "theorems": [
    "Jarl.C38_dead_code_is_reported"
   ],
   "note": "Dead is the syntactic notion of Spec/Dead.lean, with conditions judged semantically (Can)."
  },
  {
   "property": "C39",
   "status": "proved",
   "theorems": [
    "Jarl.C39_reports_in_order",
    "Jarl.C39_top_level_in_order",
    "Jarl.C39_code_after_jump",
    "Jarl.C39_top_level_code_after_jump",
    "Jarl.C39_top_level_reports",
    "Jarl.C39_code_after_executable_jump",
    "Jarl.C39_false_dead_branch_message"
   ],
   "note": "The message of a dead branch can be wrong (proved, finding F18)."
  },
  {
   "property": "C40",
   "status": "proved",
   "theorems": [
    "Jarl.C40_stopping_functions"
   ],
   "note": ""
  },
  {
   "property": "C41",
   "status": "proved",
   "theorems": [
    "Jarl.C41_offset_to_position",
    "Jarl.C41_diagnostic_position",
    "Jarl.C41_position_to_offset",
    "Jarl.C41_any_position",
    "Jarl.C41_order",
    "Jarl.C41_overlap",
    "Jarl.C41_insertion_position_utf8",
    "Jarl.C41_false_insertion_position",
    "Jarl.C41_insertion_position_ascii"
   ],
   "note": "Finding F19: the insertion place of jarl-ignore comments counts bytes whatever the encoding (negation proved, exact condition proved)."
  },
  {
   "property": "C42",
   "status": "partial",
   "theorems": [
    "Jarl.C42_end_to_start",
    "Jarl.C42_single_change",
    "Jarl.C42_history",
    "Jarl.C42_false_sequential",
    "Jarl.C42_false_crash",
    "Jarl.C42_full_replacement_refused"
   ],
   "note": "Proved for end-to-start change lists; false in general (finding F20, witnesses proved)."
  },
  {
   "property": "C43",
   "status": "proved",
   "theorems": [
    "Jarl.C43_pattern",
    "Jarl.C43_inner_slash_never_matches",
    "Jarl.C43_excluded",
    "Jarl.C43_no_settings_excludes_nothing"
   ],
   "note": "Patterns with an inner slash never match (finding F21, proved for all of them)."
  },
  {
   "property": "C44",
   "status": "proved",
   "theorems": [
    "Jarl.C44_edit_deterministic",
    "Jarl.C44_diagnostics",
    "Jarl.C44_fix_action"
   ],
   "note": "Byte ranges of reports and fixes are assumed to lie between characters (they come from the parser)."
  },
  {
   "property": "C45",
   "status": "partial",
   "theorems": [
    "Jarl.C45_r_file",
    "Jarl.C45_offered",
    "Jarl.C45_not_twice",
    "Jarl.C45_document_inline",
    "Jarl.C45_chunk_action",
    "Jarl.C45_chunk_action_edit",
    "Jarl.C45_false_document",
    "Jarl.C45_false_document_witness",
    "Jarl.C45_false_unexplained_hides_action"
   ],
   "note": "True in R files and for the chunk action; in documents the line is always wrong (finding F22, proved for all documents)."
  },
  {
   "property": "C46",
   "status": "partial",
   "theorems": [
    "Jarl.C46_published",
    "Jarl.C46_main_loop_survives",
    "Jarl.C46_everything_done",
    "Jarl.C46_workers_finish",
    "Jarl.C46_single_worker",
    "Jarl.C46_closing_clears",
    "Jarl.C46_false_stale_diagnostics",
    "Jarl.C46_false_closed_document",
    "Jarl.C46_false_after_panics",
    "Jarl.C46_false_bad_request",
    "Jarl.C46_false_lint_error"
   ],
   "note": "Safety and completion proved for every schedule; \"the editor displays the last save\" is proved for one worker and refuted for two workers, closed documents, failing and panicking analyses (finding F23)."
  },
  {
   "property": "C47",
   "status": "proved",
   "theorems": [
    "Jarl.C47_nearest_config",
    "Jarl.C47_argument_order",
    "Jarl.C47_each_file_once",
    "Jarl.C47_editor",
    "Jarl.C47_false_user_config",
    "Jarl.C47_false_user_config_loaded"
   ],
   "note": "PathResolver (a dependency) is modelled by its documentation: the closest registered directory. Files inside the user configuration directory are excluded. Finding F24: the user-level configuration is not used by jarl check (negation proved for all file systems)."
  },
  {
   "property": "C48",
   "status": "proved",
   "theorems": [
    "Jarl.C48_scan",
    "Jarl.C48_range",
    "Jarl.C48_reported",
    "Jarl.C48_sorted",
    "Jarl.C48_deterministic",
    "Jarl.C48_false_given_twice",
    "Jarl.C48_false_in_string",
    "Jarl.C48_false_next_line",
    "Jarl.C48_false_stale_after_fix",
    "Jarl.C48_false_stale_in_editor"
   ],
   "note": "char::is_alphanumeric, the order of paths and the disk are parameters. Findings F16 and F25 (stale ranges) proved."
  },
  {
   "property": "C49",
   "status": "proved",
   "theorems": [
    "Jarl.C49_mentioned",
    "Jarl.C49_unused_message",
    "Jarl.C49_namespace",
    "Jarl.C49_reported",
    "Jarl.C49_sorted",
    "Jarl.C49_deterministic",
    "Jarl.C49_no_namespace",
    "Jarl.C49_tests",
    "Jarl.C49_scope",
    "Jarl.C49_false_non_ascii",
    "Jarl.C49_false_multiline_export",
    "Jarl.C49_false_two_exports",
    "Jarl.C49_false_comment",
    "Jarl.C49_false_subdirectory",
    "Jarl.C49_false_src_directory"
   ],
   "note": "Proved for ASCII names, against an independent grammar of lines, words and NAMESPACE directives; finding F26 lists (with proofs) where the notion of use differs from what R does. The regex engine is a parameter."
  },
  {
   "property": "C50",
   "status": "proved",
   "theorems": [
    "Jarl.C50_grammar_unambiguous"
   ],
   "note": "The grammar is part of the specification (after ?Syntax in the R manual); `?` and `:=` are left out."
  },
  {
   "property": "C51",
   "status": "partial",
   "theorems": [
    "Jarl.C51_fixes_keep_structure",
    "Jarl.C51_fixes_with_room",
    "Jarl.safe_repeatRule",
    "Jarl.safe_unnecessaryNesting",
    "Jarl.safe_expectNot",
    "Jarl.room_coalesce",
    "Jarl.safe_assignment_eq",
    "Jarl.room_assignment_right",
    "Jarl.room_assignment_left",
    "Jarl.C51_false_any_duplicated",
    "Jarl.C51_false_length_test",
    "Jarl.C51_false_comparison_negation",
    "Jarl.C51_false_comparison_negation_lines",
    "Jarl.C51_false_redundant_ifelse",
    "Jarl.C51_false_outer_negation",
    "Jarl.C51_false_all_equal",
    "Jarl.C51_false_coalesce",
    "Jarl.C51_false_coalesce_unreadable",
    "Jarl.C51_false_assignment",
    "Jarl.C51_false_assignment_equal",
    "Jarl.C51_false_repeat",
    "Jarl.C51_false_unnecessary_nesting",
    "Jarl.C51_false_expect_not"
   ],
   "note": "Proved at every place for 33 fixes (31 rules); for the 12 others proved under conditions on the place and refuted without them (finding F27). sprintf included."
  },
  {
   "property": "C52",
   "status": "proved",
   "theorems": [
    "Jarl.C52_fixes_as_documented",
    "Jarl.C52_fix_result",
    "Jarl.lawRules_cover",
    "Jarl.C52_false_any_is_na",
    "Jarl.C52_false_any_duplicated",
    "Jarl.C52_false_which_grepl",
    "Jarl.C52_false_length_test",
    "Jarl.C52_false_outer_negation",
    "Jarl.C52_false_equals_null",
    "Jarl.C52_false_sample_int",
    "Jarl.C52_false_sample_int_comma",
    "Jarl.C52_false_grepv",
    "Jarl.C52_false_expect_true_false",
    "Jarl.C52_false_expect_not",
    "Jarl.C52_false_string_boundary",
    "Jarl.C52_false_assignment",
    "Jarl.C52_false_coalesce",
    "Jarl.C52_false_repeat",
    "Jarl.C52_false_system_file",
    "Jarl.C52_false_fixed_regex",
    "Jarl.C52_false_lengths"
   ],
   "note": "45 fixes of 42 rules against a table of documented rewritings (Spec/RLaws), each under a condition stated there; where the code does not check the condition a program is given on which the fix puts in something else (finding F28). Comments inside the replaced code and the right side of a pipe are excluded. Abbreviated argument names are not modelled."
  },
  {
   "property": "C53",
   "status": "proved",
   "theorems": [
    "Jarl.C53_looked_at",
    "Jarl.C53_loop_variables",
    "Jarl.C53_once",
    "Jarl.C53_rules_once",
    "Jarl.C53_proposed",
    "Jarl.C53_every_rule_called",
    "Jarl.C53_fix_table",
    "Jarl.C53_false_everything_checked",
    "Jarl.C53_false_everything_checked_extract"
   ],
   "note": "Exact description of what is looked at; that code in front of [ and $ is not is finding F15, proved. Suppressions and document rules come later in the pipeline (C08, C16, C21)."
  },
  {
   "property": "C54",
   "status": "proved",
   "theorems": [
    "Jarl.C54_invalid_iff",
    "Jarl.C54_valid_passes",
    "Jarl.C54_invalid_found",
    "Jarl.C54_useless",
    "Jarl.C54_mismatch",
    "Jarl.C54_mismatch_numbered",
    "Jarl.C54_mismatch_message",
    "Jarl.C54_call",
    "Jarl.C54_reported",
    "Jarl.C54_after_pipe",
    "Jarl.C54_fix",
    "Jarl.C54_false_gap",
    "Jarl.C54_false_mixed",
    "Jarl.C54_false_blank",
    "Jarl.C54_false_zero",
    "Jarl.C54_false_written",
    "Jarl.C52_false_sprintf",
    "Jarl.C52_false_sprintf_codes"
   ],
   "note": "The text of the string is taken as it is written: characters written with codes (\"\\x25s\") are not seen as %; what goes wrong with gaps in the positions, mixed positions, ... and named arguments is proved (finding F30)."
  },
  {
   "property": "C55",
   "status": "proved",
   "theorems": [
    "Jarl.C55_reports",
    "Jarl.C55_rule_table",
    "Jarl.C55_if_always_true",
    "Jarl.C55_if_always_true_constants",
    "Jarl.C55_if_else",
    "Jarl.C55_vector_logic",
    "Jarl.C55_vector_logic_advice",
    "Jarl.C55_implicit_assignment",
    "Jarl.C55_implicit_found",
    "Jarl.C55_implicit_statement",
    "Jarl.C55_for_loop_dup_index",
    "Jarl.C55_for_loop_index",
    "Jarl.C55_browser",
    "Jarl.C55_undesirable_function",
    "Jarl.C55_internal_function",
    "Jarl.C55_empty_assignment",
    "Jarl.C55_download_file",
    "Jarl.C55_duplicated_arguments",
    "Jarl.C55_duplicated_arguments_found",
    "Jarl.C55_duplicated_arguments_skipped",
    "Jarl.C55_options",
    "Jarl.C55_false_implicit_bodies",
    "Jarl.C55_false_for_loop_index",
    "Jarl.C55_false_dup_index",
    "Jarl.C55_false_duplicated",
    "Jarl.C55_false_download"
   ],
   "note": "Eleven rules. A small semantics of conditions is part of the specification (Spec/RReports): numbers as decimal literals rounded as doubles, three-valued logic, recycling, errors. What one would expect from the documentation and does not hold is proved (finding F31). The reading of decimal numbers by Rust (parse::<f64>) is taken to be correctly rounded."
  },
  {
   "property": "C56",
   "status": "proved",
   "theorems": [
    "Jarl.C56_rule_fails",
    "Jarl.C56_refused",
    "Jarl.C56_first",
    "Jarl.C56_false_crash",
    "Jarl.C56_false_crash_pipe",
    "Jarl.C56_false_refused",
    "Jarl.C56_false_crash_sample"
   ],
   "note": "All `?`, context and unwrap in the rules were read; those not listed are on parts that a tree without syntax errors has, which is not proved (part of the model). Finding F32: crashes and refusals with the default rules. fix mode and suppressions do not change it."
  },
  {
   "property": "C57",
   "status": "proved",
   "theorems": [
    "Jarl.C57_fixes_together",
    "Jarl.C57_cuts_possible",
    "Jarl.C57_cuts_unique",
    "Jarl.C57_pass",
    "Jarl.C57_proposed",
    "Jarl.C57_passes",
    "Jarl.C57_as_documented",
    "Jarl.C57_ex_two"
   ],
   "note": "On tokens, as C51; that apply_fixes makes exactly the cuts that do not overlap is C18 (and false in the cases of C19, finding F1). Blanks within a line are not part of the model, so two tokens run together (else\"a\" == NA) are not seen."
  },
  {
   "property": "C58",
   "status": "proved",
   "theorems": [
    "Jarl.C58_concise",
    "Jarl.C58_prints",
    "Jarl.C58_errors",
    "Jarl.C58_false_lines",
    "Jarl.C58_false_one_line",
    "Jarl.C58_false_link"
   ],
   "note": "Standard output and standard error are two texts; how they interleave is not modelled. Colours off (as in a pipe) and NO_COLOR set; otherwise finding F37. Errors other than those of version control and panics (these end the run, C28)."
  },
  {
   "property": "C59",
   "status": "proved",
   "theorems": [
    "Jarl.C59_github",
    "Jarl.C59_false_errors",
    "Jarl.C59_false_one_line",
    "Jarl.C59_false_comma",
    "Jarl.C59_false_colons"
   ],
   "note": "The GitHub runner is modelled after actions/runner (ActionCommand.TryParseV2) in the specification. Findings F34-F36."
  },
  {
   "property": "C60",
   "status": "proved",
   "theorems": [
    "Jarl.C60_json",
    "Jarl.C60_faithful",
    "Jarl.C60_false_no_files",
    "Jarl.C60_false_statistics"
   ],
   "note": "serde_json::to_string_pretty is modelled (Json.lean); the reader of JSON in the specification is independent of it. Finding F33."
  },
  {
   "property": "C61",
   "status": "proved",
   "theorems": [
    "Jarl.C61_summary",
    "Jarl.C61_disjoint",
    "Jarl.C62_sections",
    "Jarl.C61_false_width"
   ],
   "note": "The threshold is the value of JARL_N_VIOLATIONS_HINT_STAT (parameter). Finding F38."
  },
  {
   "property": "C62",
   "status": "proved",
   "theorems": [
    "Jarl.C62_deprecated",
    "Jarl.C62_sections"
   ],
   "note": "One rule is deprecated at this commit. The texts of the other warnings (parent configuration, timing) are assumed to be single lines."
  },
  {
   "property": "C63",
   "status": "proved",
   "theorems": [
    "Jarl.C63_found",
    "Jarl.C63_comparison_negation",
    "Jarl.C63_assignment",
    "Jarl.C63_pipes",
    "Jarl.C63_enabled",
    "Jarl.C63_false_expect_true_false",
    "Jarl.C63_false_expect_null",
    "Jarl.C63_false_expect_length",
    "Jarl.C63_false_redundant_ifelse",
    "Jarl.C63_false_matrix_apply",
    "Jarl.C63_false_list2df",
    "Jarl.C63_false_lengths",
    "Jarl.C63_false_expect_match",
    "Jarl.C63_false_is_numeric",
    "Jarl.C63_false_sort",
    "Jarl.C63_false_coalesce",
    "Jarl.C63_false_class_equals",
    "Jarl.C63_false_parentheses",
    "Jarl.C63_false_comparison_negation"
   ],
   "note": "40 rules against the table of documented rewritings of C52, each under a condition stated in Spec/RFound; where a condition is one that a user would not expect a program is given on which the rule is silent (finding F39). The layout is everything between tokens; comments do not matter."
  },
  {
   "property": "C64",
   "status": "proved",
   "theorems": [
    "Jarl.C64_fixes_keep_comments",
    "Jarl.C64_comments_around",
    "Jarl.C64_commented_code_is_skipped",
    "Jarl.C64_pass",
    "Jarl.C64_passes",
    "Jarl.C64_false_comment_above",
    "Jarl.C64_false_comment_behind",
    "Jarl.C64_false_assignment",
    "Jarl.C64_false_all_equal",
    "Jarl.C64_not_always"
   ],
   "note": "All 45 fixes. The exceptions are stated as `Guarded` in Spec/RComments and each is shown to be needed (finding F40). Comments are marks in the gaps between tokens; their text is not in the model."
  },
  {
   "property": "C65",
   "status": "proved",
   "theorems": [
    "Jarl.C65_settings",
    "Jarl.C65_accepted",
    "Jarl.C65_refused",
    "Jarl.C65_empty",
    "Jarl.C65_skipped",
    "Jarl.C65_file",
    "Jarl.C65_false_unreadable"
   ],
   "note": "From the TOML document on (the crate `toml` reads the text); `Means` in Spec/Toml is the documentation. Options written as an array where a table is expected are outside the model. A file that exists but is not readable text crashes jarl (C65_false_unreadable, finding F24)."
  },
  {
   "property": "C66",
   "status": "proved",
   "theorems": [
    "Jarl.C66_one_reading",
    "Jarl.C66_lossless",
    "Jarl.C66_gaps",
    "Jarl.C66_text",
    "Jarl.C66_pass",
    "Jarl.C66_passes",
    "Jarl.C66_ranges",
    "Jarl.C66_apart",
    "Jarl.C66_in_text",
    "Jarl.C66_apply_fixes",
    "Jarl.C66_no_panic",
    "Jarl.C66_fix_file",
    "Jarl.C66_ex_two",
    "Jarl.C66_ex_file",
    "Jarl.C66_false_glued"
   ],
   "note": "The lexer is a specification (Spec/RText, after gram.y), as is the grammar; raw strings, `?`, `:=`, `**` and blanks around `::` are left out. For `keepingRules`, texts of fixes that spell the tokens of RRules, `SameExtraBytes` (C18) fixes of one pass that may overlap but are `Apart` (C19) and `Airy` (needed: C66_false_glued, finding F42). C66_ex_*: the hypotheses can be met."
  },
  {
   "property": "C67",
   "status": "proved",
   "theorems": [
    "Jarl.C67_bounded",
    "Jarl.C67_text_bounded",
    "Jarl.C67_fix_ends",
    "Jarl.C67_runs_end",
    "Jarl.C67_ex_two",
    "Jarl.C67_ex_loop",
    "Jarl.C67_ex_file",
    "Jarl.C67_false_keeping"
   ],
   "note": "A weight of programs that every fix lowers (Lemmas/RWeight), rule by rule, also when several fixes are carried out at once. For `endingRules want` (Spec/RTogether), which are all rules with fixes, four of them where operands stay whole and fixed_regex where `fixed` is not given or FALSE; with all of fixed_regex it is false (C67_false_keeping). C67_fix_ends and C67_runs_end assume of the lints that they report fixes of these rules that keep the structure (ReportsGoodFixes)."
  },
  {
   "property": "C68",
   "status": "proved",
   "theorems": [
    "Jarl.C68_checked",
    "Jarl.C68_run",
    "Jarl.C68_pattern",
    "Jarl.C68_exclude",
    "Jarl.C68_include",
    "Jarl.C68_one_config",
    "Jarl.C68_no_config",
    "Jarl.C68_explicit",
    "Jarl.C68_arguments",
    "Jarl.C68_default_patterns",
    "Jarl.C68_no_default_exclude",
    "Jarl.C68_nearest_config",
    "Jarl.C68_threads",
    "Jarl.C68_missing",
    "Jarl.C68_ex_project",
    "Jarl.C68_ex_run",
    "Jarl.C68_false_renv_argument",
    "Jarl.C68_false_explicit",
    "Jarl.C68_false_include_depth",
    "Jarl.C68_false_once",
    "Jarl.C68_false_missing"
   ],
   "note": "The walker and its patterns are those of the crate `ignore`, modelled by its documentation (no character classes, alternatives, backslashes, empty patterns, links). Which configuration is the first one of the resolver is left open. Findings F16, F44, F45, F46."
  },
  {
   "property": "C69",
   "status": "partial",
   "theorems": [
    "Jarl.C69_own_config_partial",
    "Jarl.C69_false_own_config",
    "Jarl.C69_false_excluded_directory",
    "Jarl.C69_false_argument_order",
    "Jarl.C69_false_nested_exclude",
    "Jarl.C69_false_nested_rules_above",
    "Jarl.C68_one_config"
   ],
   "note": "The full claim is false (C69_false_\u2026, finding F43); proved: the part about include and patterns for the file itself, and everything for a single configuration above the arguments (C68_one_config)."
  },
  {
   "property": "C70",
   "status": "partial",
   "theorems": [
    "Jarl.C70_agree_partial",
    "Jarl.C70_ex_agree",
    "Jarl.C70_ex_values",
    "Jarl.C70_above_nothing",
    "Jarl.C70_false_path_pattern",
    "Jarl.C70_false_directory_name",
    "Jarl.C70_false_directory_star",
    "Jarl.C70_false_above",
    "Jarl.C70_false_hidden",
    "Jarl.C70_false_include"
   ],
   "note": "The full claim is false (C70_false_\u2026, findings F21 and F47); proved where both understand the patterns, with the conditions in the statement. C70_ex_agree: five files meet the hypotheses."
  },
  {
   "property": "C71",
   "status": "partial",
   "theorems": [
    "Jarl.C71_beside_partial",
    "Jarl.C71_not_found",
    "Jarl.C71_false_package",
    "Jarl.C71_beside_example",
    "Jarl.C71_not_found_example",
    "Jarl.C72_false_version"
   ],
   "note": "The full claim is false (C71_false_package, finding F48): proved where files lie beside the DESCRIPTION, and proved that otherwise the version is never found."
  },
  {
   "property": "C72",
   "status": "proved",
   "theorems": [
    "Jarl.C72_same_report",
    "Jarl.C72_example",
    "Jarl.C72_example_status",
    "Jarl.C72_false_version"
   ],
   "note": "The whole command (Run.lean) from the tree of files to the report; the parser, the rules and regular expressions are parameters. C72_example: two runs with all orders reversed meet the hypotheses; C72_false_version: the condition about DESCRIPTION files is needed (finding F49)."
  },
  {
   "property": "C73",
   "status": "partial",
   "theorems": [
    "Jarl.C73_editor_partial",
    "Jarl.C73_example",
    "Jarl.C73_editor_hides",
    "Jarl.C73_hides_example",
    "Jarl.C73_false_tests",
    "Jarl.C73_false_threshold"
   ],
   "note": "The full claim is false (C73_false_tests, C73_false_threshold, C47_false_user_config, C70_false_\u2026; finding F50). Proved: for files in R/, documents and files outside the analysed directories of packages, with one configuration in force, all reports agree except those of unused_function, and these too when the settings name the rule. C73_editor_hides: exactly when the editor hides the reports of unused_function."
  },
  {
   "property": "C74",
   "status": "proved",
   "theorems": [
    "Jarl.C74_only_found",
    "Jarl.C74_only_fixes",
    "Jarl.C74_each_alone",
    "Jarl.C74_same_outcome",
    "Jarl.C74_same_one_config",
    "Jarl.C74_recheck",
    "Jarl.C74_example",
    "Jarl.C74_recheck_example",
    "Jarl.C74_one_config_example"
   ],
   "note": "The whole command with fixing (RunFix.lean). C74_each_alone, C74_same_outcome and C74_recheck: several configurations, without the two package-wide rules (fixing a file of one configuration can change the package analysis of another); C74_same_one_config: with them, one configuration. C74_recheck for runs in which no selected rule is held back (with --fix alone, rules with unsafe fixes are not run). The examples meet the hypotheses."
  },
  {
   "property": "C75",
   "status": "partial",
   "theorems": [
    "Jarl.C75_refused_partial",
    "Jarl.C75_refused_example",
    "Jarl.C75_changed_partial",
    "Jarl.C75_changed_example",
    "Jarl.C75_one_config",
    "Jarl.C75_one_config_example",
    "Jarl.C75_false_own_changes",
    "Jarl.C75_false_uncovered",
    "Jarl.C75_false_config"
   ],
   "note": "The full claim is false (C75_false_\u2026, findings F51 and F52): git is asked for each configuration separately, after the files of the earlier ones were fixed. Proved: with one configuration the full claim holds (C75_one_config, for rules that do not themselves fail with this error); if git refuses the files of every configuration, nothing changes and only these errors are reported; every change was allowed by git when the files of its configuration were unchanged (C75_changed_partial)."
  },
  {
   "property": "C76",
   "status": "proved",
   "theorems": [
    "Jarl.C76_encoding",
    "Jarl.C76_hidden_once",
    "Jarl.C76_hidden_count",
    "Jarl.C76_config_once",
    "Jarl.C76_config_named",
    "Jarl.C76_refines",
    "Jarl.C76_race"
   ],
   "note": "The machine of C46 in finer steps (LspNotice.lean): asking and setting the flag is one atomic step, showing and publishing are separate. Sending is assumed to succeed. C76_race: two workers that both find hidden reports before the flag is set."
  },
  {
   "property": "C77",
   "status": "partial",
   "theorems": [
    "Jarl.C77_same_program_partial",
    "Jarl.C77_outside",
    "Jarl.C77_short_tokens",
    "Jarl.C77_editor",
    "Jarl.C77_false_string",
    "Jarl.C77_ex"
   ],
   "note": "False in general (F12): the fallback place can be inside a string with a line break (C77_false_string). Proved: every other comment keeps the program (C77_same_program_partial; in the editor C77_editor); no comment for a report in an operation or call is inside a token (C77_outside); nothing can go wrong in files without line breaks in strings (C77_short_tokens). biome covering_element is external: the search may begin at any node. A reason with a line break is refused by the command (check.rs 277)."
  },
  {
   "property": "C78",
   "status": "partial",
   "theorems": [
    "Jarl.C78_added",
    "Jarl.C78_failures",
    "Jarl.C78_changed",
    "Jarl.C78_summary",
    "Jarl.C78_order",
    "Jarl.C78_files",
    "Jarl.C78_false_errors",
    "Jarl.C78_false_hidden",
    "Jarl.C78_ex"
   ],
   "note": "Proved: the lines about the files are exact, in both directions (C78_added, C78_failures), no change is silent (C78_changed), the summary adds up (C78_summary), the order (C78_order). False: files that do not parse are not named and the run says that there are no violations with exit code 0 (F53, C78_false_errors); reports hidden by jarl check get comments (F54, C78_false_hidden)."
  },
  {
   "property": "C79",
   "status": "partial",
   "theorems": [
    "Jarl.C79_safe_fixes_keep_values_partial",
    "Jarl.C79_around_partial",
    "Jarl.C79_passes_partial",
    "Jarl.C79_file_partial",
    "Jarl.C79_ex_passes",
    "Jarl.C79_ex_file",
    "Jarl.C79_false_redundant_equals",
    "Jarl.C79_false_redundant_ifelse",
    "Jarl.C79_false_is_numeric",
    "Jarl.C79_false_any_is_na",
    "Jarl.C79_false_any_is_na_package",
    "Jarl.C79_false_equals_na",
    "Jarl.C79_false_equals_na_names",
    "Jarl.C79_false_class_equals",
    "Jarl.C79_false_class_identical",
    "Jarl.C79_false_lengths",
    "Jarl.C79_false_lengths_names",
    "Jarl.C79_false_seq",
    "Jarl.C79_false_seq_names",
    "Jarl.C79_false_seq2",
    "Jarl.C79_false_sort",
    "Jarl.C79_false_sample_int",
    "Jarl.C79_false_string_boundary",
    "Jarl.C79_false_unnecessary_nesting",
    "Jarl.C79_false_true_false_symbol"
   ],
   "note": "Proved for the 22 rules of valueRules (24 entries), under the conditions on code of C52 and conditions on values; every condition on values is shown to be needed (C79_false_\u2026: the full claim is false, findings F55 to F66), except that regular expressions without special characters stand for themselves (plainRegex), which is about R. C79_around_partial: the same for the whole described code around a fix (operators, if, braces with one statement, indexing, the 34 described functions). C79_passes_partial: for any number of passes with any number of fixes each, in the piece of code and elsewhere in the program. C79_file_partial: for fixing a file (lintFix), under these conditions on what is reported for the texts on the way. Not covered: the rules for testthat (expect_*), matrix_apply, list2df, system_file, grepv, repeat, assignment, sprintf, all_equal, length_test, equals_nan, equals_null and the functions of purrr. What R computes is a specification of a piece of R, written after its documentation (Spec/RValue.lean): no side effects, no attributes but names, classes and levels; code not described (unknown) can compute anything, but neither side is then compared."
  },
  {
   "property": "C80",
   "status": "proved",
   "theorems": [
    "Jarl.C80_reports",
    "Jarl.C80_said_ranges",
    "Jarl.C80_found",
    "Jarl.C80_fixes",
    "Jarl.C80_fix_ranges",
    "Jarl.C80_handed_on",
    "Jarl.C80_refused",
    "Jarl.C80_failures",
    "Jarl.C80_ex_handed_on",
    "Jarl.C80_ex_said_ranges",
    "Jarl.C80_ex_fix_ranges",
    "Jarl.ruleLints_runs",
    "Jarl.C80_ex_check",
    "Jarl.C80_ex_reports",
    "Jarl.C80_ex_found",
    "Jarl.C80_ex_fixes"
   ],
   "note": "Not counted here, as no example of its hypotheses is given: C80_reports_fixes and C80_pass (Props/RPass.lean), one pass of --fix with the modelled rules. Joins the rules (C52, C53, C55, C56, C63), the texts (C66), the suppressions (C08) and the settings (C07) to the check of a file: RunsRules says that the lint rules are the modelled ones; ruleLints_runs shows that such lints exist. The conditions of C63 stay (foundRules). Open (any function): the wording of messages and the text of fixes, and the reports without fix of rules that also propose fixes, of unreachable_code in functions and of true_false_symbol for loop variables. C80_reports is exact; C80_found is one direction, the other is C80_fixes for reports with a fix."
  },
  {
   "property": "C81",
   "status": "proved",
   "theorems": [
    "Jarl.C81_colours",
    "Jarl.brightEnv",
    "Jarl.exPrinted_unescaped"
   ],
   "note": "The terminal is specified in Spec/Screen.lean (ECMA-48 control sequences, operating system commands). Hypotheses: no escape character in names of files and messages; in the full format the external renderer adds nothing but escape sequences (RendersPlain). JSON has no colours at all (C60). An example with colours meets the hypotheses."
  },
  {
   "property": "C82",
   "status": "partial",
   "theorems": [
    "Jarl.C82_documented_partial",
    "Jarl.C82_rows",
    "Jarl.C82_false_class_equals",
    "Jarl.C82_false_default",
    "Jarl.C82_false_no_fix",
    "Jarl.C82_false_name"
   ],
   "note": "The full claim (all rules) is false: findings F67 to F70, with the negations proved (C82_false_\u2026). C82_documented_partial is about every rule but the six of misdocumented. docTable is docs/rules.qmd 51-114."
  }
 ]
}