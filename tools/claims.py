c('C01','proved','C01_rule_names')
c('C02','proved','C02_rule_selection')
c('C03','proved','C03_ignore_wins')
c('C04','proved','C04_unknown_rules_rejected')
c('C05','proved','C05_version_gate C05_version_monotone C05_unknown_version')
c('C06','partial','C06_no_unsafe_fix_partial C06_false_with_fix_only C06_only_unsafe_removed C06_safe_fixes_only_partial','Full claim is false of the code with --fix --fix-only (negation proved); proved without --fix-only.')
c('C25','proved','C25_version_strings C25_round_trip','An optional leading + per component is accepted (Rust u32::from_str).')
c('C26','proved','C26_depends_versions C26_no_depends C26_project_version C26_panics_without_version','The panic on an R entry without version is proved as a finding.')
c('C18','partial','C18_rewrites_only_fixed_ranges_partial C18_no_panic_partial C19_apart C19_apart_no_panic Rewritten_unique C18_false_non_ascii','False of the code when a fix changes the number of non-ASCII continuation bytes (negation proved); proved otherwise, placeholders included.')
c('C19','partial','C19_overlap_skipped_partial C19_exact C19_apart C19_apart_no_panic C19_flag_is_sticky C19_false_when_growing C19_false_corrupts_file','False of the code (negation proved, with a realistic corruption witness); proved when the applied fix does not change the length by more than the accumulated change. C19_exact gives the condition under which the code really skips; C19_apart: whenever that condition is enough (`Apart`), the fixes applied are a part of the list, begin with the first fix and only their ranges change.')
c('C20','proved','C20_no_fix_no_change')
c('C17','partial','C17_row C17_row_col_partial C17_prefix_suffices C17_false_leading_newline C17_location_partial C17_rmd_location_partial C17_false_trailing_comment','Column is wrong (off by one) on the first line after a leading newline (negation proved); rows are always right when newlines are searched in the whole text.')
c('C11','proved','C11_valid C11_unexplained C11_misnamed C11_blanket C11_pipe_only_chunk C11_array_header C11_array_item')
c('C13','proved','C13_inserted_comments_are_valid C13_at_insert_point C13_blank_reason','Finding F6: a blank reason gives invalid comments (proved).')
c('C23','proved','C23_only_inserts C23_original_is_sublist C23_never_panics')
c('C08','proved','C08_hidden_iff_suppressed')
c('C09','proved','C09_filter_fast_path C09_collect_fast_path')
c('C10','proved','C10_outdated_iff C10_removal_safe','Removal is stated on the collected suppressions.')
c('C12','proved','C12_regions C12_unmatched_end C12_unmatched_start C12_panics_iff C12_panic_witness','Finding F9: an end comment visited after a physically later start comment makes jarl panic (proved, with witness).')
c('C31','proved','C31_insert_point C31_always_found')
c('C07','proved','C07_fixes C07_only_fixes C07_lists')
c('C14','proved','C14_chunks C14_chunk_lines C14_slice C14_disjoint Chunks_unique')
c('C15','proved','C15_rmd_reports C15_documents')
c('C16','proved','C16_chunks C16_file_rule_hidden C16_later_file_comment_misplaced C16_outdated_file')
c('C21','proved','C21_fix_outcome C21_recheck C21_parse_error_untouched C21_no_writes C21_documents_untouched','The package-wide analysis is a parameter that is computed before fixing, as in the code (finding F13).')
c('C22','proved','C22_terminates C22_skip_means_fix C22_first_fix_applied C22_false_endless C22_false_terminates','The measure is a hypothesis. C22_false_terminates: without it the loop may run for ever (finding F41).')
c('C24','proved','C24_guard C24_allowed C24_not_consulted checkVersionControl_iff')
c('C32','proved','C32_schedule_independent C32_isolated C32_all_finish','Files are identified by their path; two paths naming one file (links) are outside the model.')
c('C33','proved','C33_crash_consistent C33_untouched','fs::write itself is one step; a kill inside it may truncate the file (finding).')
c('C27','proved','C27_sorted C27_order_independent C27_run','Full determinism: equal positions keep the order within the file.')
c('C28','partial','C28_exit_code_partial C28_false_statistics C28_false_add_ignore','False with --statistics / --add-jarl-ignore (finding F5, negations proved); proved otherwise.')
c('C29','proved','C29_hidden_all_or_none')
c('C30','proved','C30_statistics C30_printed')
c('C34','proved','C34_untouched C34_edited')
c('C35','proved','C35_reported bad_collected','Stated for R files; for chunks of documents see C16.')
c('C36','proved','C36_flags')
c('C37','proved','C37_reported_code_never_runs C37_reported_top_level_code_never_runs C37_false_bare_return','Soundness of the CFG analysis against an independent execution semantics (Spec/Exec.lean). The exclusion of bare `return` is needed (C37_false_bare_return, finding F17).')
c('C38','proved','C38_dead_code_is_reported','Dead is the syntactic notion of Spec/Dead.lean, with conditions judged semantically (Can).')
c('C39','proved','C39_reports_in_order C39_top_level_in_order C39_code_after_jump C39_top_level_code_after_jump C39_top_level_reports C39_code_after_executable_jump C39_false_dead_branch_message','The message of a dead branch can be wrong (proved, finding F18).')
c('C40','proved','C40_stopping_functions')
c('C41','proved','C41_offset_to_position C41_diagnostic_position C41_position_to_offset C41_any_position C41_order C41_overlap C41_insertion_position_utf8 C41_false_insertion_position C41_insertion_position_ascii','Finding F19: the insertion place of jarl-ignore comments counts bytes whatever the encoding (negation proved, exact condition proved).')
c('C42','partial','C42_end_to_start C42_single_change C42_history C42_false_sequential C42_false_crash C42_full_replacement_refused','Proved for end-to-start change lists; false in general (finding F20, witnesses proved).')
c('C43','proved','C43_pattern C43_inner_slash_never_matches C43_excluded C43_no_settings_excludes_nothing','Patterns with an inner slash never match (finding F21, proved for all of them).')
c('C44','proved','C44_edit_deterministic C44_diagnostics C44_fix_action','Byte ranges of reports and fixes are assumed to lie between characters (they come from the parser).')
c('C45','partial','C45_r_file C45_offered C45_not_twice C45_document_inline C45_chunk_action C45_chunk_action_edit C45_false_document C45_false_document_witness C45_false_unexplained_hides_action','True in R files and for the chunk action; in documents the line is always wrong (finding F22, proved for all documents).')
c('C46','partial','C46_published C46_main_loop_survives C46_everything_done C46_workers_finish C46_single_worker C46_closing_clears C46_false_stale_diagnostics C46_false_closed_document C46_false_after_panics C46_false_bad_request C46_false_lint_error','Safety and completion proved for every schedule; "the editor displays the last save" is proved for one worker and refuted for two workers, closed documents, failing and panicking analyses (finding F23).')
c('C47','proved','C47_nearest_config C47_argument_order C47_each_file_once C47_editor C47_false_user_config C47_false_user_config_loaded','PathResolver (a dependency) is modelled by its documentation: the closest registered directory. Files inside the user configuration directory are excluded. Finding F24: the user-level configuration is not used by jarl check (negation proved for all file systems).')
c('C48','proved','C48_scan C48_range C48_reported C48_sorted C48_deterministic C48_false_given_twice C48_false_in_string C48_false_next_line C48_false_stale_after_fix C48_false_stale_in_editor','char::is_alphanumeric, the order of paths and the disk are parameters. Findings F16 and F25 (stale ranges) proved.')
c('C49','proved','C49_mentioned C49_unused_message C49_namespace C49_reported C49_sorted C49_deterministic C49_no_namespace C49_tests C49_scope C49_false_non_ascii C49_false_multiline_export C49_false_two_exports C49_false_comment C49_false_subdirectory C49_false_src_directory','Proved for ASCII names, against an independent grammar of lines, words and NAMESPACE directives; finding F26 lists (with proofs) where the notion of use differs from what R does. The regex engine is a parameter.')
c('C50','proved','C50_grammar_unambiguous','The grammar is part of the specification (after ?Syntax in the R manual); `?` and `:=` are left out.')
c('C51','partial','C51_fixes_keep_structure C51_fixes_with_room safe_repeatRule safe_unnecessaryNesting safe_expectNot room_coalesce safe_assignment_eq room_assignment_right room_assignment_left C51_false_any_duplicated C51_false_length_test C51_false_comparison_negation C51_false_comparison_negation_lines C51_false_redundant_ifelse C51_false_outer_negation C51_false_all_equal C51_false_coalesce C51_false_coalesce_unreadable C51_false_assignment C51_false_assignment_equal C51_false_repeat C51_false_unnecessary_nesting C51_false_expect_not','Proved at every place for 33 fixes (31 rules); for the 12 others proved under conditions on the place and refuted without them (finding F27). sprintf included.')
c('C52','proved','C52_fixes_as_documented C52_fix_result lawRules_cover C52_false_any_is_na C52_false_any_duplicated C52_false_which_grepl C52_false_length_test C52_false_outer_negation C52_false_equals_null C52_false_sample_int C52_false_sample_int_comma C52_false_grepv C52_false_expect_true_false C52_false_expect_not C52_false_string_boundary C52_false_assignment C52_false_coalesce C52_false_repeat C52_false_system_file C52_false_fixed_regex C52_false_lengths','45 fixes of 42 rules against a table of documented rewritings (Spec/RLaws), each under a condition stated there; where the code does not check the condition a program is given on which the fix puts in something else (finding F28). Comments inside the replaced code and the right side of a pipe are excluded. Abbreviated argument names are not modelled.')
c('C53','proved','C53_looked_at C53_loop_variables C53_once C53_rules_once C53_proposed C53_every_rule_called C53_fix_table C53_false_everything_checked C53_false_everything_checked_extract','Exact description of what is looked at; that code in front of [ and $ is not is finding F15, proved. Suppressions and document rules come later in the pipeline (C08, C16, C21).')
c('C54','proved','C54_invalid_iff C54_valid_passes C54_invalid_found C54_useless C54_mismatch C54_mismatch_numbered C54_mismatch_message C54_call C54_reported C54_after_pipe C54_fix C54_false_gap C54_false_mixed C54_false_blank C54_false_zero C54_false_written C52_false_sprintf C52_false_sprintf_codes','The text of the string is taken as it is written: characters written with codes ("\\x25s") are not seen as %; what goes wrong with gaps in the positions, mixed positions, ... and named arguments is proved (finding F30).')
c('C55','proved','C55_reports C55_rule_table C55_if_always_true C55_if_always_true_constants C55_if_else C55_vector_logic C55_vector_logic_advice C55_implicit_assignment C55_implicit_found C55_implicit_statement C55_for_loop_dup_index C55_for_loop_index C55_browser C55_undesirable_function C55_internal_function C55_empty_assignment C55_download_file C55_duplicated_arguments C55_duplicated_arguments_found C55_duplicated_arguments_skipped C55_options C55_false_implicit_bodies C55_false_for_loop_index C55_false_dup_index C55_false_duplicated C55_false_download','Eleven rules. A small semantics of conditions is part of the specification (Spec/RReports): numbers as decimal literals rounded as doubles, three-valued logic, recycling, errors. What one would expect from the documentation and does not hold is proved (finding F31). The reading of decimal numbers by Rust (parse::<f64>) is taken to be correctly rounded.')
c('C56','proved','C56_rule_fails C56_refused C56_first C56_false_crash C56_false_crash_pipe C56_false_refused C56_false_crash_sample','All `?`, context and unwrap in the rules were read; those not listed are on parts that a tree without syntax errors has, which is not proved (part of the model). Finding F32: crashes and refusals with the default rules. fix mode and suppressions do not change it.')
c('C57','proved','C57_fixes_together C57_cuts_possible C57_cuts_unique C57_pass C57_proposed C57_passes C57_as_documented C57_ex_two','On tokens, as C51; that apply_fixes makes exactly the cuts that do not overlap is C18 (and false in the cases of C19, finding F1). Blanks within a line are not part of the model, so two tokens run together (else"a" == NA) are not seen.')
c('C58','proved','C58_concise C58_prints C58_errors C58_false_lines C58_false_one_line C58_false_link','Standard output and standard error are two texts; how they interleave is not modelled. Colours off (as in a pipe) and NO_COLOR set; otherwise finding F37. Errors other than those of version control and panics (these end the run, C28).')
c('C59','proved','C59_github C59_false_errors C59_false_one_line C59_false_comma C59_false_colons','The GitHub runner is modelled after actions/runner (ActionCommand.TryParseV2) in the specification. Findings F34-F36.')
c('C60','proved','C60_json C60_faithful C60_false_no_files C60_false_statistics','serde_json::to_string_pretty is modelled (Json.lean); the reader of JSON in the specification is independent of it. Finding F33.')
c('C61','proved','C61_summary C61_disjoint C62_sections C61_false_width','The threshold is the value of JARL_N_VIOLATIONS_HINT_STAT (parameter). Finding F38.')
c('C62','proved','C62_deprecated C62_sections','One rule is deprecated at this commit. The texts of the other warnings (parent configuration, timing) are assumed to be single lines.')
c('C63','proved','C63_found C63_comparison_negation C63_assignment C63_pipes C63_enabled C63_false_expect_true_false C63_false_expect_null C63_false_expect_length C63_false_redundant_ifelse C63_false_matrix_apply C63_false_list2df C63_false_lengths C63_false_expect_match C63_false_is_numeric C63_false_sort C63_false_coalesce C63_false_class_equals C63_false_parentheses C63_false_comparison_negation','40 rules against the table of documented rewritings of C52, each under a condition stated in Spec/RFound; where a condition is one that a user would not expect a program is given on which the rule is silent (finding F39). The layout is everything between tokens; comments do not matter.')
c('C64','proved','C64_fixes_keep_comments C64_comments_around C64_commented_code_is_skipped C64_pass C64_passes C64_false_comment_above C64_false_comment_behind C64_false_assignment C64_false_all_equal C64_not_always','All 45 fixes. The exceptions are stated as `Guarded` in Spec/RComments and each is shown to be needed (finding F40). Comments are marks in the gaps between tokens; their text is not in the model.')
c('C65','proved','C65_settings C65_accepted C65_refused C65_empty C65_skipped C65_file C65_false_unreadable','From the TOML document on (the crate `toml` reads the text); `Means` in Spec/Toml is the documentation. Options written as an array where a table is expected are outside the model. A file that exists but is not readable text crashes jarl (C65_false_unreadable, finding F24).')
c('C66','proved','C66_one_reading C66_lossless C66_gaps C66_text C66_pass C66_passes C66_ranges C66_apart C66_in_text C66_apply_fixes C66_no_panic C66_fix_file C66_ex_two C66_ex_file C66_false_glued','The lexer is a specification (Spec/RText, after gram.y), as is the grammar; raw strings, `?`, `:=`, `**` and blanks around `::` are left out. For `keepingRules`, texts of fixes that spell the tokens of RRules, `SameExtraBytes` (C18) fixes of one pass that may overlap but are `Apart` (C19) and `Airy` (needed: C66_false_glued, finding F42). C66_ex_*: the hypotheses can be met.')
c('C67','proved','C67_bounded C67_text_bounded C67_fix_ends C67_runs_end C67_ex_two C67_ex_loop C67_ex_file C67_false_keeping','A weight of programs that every fix lowers (Lemmas/RWeight), rule by rule, also when several fixes are carried out at once. For `endingRules want` (Spec/RTogether), which are all rules with fixes, four of them where operands stay whole and fixed_regex where `fixed` is not given or FALSE; with all of fixed_regex it is false (C67_false_keeping). C67_fix_ends and C67_runs_end assume of the lints that they report fixes of these rules that keep the structure (ReportsGoodFixes).')
c('C68','proved','C68_checked C68_run C68_pattern C68_exclude C68_include C68_one_config C68_no_config C68_explicit C68_arguments C68_default_patterns C68_no_default_exclude C68_nearest_config C68_threads C68_missing C68_ex_project C68_ex_run C68_false_renv_argument C68_false_explicit C68_false_include_depth C68_false_once C68_false_missing','The walker and its patterns are those of the crate `ignore`, modelled by its documentation (no character classes, alternatives, backslashes, empty patterns, links). Which configuration is the first one of the resolver is left open. Findings F16, F44, F45, F46.')
c('C69','partial','C69_own_config_partial C69_false_own_config C69_false_excluded_directory C69_false_argument_order C69_false_nested_exclude C69_false_nested_rules_above C68_one_config','The full claim is false (C69_false_…, finding F43); proved: the part about include and patterns for the file itself, and everything for a single configuration above the arguments (C68_one_config).')
c('C70','partial','C70_agree_partial C70_ex_agree C70_ex_values C70_above_nothing C70_false_path_pattern C70_false_directory_name C70_false_directory_star C70_false_above C70_false_hidden C70_false_include','The full claim is false (C70_false_…, findings F21 and F47); proved where both understand the patterns, with the conditions in the statement. C70_ex_agree: five files meet the hypotheses.')
c('C71','partial','C71_beside_partial C71_not_found C71_false_package C71_beside_example C71_not_found_example C72_false_version','The full claim is false (C71_false_package, finding F48): proved where files lie beside the DESCRIPTION, and proved that otherwise the version is never found.')
c('C72','proved','C72_same_report C72_example C72_example_status C72_false_version','The whole command (Run.lean) from the tree of files to the report; the parser, the rules and regular expressions are parameters. C72_example: two runs with all orders reversed meet the hypotheses; C72_false_version: the condition about DESCRIPTION files is needed (finding F49).')
c('C73','partial','C73_editor_partial C73_example C73_editor_hides C73_hides_example C73_false_tests C73_false_threshold','The full claim is false (C73_false_tests, C73_false_threshold, C47_false_user_config, C70_false_…; finding F50). Proved: for files in R/, documents and files outside the analysed directories of packages, with one configuration in force, all reports agree except those of unused_function, and these too when the settings name the rule. C73_editor_hides: exactly when the editor hides the reports of unused_function.')
c('C74','proved','C74_only_found C74_only_fixes C74_each_alone C74_same_outcome C74_same_one_config C74_recheck C74_example C74_recheck_example C74_one_config_example','The whole command with fixing (RunFix.lean). C74_each_alone, C74_same_outcome and C74_recheck: several configurations, without the two package-wide rules (fixing a file of one configuration can change the package analysis of another); C74_same_one_config: with them, one configuration. C74_recheck for runs in which no selected rule is held back (with --fix alone, rules with unsafe fixes are not run). The examples meet the hypotheses.')
c('C75','partial','C75_refused_partial C75_refused_example C75_changed_partial C75_changed_example C75_one_config C75_one_config_example C75_false_own_changes C75_false_uncovered C75_false_config','The full claim is false (C75_false_…, findings F51 and F52): git is asked for each configuration separately, after the files of the earlier ones were fixed. Proved: with one configuration the full claim holds (C75_one_config, for rules that do not themselves fail with this error); if git refuses the files of every configuration, nothing changes and only these errors are reported; every change was allowed by git when the files of its configuration were unchanged (C75_changed_partial).')
c('C76','proved','C76_encoding C76_hidden_once C76_hidden_count C76_config_once C76_config_named C76_refines C76_race','The machine of C46 in finer steps (LspNotice.lean): asking and setting the flag is one atomic step, showing and publishing are separate. Sending is assumed to succeed. C76_race: two workers that both find hidden reports before the flag is set.')
c('C77','partial','C77_same_program_partial C77_outside C77_short_tokens C77_editor C77_false_string C77_ex','False in general (F12): the fallback place can be inside a string with a line break (C77_false_string). Proved: every other comment keeps the program (C77_same_program_partial; in the editor C77_editor); no comment for a report in an operation or call is inside a token (C77_outside); nothing can go wrong in files without line breaks in strings (C77_short_tokens). biome covering_element is external: the search may begin at any node. A reason with a line break is refused by the command (check.rs 277).')
c('C78','partial','C78_added C78_failures C78_changed C78_summary C78_order C78_files C78_false_errors C78_false_hidden C78_ex','Proved: the lines about the files are exact, in both directions (C78_added, C78_failures), no change is silent (C78_changed), the summary adds up (C78_summary), the order (C78_order). False: files that do not parse are not named and the run says that there are no violations with exit code 0 (F53, C78_false_errors); reports hidden by jarl check get comments (F54, C78_false_hidden).')
c('C79','partial','C79_safe_fixes_keep_values_partial C79_around_partial C79_passes_partial C79_file_partial C79_ex_passes C79_ex_file C79_false_redundant_equals C79_false_redundant_ifelse C79_false_is_numeric C79_false_any_is_na C79_false_any_is_na_package C79_false_equals_na C79_false_equals_na_names C79_false_class_equals C79_false_class_identical C79_false_lengths C79_false_lengths_names C79_false_seq C79_false_seq_names C79_false_seq2 C79_false_sort C79_false_sample_int C79_false_string_boundary C79_false_unnecessary_nesting C79_false_true_false_symbol','Proved for the 22 rules of valueRules (24 entries), under the conditions on code of C52 and conditions on values; every condition on values is shown to be needed (C79_false_…: the full claim is false, findings F55 to F66), except that regular expressions without special characters stand for themselves (plainRegex), which is about R. C79_around_partial: the same for the whole described code around a fix (operators, if, braces with one statement, indexing, the 34 described functions). C79_passes_partial: for any number of passes with any number of fixes each, in the piece of code and elsewhere in the program. C79_file_partial: for fixing a file (lintFix), under these conditions on what is reported for the texts on the way. Not covered: the rules for testthat (expect_*), matrix_apply, list2df, system_file, grepv, repeat, assignment, sprintf, all_equal, length_test, equals_nan, equals_null and the functions of purrr. What R computes is a specification of a piece of R, written after its documentation (Spec/RValue.lean): no side effects, no attributes but names, classes and levels; code not described (unknown) can compute anything, but neither side is then compared.')
c('C80','proved','C80_reports C80_said_ranges C80_found C80_fixes C80_fix_ranges C80_handed_on C80_refused C80_failures C80_ex_handed_on C80_ex_said_ranges C80_ex_fix_ranges ruleLints_runs C80_ex_check C80_ex_reports C80_ex_found C80_ex_fixes','Not counted here, as no example of its hypotheses is given: C80_reports_fixes and C80_pass (Props/RPass.lean), one pass of --fix with the modelled rules. Joins the rules (C52, C53, C55, C56, C63), the texts (C66), the suppressions (C08) and the settings (C07) to the check of a file: RunsRules says that the lint rules are the modelled ones; ruleLints_runs shows that such lints exist. The conditions of C63 stay (foundRules). Open (any function): the wording of messages and the text of fixes, and the reports without fix of rules that also propose fixes, of unreachable_code in functions and of true_false_symbol for loop variables. C80_reports is exact; C80_found is one direction, the other is C80_fixes for reports with a fix.')
c('C81','proved','C81_colours brightEnv exPrinted_unescaped','The terminal is specified in Spec/Screen.lean (ECMA-48 control sequences, operating system commands). Hypotheses: no escape character in names of files and messages; in the full format the external renderer adds nothing but escape sequences (RendersPlain). JSON has no colours at all (C60). An example with colours meets the hypotheses.')
c('C82','partial','C82_documented_partial C82_rows C82_false_class_equals C82_false_default C82_false_no_fix C82_false_name','The full claim (all rules) is false: findings F67 to F70, with the negations proved (C82_false_…). C82_documented_partial is about every rule but the six of misdocumented. docTable is docs/rules.qmd 51-114.')
