{"id": "C01", "title": "Rule names identify rules", "statement": "Looking up a rule by its published name returns that rule, no string is the name of two rules, and a string that is not a published name is never resolved to a rule.", "quantifier": "every rule in the table and every string", "why_tests_cant": "the negative direction ranges over all strings", "anchors": ["crates/jarl-core/src/rule_set.rs: declare_rules!, Rule::name, Rule::from_name, ALL_RULES"]}
{"id": "C02", "title": "Rule selection = (select or default) + extend-select - ignore", "statement": "The rules that run are exactly: the rules named by --select if given, else by `select` in jarl.toml if given, else the default-enabled rules; plus those named by --extend-select if given else by `extend-select`; minus everything named by --ignore or `ignore`; minus the rules the R-version gate removes. Groups and ALL stand for their member rules.", "quantifier": "every combination of CLI strings, TOML lists, R version and rule", "why_tests_cant": "the space of CLI/TOML combinations is unbounded", "anchors": ["crates/jarl-core/src/config.rs: parse_rules_cli, parse_rules_toml, replace_group_rules, reconcile_rules, build_config"]}
{"id": "C03", "title": "Ignore always wins", "statement": "A rule named (directly, through its group, or through ALL) in --ignore or in TOML `ignore` is never run, whatever select/extend-select say.", "quantifier": "every configuration that names a rule in an ignore list", "why_tests_cant": "must hold for all list contents and orders", "anchors": ["crates/jarl-core/src/config.rs: reconcile_rules"]}
{"id": "C04", "title": "Unknown rule names are rejected, known ones are accepted", "statement": "Building the configuration fails whenever any select/extend-select/ignore/fixable/unfixable list contains, after trimming, a string that is not a rule name, a group or ALL (including the empty string), and never fails because of the lists otherwise.", "quantifier": "every CLI string and TOML list", "why_tests_cant": "negative direction ranges over all strings", "anchors": ["crates/jarl-core/src/config.rs: get_invalid_rules, parse_rules_cli, parse_rules_toml, parse_fixable_toml"]}
{"id": "C05", "title": "R-version gate", "statement": "A rule that needs R >= v only runs when the project's minimum R version is known and is >= v; rules without requirement are unaffected; raising the minimum version never disables a rule.", "quantifier": "every rule set and every version triple", "why_tests_cant": "all version triples", "anchors": ["crates/jarl-core/src/config.rs: filter_rules_by_version"]}
{"id": "C06", "title": "Unsafe fixes need --unsafe-fixes", "statement": "When fixes are applied without --unsafe-fixes, no diagnostic of a rule whose fix is unsafe is produced, so no unsafe fix reaches the file.", "quantifier": "every flag combination and every configuration", "why_tests_cant": "all configurations", "anchors": ["crates/jarl-core/src/config.rs: build_config", "crates/jarl-core/src/check.rs: get_checks"]}
{"id": "C07", "title": "fixable / unfixable only affect fixes, and do so completely", "statement": "A diagnostic whose rule is listed in `unfixable`, or is absent from a given `fixable` list, or whose rule has no fix, or whose node holds comments, carries no fix; every other diagnostic keeps its fix unchanged; rule, message, and range of every diagnostic are unaffected and none is added, dropped or reordered.", "quantifier": "every diagnostic list and every fixable/unfixable sets", "why_tests_cant": "all lists", "anchors": ["crates/jarl-core/src/check.rs: get_checks"]}
{"id": "C08", "title": "A diagnostic is hidden iff a suppression covers it", "statement": "After suppression filtering, exactly those diagnostics remain for which there is no file- or chunk-level suppression of their rule, no start/end region of their rule containing their range and no node suppression of their rule whose node contains their range. Remaining diagnostics keep order and content.", "quantifier": "every set of suppressions and every list of diagnostics", "why_tests_cant": "all lists", "anchors": ["crates/jarl-core/src/suppression.rs: filter_diagnostics, is_diagnostic_suppressed", "crates/jarl-core/src/analyze/document.rs: check_document"]}
{"id": "C09", "title": "The suppression fast path changes nothing", "statement": "For a source text that does not contain `jarl-ignore`, skipping comment processing gives the same suppression state as processing all comments; and when no valid directive was found, skipping the filter gives the same diagnostics as running it.", "quantifier": "every source text / comment forest", "why_tests_cant": "all texts", "anchors": ["crates/jarl-core/src/suppression.rs: from_node, filter_diagnostics"]}
{"id": "C10", "title": "outdated_suppression is reported iff the suppression hid nothing", "statement": "A valid suppression comment is reported as outdated exactly when it is not the first matching suppression (file, chunk, region, node order) of any diagnostic; in particular removing a comment reported as outdated never makes a hidden diagnostic reappear.", "quantifier": "every set of suppressions and every list of diagnostics", "why_tests_cant": "all lists", "anchors": ["crates/jarl-core/src/suppression.rs: get_unused_suppressions, is_diagnostic_suppressed"]}
{"id": "C11", "title": "Directive grammar", "statement": "A comment is taken as a valid suppression iff it has the documented form (`#` or `# `, directive word, known rule name, `:` and a non-blank explanation; `-end` needs no explanation); a comment without explanation, rule or with unknown rule never suppresses anything; `#|` never introduces a non-chunk directive.", "quantifier": "every comment text", "why_tests_cant": "all strings", "anchors": ["crates/jarl-core/src/directive.rs: parse_comment_directive, parse_rule_with_explanation, parse_quarto_chunk_array_item"]}
{"id": "C12", "title": "start/end regions", "statement": "Every region suppression spans from a start comment to a later-processed end comment of the same rule at the same nesting level with no other start/end of that rule and level in between; every start comment with no such end and every end comment with no such start is reported as unmatched, except a start superseded by another start.", "quantifier": "every sequence of directives", "why_tests_cant": "all sequences", "anchors": ["crates/jarl-core/src/suppression.rs: process_comment, from_node"]}
{"id": "C13", "title": "Auto-inserted comments are valid directives", "statement": "Each line written by the `--add-jarl-ignore`/editor 'ignore this violation' text generator for a known rule and a non-blank one-line reason is parsed back as a valid `ignore` directive for precisely that rule; one line per rule, in order.", "quantifier": "every rule list, reason and indentation", "why_tests_cant": "all strings", "anchors": ["crates/jarl-core/src/suppression_edit.rs: format_suppression_comments", "crates/jarl-core/src/directive.rs: parse_comment_directive"]}
{"id": "C14", "title": "Rmd/Qmd chunk extraction is faithful", "statement": "Each extracted chunk's code is precisely the slice of the document at its start offset; it consists of whole lines strictly between an R opening fence line and the first following line that is, trimmed, the same backtick fence; chunks are in document order and do not overlap; unclosed chunks yield nothing.", "quantifier": "every document", "why_tests_cant": "all documents", "anchors": ["crates/jarl-core/src/rmd/extraction.rs: extract_r_chunks"]}
{"id": "C15", "title": "Rmd diagnostics point at the right text and never carry fixes", "statement": "For an Rmd/Qmd file, the document slice at a reported diagnostic's range equals the chunk slice the rule reported on, and no diagnostic carries a fix.", "quantifier": "every document and every chunk diagnostic", "why_tests_cant": "all documents", "anchors": ["crates/jarl-core/src/check.rs: get_checks_rmd"]}
{"id": "C16", "title": "jarl-ignore-file in Rmd spans all chunks, only from the first chunk", "statement": "Rules suppressed by jarl-ignore-file in the first chunk are reported in no chunk; jarl-ignore-file in later chunks suppresses nothing and is reported as misplaced; a chunk suppression affects only its own chunk.", "quantifier": "every list of chunks with suppressions and diagnostics", "why_tests_cant": "all lists", "anchors": ["crates/jarl-core/src/check.rs: get_checks_rmd"]}
{"id": "C17", "title": "Reported row and column locate the diagnostic", "statement": "The reported row is 1 + number of newlines before the start of the range, and the column is the byte distance from the start of that line.", "quantifier": "every text and every offset", "why_tests_cant": "all texts", "anchors": ["crates/jarl-core/src/utils.rs: find_row_col, find_new_lines_from_content, compute_lints_location"]}
{"id": "C18", "title": "Applying fixes rewrites only the fixed ranges", "statement": "When the fixes are sorted and disjoint, the new file content is the original with each applied fix's range replaced by its replacement and all other text unchanged.", "quantifier": "every text and every list of fixes", "why_tests_cant": "all texts and lists", "anchors": ["crates/jarl-core/src/fix.rs: apply_fixes"]}
{"id": "C19", "title": "Overlapping fixes are not both applied in one pass", "statement": "A fix whose range overlaps a previously applied fix is skipped and the pass reports that some fix was skipped.", "quantifier": "every text and every list of fixes", "why_tests_cant": "all texts and lists", "anchors": ["crates/jarl-core/src/fix.rs: apply_fixes"]}
{"id": "C20", "title": "No fix, no change", "statement": "If no diagnostic carries a fix, the fix pass leaves the text unchanged and reports no skipped fix.", "quantifier": "every text and list of fixless diagnostics", "why_tests_cant": "all", "anchors": ["crates/jarl-core/src/fix.rs: apply_fixes", "crates/jarl-core/src/diagnostic.rs: Fix::empty"]}
{"id": "C21", "title": "What --fix reports is what is left on disk", "statement": "When fixing a file succeeds, the diagnostics returned are those of the content finally on disk (the two package-wide rules excepted: they use an analysis made before the fixes); the content is reached from the original by successive fix passes; a file that fails to parse is left untouched by that pass; Rmd/Qmd files and runs without --fix/--unsafe-fixes never write.", "quantifier": "every file content and every rule behaviour (rules as an arbitrary function from text to diagnostics)", "why_tests_cant": "all rule behaviours", "anchors": ["crates/jarl-core/src/check.rs: lint_fix, lint_only, check_path"]}
{"id": "C22", "title": "The fix loop terminates when fixes make progress", "statement": "If every pass that skips a fix strictly decreases some natural-number measure of the text, the fix loop stops; a pass that skips nothing is the last writing pass. Without such a measure it may not stop: `grep(\"a\", grep(\"b\", x, fixed = T), fixed = T)` is fixed for ever (fixed_regex adds `fixed = TRUE` in every pass).", "quantifier": "every file content and every rule behaviour", "why_tests_cant": "termination for all", "anchors": ["crates/jarl-core/src/check.rs: lint_fix"]}
{"id": "C23", "title": "--add-jarl-ignore only inserts text", "statement": "The file written by --add-jarl-ignore is the original file with suppression-comment text inserted: deleting the inserted pieces gives back the original, each diagnostic's rule is named in a comment inserted at its insertion point and no rule is named twice at one point.", "quantifier": "every file and every list of diagnostics", "why_tests_cant": "all lists", "anchors": ["crates/jarl/src/commands/check.rs: add_jarl_ignore_comments", "crates/jarl-core/src/suppression_edit.rs"]}
{"id": "C24", "title": "VCS guard", "statement": "With --fix or --unsafe-fixes and no --allow-no-vcs, if a path is outside a repository, no file is modified; and without --allow-dirty the same holds if any involved repository has a non-clean entry. Without fixing flags the guard is never consulted.", "quantifier": "every set of paths and repository states", "why_tests_cant": "all states", "anchors": ["crates/jarl-core/src/check.rs: check", "crates/jarl-core/src/vcs.rs: check_version_control"]}
{"id": "C25", "title": "R version strings", "statement": "`x.y` and `x.y.z` with decimal u32 components parse to that triple (missing patch = 0); anything else is rejected.", "quantifier": "every string", "why_tests_cant": "all strings", "anchors": ["crates/jarl-core/src/config.rs: parse_r_version"]}
{"id": "C26", "title": "DESCRIPTION Depends parsing", "statement": "The R version taken from DESCRIPTION is that of the first `R (...)` entry of the last Depends field, independent of other fields and of line folding.", "quantifier": "every DESCRIPTION text", "why_tests_cant": "all texts", "anchors": ["crates/jarl-core/src/description.rs"]}
{"id": "C27", "title": "Output order is deterministic", "statement": "The reported list is sorted by file then range, and is, up to diagnostics with the same file and range, independent of the order in which files were processed.", "quantifier": "every processing order", "why_tests_cant": "all permutations/schedules", "anchors": ["crates/jarl/src/commands/check.rs: check", "crates/jarl-core/src/diagnostic.rs: Ord for Diagnostic"]}
{"id": "C28", "title": "Exit status", "statement": "Exit code is 255 if any file could not be processed, else 1 if any diagnostic is reported, else 0.", "quantifier": "every run result", "why_tests_cant": "all results", "anchors": ["crates/jarl/src/commands/check.rs: check", "crates/jarl/src/status.rs", "crates/jarl/src/statistics.rs"]}
{"id": "C29", "title": "unused_function hiding", "statement": "unused_function diagnostics are hidden all or none: all iff their number exceeds the smallest configured threshold (50 by default) and the rule is not explicitly selected; other diagnostics are never affected.", "quantifier": "every result list and configuration", "why_tests_cant": "all lists", "anchors": ["crates/jarl/src/commands/check.rs: hide_unused_function_if_needed"]}
{"id": "C30", "title": "Statistics count every diagnostic once", "statement": "--statistics prints, per rule name, the exact number of diagnostics of that rule, sorted decreasingly, and the counts sum to the number of diagnostics.", "quantifier": "every diagnostic list", "why_tests_cant": "all lists", "anchors": ["crates/jarl/src/statistics.rs: print_statistics"]}
{"id": "C31", "title": "Place of an inserted suppression comment", "statement": "A suppression comment for a diagnostic is inserted at the start of the line of the diagnostic or of an expression enclosing it, or right in front of an enclosing expression; a place is always found when the diagnostic lies in the file.", "quantifier": "every syntax tree and diagnostic range", "why_tests_cant": "all trees", "anchors": ["crates/jarl-core/src/suppression_edit.rs"]}
{"id": "C32", "title": "Files do not influence each other, whatever the thread schedule", "statement": "However the reads and writes of the worker threads interleave, each file ends with the same text and the same result, namely those of checking that file alone.", "quantifier": "every interleaving of the threads, every set of distinct files, every I/O fault", "why_tests_cant": "all schedules", "anchors": ["crates/jarl-core/src/check.rs: check, check_path, lint_fix, lint_only"]}
{"id": "C33", "title": "An interrupted fixing run leaves whole passes", "statement": "If a --fix run is killed between system calls, every R file holds the result of a whole number of fix passes on its original text (or a failed write has been reported for it); files not yet treated, Rmd/Qmd files and all files of runs without fixing flags are unchanged.", "quantifier": "every crash point of every schedule", "why_tests_cant": "all crash points", "anchors": ["crates/jarl-core/src/check.rs: lint_fix"]}
{"id": "C34", "title": "--add-jarl-ignore touches only the files with diagnostics", "statement": "After --add-jarl-ignore, a file in which nothing was found is unchanged (and all files are when the reason contains a line break); a file with diagnostics is its own text with comments for its own diagnostics inserted.", "quantifier": "every run result, every file system", "why_tests_cant": "all results", "anchors": ["crates/jarl/src/commands/check.rs: add_jarl_ignore_comments"]}
{"id": "C35", "title": "Suppression comments that do nothing are reported", "statement": "A comment that looks like a suppression but has no effect (at the end of a line of code, without rule, without explanation, with an unknown rule, in the wrong form or place, without its matching start or end) is reported, at its place, by the rule for this kind of mistake when that rule is enabled and not itself suppressed; no other comment is reported by these rules.", "quantifier": "every syntax tree with attached comments, every rule set", "why_tests_cant": "all trees and comments", "anchors": ["crates/jarl-core/src/suppression.rs: SuppressionManager::from_node, process_comment", "crates/jarl-core/src/analyze/document.rs: check_document", "crates/jarl-core/src/lints/comments"]}
{"id": "C36", "title": "Command line flags reach the configuration", "statement": "--fix, --unsafe-fixes, --allow-dirty and --allow-no-vcs are taken from the command line as given; --assignment accepts exactly `<-` and `=` and overrides the configuration file.", "quantifier": "every command line and configuration file", "why_tests_cant": "all inputs", "anchors": ["crates/jarl-core/src/config.rs: build_config, parse_assignment_cli"]}
{"id": "C37", "title": "Code reported as unreachable never runs", "statement": "Whatever the values of conditions, the number of loop iterations and the behaviour of calls (other than return/break/next and the configured stopping functions, which do not complete normally), no run of a function (or of the top level of a file) executes a statement that starts inside a range reported by unreachable_code. (Code that uses `return` without parentheses is excluded: finding.)", "quantifier": "every program, every execution (including infinite ones), every list of stopping functions", "why_tests_cant": "all programs and all executions", "anchors": ["crates/jarl-core/src/lints/base/unreachable_code/cfg/builder.rs: CfgBuilder", "crates/jarl-core/src/lints/base/unreachable_code/cfg/graph.rs", "crates/jarl-core/src/lints/base/unreachable_code/cfg/reachability.rs: find_unreachable_code", "crates/jarl-core/src/lints/base/unreachable_code/unreachable_code.rs"]}
{"id": "C38", "title": "Visibly dead code is reported", "statement": "In a function, every statement after a jump (return, stop and equivalents, break/next in a loop) or after an if/else all of whose possible branches contain a jump, and every branch excluded by its condition whatever the values of the variables in it, lies in a reported range; at every nesting depth of if/else and loops.", "quantifier": "every function body", "why_tests_cant": "all nestings", "anchors": ["crates/jarl-core/src/lints/base/unreachable_code/cfg/builder.rs", "crates/jarl-core/src/lints/base/unreachable_code/cfg/reachability.rs", "crates/jarl-core/src/lints/base/unreachable_code/unreachable_code.rs"]}
{"id": "C39", "title": "Code after a jump is reported once, with the matching explanation", "statement": "When a jump that nothing visible prevents is followed by statements in its block, a single diagnostic covers all of them and says whether they follow a return, a stop (or equivalent), a break or a next; at the top level of a file this holds except for return. The reports of a function come in the order of the code, each under the name unreachable_code and without a fix.", "quantifier": "every function body and every top-level program", "why_tests_cant": "all programs", "anchors": ["crates/jarl-core/src/lints/base/unreachable_code/cfg/reachability.rs: determine_unreachable_reason", "crates/jarl-core/src/lints/base/unreachable_code/unreachable_code.rs"]}
{"id": "C40", "title": "Configured stopping functions", "statement": "Without options the documented list of never-returning functions applies; stopping-functions replaces it; extend-stopping-functions adds to it; giving both is an error.", "quantifier": "every pair of option lists", "why_tests_cant": "all lists", "anchors": ["crates/jarl-core/src/rule_options/mod.rs: resolve_with_extend", "crates/jarl-core/src/rule_options/unreachable_code.rs"]}
{"id": "C41", "title": "Editor positions are exact", "statement": "In the language server, for every document and each of the three position encodings, the byte offset of any place between two characters is converted to the line and column the protocol prescribes and back to the same offset; order is preserved, so ranges are never inverted; any position a client may send is either refused or converted without a crash. (The place of inserted jarl-ignore comments is wrong after non-ASCII text: finding.)", "quantifier": "every document text, encoding, offset and position", "why_tests_cant": "all texts, characters and positions", "anchors": ["crates/jarl-lsp/src/document.rs: TextDocument::position_to_offset, offset_to_position", "crates/jarl-lsp/src/lint.rs: byte_offset_to_lsp_position", "crates/jarl-lsp/src/server.rs: offset_to_position, ranges_overlap"]}
{"id": "C42", "title": "The server's copy of a document follows the editor", "statement": "After every history of change notifications whose changes go from the end of the document to its start (in particular a single change per notification), the server's text is the client's text, in every encoding. (For other orders the protocol allows, the copy can silently differ or the server can crash: findings.)", "quantifier": "every document, every history of notifications, every encoding", "why_tests_cant": "all histories", "anchors": ["crates/jarl-lsp/src/document.rs: TextDocument::apply_changes"]}
{"id": "C43", "title": "Excluded and included files in the editor", "statement": "A file is linted in the editor exactly when no exclude pattern matches it and, if include patterns are given, one of them does; `dir/` matches every file below a directory of that name, a pattern without slash the file name, with `*` standing for any text. (A pattern with an inner slash never matches, and without jarl.toml the default patterns are not applied: finding.)", "quantifier": "every path, every list of patterns", "why_tests_cant": "all paths and patterns", "anchors": ["crates/jarl-lsp/src/utils.rs: matches_pattern, should_exclude_file_based_on_settings"]}
{"id": "C44", "title": "Diagnostics and fixes in the editor", "statement": "The editor shows exactly the reports of the command line for the text in the editor (except hidden unused_function reports), in order and at the right positions; a fix is offered exactly for reports with a fix, accepting it changes the text exactly as the fix says, and it is marked preferred exactly when it is safe.", "quantifier": "every document, configuration, encoding and report", "why_tests_cant": "all of them", "anchors": ["crates/jarl-lsp/src/lint.rs: lint_document, convert_to_lsp_diagnostic", "crates/jarl-lsp/src/server.rs: diagnostic_to_code_action"]}
{"id": "C45", "title": "Suppression actions in the editor", "statement": "Accepting a suppression action inserts the comment --add-jarl-ignore would insert, at the same place; the chunk action inserts a valid Quarto suppression at the start of the right chunk; an action is not offered when the suppression is already there. (In R Markdown/Quarto documents the comment goes to a wrong line: finding.)", "quantifier": "every document, report and encoding", "why_tests_cant": "all of them", "anchors": ["crates/jarl-lsp/src/server.rs: diagnostic_to_jarl_ignore_rule_action, diagnostic_to_jarl_ignore_chunk_action", "crates/jarl-core/src/suppression_edit.rs: create_suppression_edit_in_rmd, parse_existing_suppression"]}
{"id": "C46", "title": "Language server: whatever the thread schedule, nothing is lost, mixed up or repeated", "statement": "Whatever the interleaving of the main loop and the workers: diagnostics published with a version are those of the text the document had when it was saved with that version; if no task fails, the workers always finish and then every save has been published once and every request answered once; what the editor finally displays is the analysis of the last save (the last part holds with one worker and open documents only: finding).", "quantifier": "every session (messages of a client), every number of workers, every interleaving, every outcome of the analyses", "why_tests_cant": "schedules and sessions are unbounded; races do not show up in a test run", "anchors": ["crates/jarl-lsp/src/server.rs: main_loop, handle_message, worker_thread, handle_lint_task, handle_code_action_request", "crates/jarl-lsp/src/session.rs: take_snapshot"]}
{"id": "C47", "title": "Each file is checked with the settings of the nearest configuration file", "statement": "Whatever paths are given on the command line and in whatever order, every file found is checked exactly once, with the settings of the closest jarl.toml/.jarl.toml in the directories above it; the editor uses the same file. (The user-level configuration file, documented as the fallback, is never used by jarl check: finding.)", "quantifier": "every directory tree, every set and order of path arguments, every file", "why_tests_cant": "directory trees and argument lists are unbounded", "anchors": ["crates/jarl-core/src/discovery.rs: discover_settings, discover_nested_settings", "crates/jarl-core/src/toml.rs: find_jarl_toml_in_directory", "crates/jarl/src/commands/check.rs: check", "crates/jarl-lsp/src/lint.rs: run_jarl_linting"]}
{"id": "C48", "title": "Duplicated function definitions across a package", "statement": "In a file directly in the R directory of a package, a top-level definition (unindented `name <- function`, `=` or a lambda, on one line) is reported exactly when an earlier definition of the same name exists in that directory (files in alphabetical order, whether or not they were given on the command line); the report covers the name and points to the first definition. The result does not depend on the order of the files. (Ranges are stale after --fix and in the editor with unsaved changes, files given twice report themselves, text inside strings counts: findings.)", "quantifier": "every package, file contents, set and order of path arguments", "why_tests_cant": "packages and texts are unbounded", "anchors": ["crates/jarl-core/src/lints/base/duplicated_function_definition/duplicated_function_definition.rs: scan_top_level_assignments, compute_duplicates_from_shared", "crates/jarl-core/src/package.rs: compute_package_analysis"]}
{"id": "C49", "title": "Unused functions of a package", "statement": "In a package with a NAMESPACE file, a function (ASCII name) defined in R/ is reported exactly when it is not exported (export, exportPattern, S3method, exportMethods, exportClasses), not a hook, not skipped by an option, not a method of a generic mentioned in R/, not mentioned in R/ except where it is defined, and not mentioned in the tests or C/C++ sources; a function defined in the tests exactly when it is not skipped and not mentioned in the tests except where it is defined. The result does not depend on the order of files. (Non-ASCII names, directives over several lines, two directives on a line, uses in R/unix: findings.)", "quantifier": "every package, file contents, NAMESPACE, set and order of path arguments", "why_tests_cant": "packages and texts are unbounded", "anchors": ["crates/jarl-core/src/lints/base/unused_function/unused_function.rs: parse_namespace_exports, scan_symbols, compute_unused_from_shared", "crates/jarl-core/src/package.rs: compute_package_analysis, file_scope_from_path, find_package_root"]}
{"id": "C50", "title": "R code is read in one way", "statement": "The grammar the fixes are judged by (operator precedence and associativity, calls, brackets, function bodies, if/else, line breaks that end or do not end an expression) gives every sequence of tokens at most one syntax tree: what a fix does to a program is well defined.", "quantifier": "every sequence of tokens", "why_tests_cant": "programs are unbounded", "anchors": ["crates/jarl-core/src/check.rs: get_checks (parsing)", "crates/jarl-core/src/utils.rs: get_arg_by_name, get_function_name"]}
{"id": "C51", "title": "Fixes keep the structure of the program around them", "statement": "When a rule proposes a fix for an expression anywhere in an R program, and there is no comment inside the replaced code, the text after the fix is R code, and R reads it as the old program with exactly that expression replaced by another: no operator next to it captures a part of the new code, no line break cuts it, no else changes its if. (True at every place for the rules that put in a call or a comparison's negation; rules that replace a call by an operator - any_duplicated, length_test, comparison_negation, redundant_ifelse, outer_negation, all_equal, coalesce, assignment - only where there is room: findings.)", "quantifier": "every program, every expression in it, every rule with a fix", "why_tests_cant": "programs and places in them are unbounded; a test sees one context at a time", "anchors": ["crates/jarl-core/src/lints/base/*/*.rs: the fixes of 35 rules", "crates/jarl-core/src/lints/testthat/*/*.rs: the fixes of 9 rules", "crates/jarl-core/src/utils.rs: get_nested_functions_content, drop_arg_by_name_or_position, get_function_namespace_prefix"]}
{"id": "C52", "title": "What a fix puts in is what its rule documents", "statement": "When a rule proposes a fix for an expression, what R reads in its place afterwards is, up to layout and parentheses, what the documentation of the rule says for the code that was there: the same function for the same arguments (matched as R matches them), no argument dropped, negated exactly where the meaning is negated. (Each rule needs a condition that it does not check itself, e.g. that there are no further arguments; without it code of another meaning is put in: findings.)", "quantifier": "every program, every expression in it, every rule with a fix", "why_tests_cant": "programs, arguments and their order are unbounded; a test compares one text with one text", "anchors": ["crates/jarl-core/src/lints/base/*/*.rs: the fixes of 35 rules", "crates/jarl-core/src/lints/testthat/*/*.rs: the fixes of 9 rules", "crates/jarl-core/src/utils.rs: get_arg_by_name_then_position, drop_arg_by_name_or_position, get_nested_functions_content"]}
{"id": "C53", "title": "Every enabled rule is run on every part of the code, once", "statement": "jarl proposes exactly the fixes that the enabled rules have at the expressions of the program: every expression is looked at exactly once, at any depth (in conditions, loop bodies, arguments with and without names, default values, parentheses, braces), every rule is called on every kind of expression it can say something about, and no rule that is not enabled. Not looked at are the function of a call (other than pkg::name), the object of [, [[, $ and @ with everything inside it, and parameter names (finding F15).", "quantifier": "every program, every expression in it, every set of enabled rules", "why_tests_cant": "programs are unbounded; a test shows one rule at one place", "anchors": ["crates/jarl-core/src/analyze/expression.rs: check_expression", "crates/jarl-core/src/analyze/call.rs, binary_expression.rs, if_.rs, ...: the calls of the rules", "crates/jarl-core/src/checker.rs: is_rule_enabled, report_diagnostic", "crates/jarl-core/src/rule_set.rs: the table of rules"]}
{"id": "C54", "title": "Format strings of sprintf are judged as R reads them", "statement": "For a call sprintf(\"...\", a, b, ...) with a literal format: a format that R accepts (as in ?sprintf: %% and %[n$][flags][width][.precision]type, widths and precisions `*` included) is never reported as invalid, and everything else is (unless a blank stands directly behind a %); `useless` is reported exactly if there is no conversion, and the proposed text is what the format stands for; a mismatch is reported exactly if the arguments are not those that the format uses, and the number in the message is the one that fits (formats without positions; with positions if these are 1..n).", "quantifier": "every format string, every number of arguments", "why_tests_cant": "format strings are unbounded; a test shows single ones", "anchors": ["crates/jarl-core/src/lints/base/sprintf/sprintf.rs: sprintf, parse_sprintf_format", "crates/jarl-core/src/utils_ast.rs: has_previous_pipe"]}
{"id": "C55", "title": "Rules without fix report exactly what they describe", "statement": "In every file that can be checked, the report contains exactly what each enabled rule says about the code looked at (C53). if_always_true reports an if without else only if its condition can decide for the body alone, whatever values names and calls have, and finds every condition of constants that does; vector_logic reports exactly & and | that are the condition of an if or while (strings and as.raw, as.octmode, as.hexmode excepted), where && and || decide the same; implicit_assignment reports arrow assignments in conditions, sequences, bodies-not-directly and arguments up to the next brace, the functions to skip excepted, and never a statement of its own; for_loop_index and for_loop_dup_index report exactly the variables used again; browser, undesirable_function, internal_function, empty_assignment exactly the calls, names and assignments in question; download_file judges mode and method as R matches the arguments; duplicated_arguments lists exactly the names that several arguments have; option lists replace or extend the default lists, and both at once is refused.", "quantifier": "every program, every expression in it, every set of enabled rules, every option list, every value of the names in a condition", "why_tests_cant": "programs, nesting and option lists are unbounded; a test shows one program", "anchors": ["crates/jarl-core/src/lints/base/{browser,download_file,duplicated_arguments,empty_assignment,vector_logic,implicit_assignment,internal_function,undesirable_function,for_loop_index,for_loop_dup_index,if_always_true}/*.rs", "crates/jarl-core/src/rule_options/*.rs: resolve_with_extend", "crates/jarl-core/src/utils_ast.rs: parent_is_*"]}
{"id": "C56", "title": "Which code makes jarl refuse a file or crash", "statement": "The check of a file that R can read goes through if and only if the code looked at contains none of the following for an enabled rule: a call of next, break, NULL, TRUE, ... (duplicated_arguments); a number in the condition of an if without else that is hexadecimal, an integer with exponent or larger than 64 bits (if_always_true); length() whose first argument has no value (length_test); sapply, vapply, map_dbl, map_int with an empty FUN (lengths), or with FUN = length and only named arguments none of which is called x (lengths: panic); sample() with an empty first argument (sample_int: panic). The first of these decides between error and panic.", "quantifier": "every program that parses, every set of enabled rules, every option list", "why_tests_cant": "programs are unbounded; a fuzzer can find single failures but not show that there are no others", "anchors": ["crates/jarl-core/src/lints/base/{lengths,length_test,sample_int,if_always_true,duplicated_arguments}/*.rs: ?, context, unwrap", "crates/jarl-core/src/check.rs: get_checks", "crates/jarl-core/src/analyze/*.rs: the calls of the rules"]}
{"id": "C57", "title": "Fixes that are carried out together", "statement": "If each of some fixes alone leaves the program around it intact, then carrying out all of them in one pass (at places that do not overlap) also gives R code, and R reads it as the old program with exactly the replaced expressions exchanged, each for what its fix alone would have put there. So for the fixes of the rules of C51 every pass, and every sequence of passes, turns R code into R code; and the expressions put in are the documented ones. Cuts can be made together exactly if they are in order and do not overlap, and the result is unique.", "quantifier": "every program that parses, every set of fixes at places that do not overlap, any number of passes", "why_tests_cant": "the number of fixes, their nesting in the code and the number of passes are unbounded; tests fix a few lines", "anchors": ["crates/jarl-core/src/fix.rs: apply_fixes", "crates/jarl-core/src/check.rs: lint_fix", "crates/jarl-core/src/lints/base/*/*.rs: Fix"]}
{"id": "C58", "title": "The concise report can be read line by line", "statement": "With --output-format concise (NO_COLOR set) standard output starts with one line per diagnostic, in the order of the report, from which file, row, column (counted from 1), rule and explanation can be read back exactly; then an empty line. Printing never crashes for what a check of files produces, in any format. With the full and concise formats every file that failed is named on standard error. (Messages with line breaks, links in piped output: findings.)", "quantifier": "every set of results of every set of files, every file name without ' [' and line break, every message", "why_tests_cant": "file names, messages and the number of diagnostics are unbounded; tests compare single outputs", "anchors": ["crates/jarl/src/output_format.rs: ConciseEmitter, FullEmitter, make_hyperlink", "crates/jarl/src/commands/check.rs: check"]}
{"id": "C59", "title": "GitHub shows every diagnostic", "statement": "With --output-format github the log, read as the GitHub runner reads it, contains exactly one warning per diagnostic, in order, with the file, line, column and text of the diagnostic, and nothing else, nothing on standard error. (File names with commas or '::', texts with line breaks, and files with syntax errors, which are passed over in silence: findings.)", "quantifier": "every set of results, every plain file name, every message without line breaks and %-codes", "why_tests_cant": "file names, messages and the number of diagnostics are unbounded; tests look at the text, not at what the runner makes of it", "anchors": ["crates/jarl/src/output_format.rs: GithubEmitter"]}
{"id": "C60", "title": "The JSON report is JSON and says everything", "statement": "With --output-format json (without --statistics) standard output is one JSON document, whatever characters names and messages contain, and nothing else; reading it gives back exactly the diagnostics (every field, in order) and the failed files with their messages. Two runs that print the same found the same. (If no file is found a warning is printed that is not JSON: finding.)", "quantifier": "every set of results, every file name, message and replacement text", "why_tests_cant": "texts are arbitrary strings of Unicode characters; tests try a few", "anchors": ["crates/jarl/src/output_format.rs: JsonEmitter", "crates/jarl-core/src/diagnostic.rs: Diagnostic (Serialize)"]}
{"id": "C61", "title": "The summary counts what was found", "statement": "In the full and concise formats the report is followed by: `All checks passed!` exactly if nothing was found and no file failed; otherwise, if something was found, the number of errors, the number of fixes of safe and of unsafe rules that are really there (a diagnostic counts for at most one of them), in the singular or plural that fits, and the hint to --statistics if more than the given number were found; nothing if files failed and nothing was found.", "quantifier": "every set of results, every value of the threshold", "why_tests_cant": "the numbers are unbounded; tests show 0, 1 and 2", "anchors": ["crates/jarl/src/output_format.rs: print_summary", "crates/jarl/src/commands/check.rs: check", "crates/jarl-core/src/diagnostic.rs: has_safe_fix, has_unsafe_fix"]}
{"id": "C62", "title": "Deprecated rules are warned about", "statement": "A warning that a rule is deprecated (since which version, and what to use instead) is printed exactly once if the rule is named in --select, --extend-select, --ignore or in select, extend-select or ignore of one of the jarl.toml files in use, however often, and never otherwise.", "quantifier": "every combination of lists on the command line and in any number of configuration files", "why_tests_cant": "lists and the number of configuration files are unbounded", "anchors": ["crates/jarl/src/commands/check.rs: check", "crates/jarl/src/output_format.rs: print_warnings", "crates/jarl-core/src/rule_set.rs: deprecation"]}
{"id": "C63", "title": "The rules find the code they document", "statement": "Wherever the rules look (C53), each of the rules with fixes proposes to replace the code it documents, however it is laid out over lines and whatever comments are in it, under the condition given for the rule (e.g. arguments given by position do not stand behind arguments given by name of an earlier parameter; code that must be repeated is on one line). The pipes `is.na(x) |> any()` and `x |> is.na() |> any()` are found like `any(is.na(x))`, the wrong assignment operator and `!(x == y)` as well; and what is found by one rule is found whichever other rules are enabled.", "quantifier": "every program that parses, every place in it, every rule, every layout", "why_tests_cant": "the documented code stands in arbitrary programs with arbitrary operands and layout; snapshot tests show a few", "anchors": ["crates/jarl-core/src/lints/base/*/*.rs", "crates/jarl-core/src/lints/testthat/*/*.rs", "crates/jarl-core/src/utils.rs: get_arg_by_name_then_position, get_nested_functions_content", "crates/jarl-core/src/analyze/*.rs"]}
{"id": "C64", "title": "Fixing keeps the comments", "statement": "A fix that jarl carries out, and any number of passes of fixes at once, leaves all comments of the program in place and in order, whenever there is no comment inside the replaced code; and code with a comment inside is not fixed (only reported), provided that there is no comment directly above or behind it, the rule is not `assignment` and not `all_equal` on code that begins with `!`. Each of these four exceptions is real: there the comment is deleted.", "quantifier": "every program that parses, every place in it, every rule with a fix, every set of fixes applied at once, every number of passes", "why_tests_cant": "comments can be in any gap of any code; the tests have a handful of snapshots with comments", "anchors": ["crates/jarl-core/src/utils.rs: node_contains_comments", "crates/jarl-core/src/lints/base/*/*.rs", "crates/jarl-core/src/lints/testthat/*/*.rs", "crates/jarl-core/src/fix.rs: apply_fixes"]}
{"id": "C65", "title": "A configuration file means what it says", "statement": "A jarl.toml (or .jarl.toml, if there is no jarl.toml) is accepted exactly when all its keys are documented ones, given once, with values of the documented form: lists of strings, a truth value, `<-` or `=` as operator (as a string or in a table), valid regular expressions, a threshold that is not negative, and not both a list and its `extend-` list. Then the settings are exactly those it asks for, defaults for everything else; an empty file is like no file. A misspelt key is never ignored, and what a refusal says (this field is unknown, this operator, this pattern is invalid, both lists are given) is true of the file.", "quantifier": "every TOML document (any keys and values at any level, in any order)", "why_tests_cant": "the tests try a few wrong files; that no typo is silently ignored and no setting lost is about all documents", "anchors": ["crates/jarl-core/src/toml.rs: TomlOptions, LinterTomlOptions, into_settings, find_jarl_toml_in_directory", "crates/jarl-core/src/rule_options/*.rs", "crates/jarl-core/src/settings.rs"]}
{"id": "C66", "title": "Fixed text reads as the fixed program", "statement": "Cutting the text of a file into R's tokens (blanks, comments, strings, numbers, the longest operator) loses nothing and is unique. When fixes of the rules that keep the structure (C51) are carried out as byte ranges of the text, by `apply_fixes`, then R reads the new text, and reads it as the old program with the expressions of the applied fixes exchanged: no two tokens merge, nothing outside the ranges moves. `apply_fixes` does not panic on them, and fixing a file in any number of passes leaves a file that R can read. Needed: a blank or line break around `else` and `in` and behind `repeat` and `<` (else tokens merge: `if (a) b else(x) == NA` becomes `if (a) b elseis.na((x))`), and fixes that add no more multi-byte characters than they remove (C18).", "quantifier": "every text that R reads, every set of fixes at different places, every number of passes", "why_tests_cant": "whether tokens merge depends on the characters on both sides of every replaced range, in arbitrary programs", "anchors": ["crates/jarl-core/src/fix.rs: apply_fixes", "crates/jarl-core/src/check.rs: lint_fix", "crates/jarl-core/src/lints/base/*/*.rs", "crates/jarl-core/src/lints/testthat/*/*.rs", "crates/jarl-core/src/utils.rs"]}
{"id": "C67", "title": "Fixing ends", "statement": "For fixes of all rules that keep the structure of the program (C51): there is a bound, which depends on the file only, on the number of fixes that can be carried out, however many passes or runs there are and whichever of the offered fixes each of them carries out: no fix undoes or re-creates another one forever, whichever of `<-` and `=` is preferred. So `jarl check --fix` ends on every file that R reads, whatever reads or writes fail, and when it is run again and again the file stays as it is from some run on. Left out: `fixed_regex` where the argument `fixed` is given and is not FALSE, which is really endless (`grep(\"a\", grep(\"b\", x, fixed = T), fixed = T)`, finding F41), and fixes of `assignment`, `coalesce`, `expect_not` and `repeat` that take apart an operand because it binds less tightly than what they put in.", "quantifier": "every text that R reads, every sequence of passes and runs, every choice of fixes, every pattern of failing reads and writes", "why_tests_cant": "it is about sequences of passes without a bound, and about every combination of rules feeding each other", "anchors": ["crates/jarl-core/src/check.rs: lint_fix", "crates/jarl-core/src/fix.rs: apply_fixes", "crates/jarl-core/src/lints/base/*/*.rs", "crates/jarl-core/src/lints/testthat/*/*.rs"]}
{"id": "C68", "title": "Which files jarl check looks at", "statement": "A file is checked exactly when it exists, is given as an argument (whatever its name) or is an R, Rmd or Qmd file found by looking into an argument, where neither it nor a directory on the way from the argument to it is hidden, ignored by git or matched by an exclude or default pattern, and the jarl.toml closest to it neither excludes the file itself nor has an include list without a pattern for it. Patterns mean what they mean in a .gitignore file. The order and repetition of arguments do not matter, further arguments only add files, --no-default-exclude switches the default patterns off, no thread of the walker loses or repeats a file, and every file checked gets the settings of the jarl.toml nearest above it. (Arguments that do not exist are silently ignored; jarl check renv checks renv; whether an explicit argument can be excluded depends on the kind of pattern; a directory means something else in include than in exclude: findings.)", "quantifier": "every directory tree, configuration, git state, list of arguments, distribution of the entries among threads", "why_tests_cant": "directory trees, patterns and thread schedules are unbounded", "anchors": ["crates/jarl-core/src/discovery.rs: discover_r_file_paths, FilesVisitor, discover_nested_settings, DEFAULT_EXCLUDE_PATTERNS", "crates/jarl/src/commands/check.rs: check"]}
{"id": "C69", "title": "Each file is left out or not by its own configuration", "statement": "With several jarl.toml files, whether a file is checked depends on the exclude, default-exclude and include options of the configuration closest to it only. (True for include and for patterns that match the file itself; false for patterns of directories and default-exclude: those of one of the configurations are used for all files, those of the others for none; finding.)", "quantifier": "every directory tree, set of configurations, list of arguments", "why_tests_cant": "directory trees and sets of configurations are unbounded", "anchors": ["crates/jarl-core/src/discovery.rs: discover_r_file_paths", "docs/config.md"]}
{"id": "C70", "title": "The editor and the command line look at the same files", "statement": "With one jarl.toml, a file of the project is linted in the editor exactly when `jarl check`, run on the directory of the jarl.toml, checks it. (True for include and exclude patterns that are names or names of directories with a slash behind them, when no directory above the project has such a name, no pattern for names matches a directory, and the file is neither hidden nor ignored by git; false without each of these conditions; finding.)", "quantifier": "every directory tree, configuration, git state, file", "why_tests_cant": "directory trees, patterns and paths are unbounded, and two independent implementations must agree on all of them", "anchors": ["crates/jarl-lsp/src/utils.rs: matches_pattern, should_exclude_file_based_on_settings", "crates/jarl-lsp/src/lint.rs: run_jarl_linting", "crates/jarl-core/src/discovery.rs: discover_r_file_paths"]}
{"id": "C71", "title": "The R version of a project comes from its DESCRIPTION", "statement": "Without --min-r-version, the R version that a project requires in the Depends field of its DESCRIPTION is used for its files, so that rules for newer R versions run exactly if the project may rely on them. (True for files that lie in the same directory as DESCRIPTION; false for all other files, hence for every R package in the usual layout, where rules that depend on the R version never run; finding.)", "quantifier": "every directory tree, DESCRIPTION text, set of checked files", "why_tests_cant": "directory trees and files are unbounded", "anchors": ["crates/jarl-core/src/config.rs: determine_minimum_r_version, build_config", "crates/jarl-core/src/description.rs", "docs/using-jarl.md"]}
{"id": "C72", "title": "The same command prints the same report", "statement": "Running `jarl check` (without fixing) again on the same files gives the same exit status and the same diagnostics in the same order, in whatever order the threads of the walker deliver the files and the hash maps (of groups, packages, definitions) are traversed: if no argument lies inside another, no package lies in the R directory of another one, and the R version is given or the DESCRIPTION files beside checked files say the same. (When they do not, the threads decide which version is used for all files of the group: finding. Messages about files that cannot be checked may change places.)", "quantifier": "every directory tree, configuration, set of files and packages, order of files, groups, packages and keys", "why_tests_cant": "thread schedules and hash seeds change from run to run; tests see one of them", "anchors": ["crates/jarl/src/commands/check.rs: check", "crates/jarl-core/src/check.rs: check", "crates/jarl-core/src/package.rs: compute_package_analysis", "crates/jarl-core/src/config.rs: build_config"]}
{"id": "C73", "title": "The editor shows what the command line prints", "statement": "For a saved file that is checked both by `jarl check` (without options) and by the language server, the reports shown in the editor are the reports printed for that file, at the same places, with the same text and the same fixes; if the file cannot be checked, neither shows reports and the command line prints an error for it.", "quantifier": "every tree of files, every configuration, every file found, every order of threads and hash maps in both processes, every position encoding", "why_tests_cant": "depends on the whole project around the file, on two different code paths (the command checks all files of a configuration together, the server one file with its siblings), and on orders of threads and hash maps", "anchors": ["crates/jarl-lsp/src/lint.rs: lint_document, run_jarl_linting, collect_sibling_r_files", "crates/jarl/src/commands/check.rs: check, hide_unused_function_if_needed", "crates/jarl-core/src/package.rs: compute_package_analysis"]}
{"id": "C74", "title": "What a fixing run leaves behind", "statement": "`jarl check --fix` changes only files that it checks, no documents, and only by fixes of the rules and settings of the configuration that governs the file. If git allows fixing throughout, then, whatever the order of the threads and hash maps, every checked file ends with the text that fixing this file alone gives, two runs from the same state leave the same texts and print the same report, and after a run without errors `jarl check` prints the same report again.", "quantifier": "every tree of files with any number of configurations, every set of arguments, every state of git, every order of threads and hash maps, every failure of reading and writing", "why_tests_cant": "the result must not depend on thread schedules, hash seeds, or on what was fixed before in the same run", "anchors": ["crates/jarl/src/commands/check.rs: check", "crates/jarl-core/src/check.rs: check, lint_fix", "crates/jarl-core/src/vcs.rs: check_version_control"]}
{"id": "C75", "title": "A fixing run that git forbids changes nothing", "statement": "If jarl reports that a file has uncommitted changes or lies in no repository, `so no fixes were applied`, or if a configuration file is invalid, then no file was changed; and if everything is committed, nothing is refused.", "quantifier": "every tree of files with any number of configurations, every state of git, every order of threads and hash maps", "why_tests_cant": "depends on several configurations in one run and on the order in which a hash map delivers them", "anchors": ["crates/jarl/src/commands/check.rs: check", "crates/jarl-core/src/check.rs: check", "crates/jarl-core/src/vcs.rs: check_version_control"]}
{"id": "C76", "title": "Handshake and notices of the language server", "statement": "The server counts positions in an encoding that the client understands (UTF-8 if offered, else UTF-16). However its worker threads interleave, the notice that reports of unused_function are hidden is shown at most once per session, only with the true number for a document that was linted, and it has been shown when the workers are done if reports were hidden in any document; the notice which configuration file is used is shown at most once, for the first opened document whose configuration lies outside the working directory. The notices change nothing about the other messages.", "quantifier": "every list of offered encodings, every sequence of client messages, every interleaving of the workers, any number of workers and documents", "why_tests_cant": "the order of threads at the shared flag cannot be enumerated by tests", "anchors": ["crates/jarl-lsp/src/session.rs: negotiate_position_encoding, check_and_notify_config", "crates/jarl-lsp/src/client.rs: notify_unused_fn_threshold_once", "crates/jarl-lsp/src/server.rs: handle_lint_task, handle_notification", "crates/jarl-lsp/src/lint.rs: run_jarl_linting"]}
{"id": "C77", "title": "Suppression comments are only comments", "statement": "`jarl check --add-jarl-ignore` and the editor's `ignore` action add comments and line breaks to a file and change nothing else in it for R: the file that results is read by R as the same program, with the same tokens in the same structure.", "quantifier": "every R program and its text, every set of reports, every place at which the search for a place begins, every reason without a line break", "why_tests_cant": "where a line break is allowed depends on the grammar (operators, else, brackets), where a comment is a comment depends on strings around it; tests see a few layouts", "anchors": ["crates/jarl-core/src/suppression_edit.rs: compute_suppression_insert_point, format_suppression_comments", "crates/jarl/src/commands/check.rs: add_jarl_ignore", "crates/jarl-lsp/src/server.rs: diagnostic_to_jarl_ignore_rule_action"]}
{"id": "C78", "title": "--add-jarl-ignore reports exactly what it did", "statement": "With --add-jarl-ignore, \"Added n suppression comment(s) to f\" is printed exactly for the files with reports that were read and written with comments, n being the number of (place, rule) pairs; a file is reported as unreadable or unwritable exactly if it has reports and could not be read or written; every file whose content changed is named; the summary is printed exactly if some file got comments and its two numbers are the sum of the per-file numbers and the number of these files; each file is named at most once, in the order of the names. Every problem of the check itself (a file that does not parse) is reported too, and only the reports `jarl check` shows get comments.", "quantifier": "all results of the check, all disks, all failures of writing, all reasons", "why_tests_cant": "the number of files and reports and the pattern of failing writes are unbounded", "anchors": ["crates/jarl/src/commands/check.rs:271-422 add_jarl_ignore_comments", "crates/jarl/src/commands/check.rs:116-151"]}
{"id": "C79", "title": "Safe fixes keep what the code computes", "statement": "When a safe fix replaces a piece of R code, the new code computes the same value: whatever the values of the variables are, if the code that was there computes a value (and not an error), then what R reads in its place in the fixed file computes the same value, with the same type, the same names and the same missing values. So does the code around it, after all the fixes and passes with which a file is fixed.", "quantifier": "all programs, all places in them, all values of variables and of functions the semantics says nothing about", "why_tests_cant": "the equivalence ranges over all R values (missing values, NaN, names, factors, classes, empty vectors); the tests of jarl compare texts and never run R", "anchors": ["crates/jarl-core/src/lints/base/*/*.rs: the fixes", "crates/jarl-core/src/fix.rs"]}
{"id": "C80", "title": "What is reported about the code of a file is what the enabled rules find in it", "statement": "When the check of an R file goes through, each enabled rule on code reports exactly (rules without fix: browser, undesirable_function, internal_function, empty_assignment, vector_logic, implicit_assignment, for_loop_dup_index) or at least (the 40 rules with a described fix) the code its documentation is about, wherever it stands in the file and however it is laid out, with the byte range of that code in the file, unless a suppression comment hides it. A fix that is handed on is one that an enabled, not forbidden rule proposes for code in the file that is not hidden, for exactly the range of the code it replaces. The check fails on code only if an enabled rule gives up on some of it, and then it does fail.", "quantifier": "all files that R can read, all trees with comments, all configurations, all texts of messages", "why_tests_cant": "tests look at one rule and a few files; that the walk, the rules, the ranges, the suppressions and the settings fit together has to hold for all of them", "anchors": ["crates/jarl-core/src/check.rs: get_checks", "crates/jarl-core/src/analyze/: all files", "crates/jarl-core/src/lints/: all rules"]}
{"id": "C81", "title": "Colours are only colours", "statement": "Whether colours are on, NO_COLOR is set and rule names are links changes nothing about what a user reads: what a terminal shows of the output of `jarl check` is, character by character on both streams, what is printed with NO_COLOR and without colours, in the full, concise and GitHub formats and with --statistics.", "quantifier": "every result of a check, every format but JSON, every combination of settings", "why_tests_cant": "each text is painted in pieces; a test compares one output, an unfinished escape sequence would hide text only for some reports", "anchors": ["crates/jarl/src/output_format.rs: ConciseEmitter, FullEmitter, GithubEmitter, print_statistics", "crates/jarl/src/commands/check.rs"]}
{"id": "C82", "title": "The table of rules in the documentation is right", "statement": "For each rule the table in the documentation has one row, and the row says the truth: the groups by which the rule can be selected, whether its fixes are applied by --fix (safe), only with --unsafe-fixes, or whether it has none, whether it runs by default and from which version of R on it runs.", "quantifier": "every rule", "why_tests_cant": "the table is kept by hand and not read by any program", "anchors": ["docs/rules.qmd", "crates/jarl-core/src/rule_set.rs: Rule, RuleInfo"]}
