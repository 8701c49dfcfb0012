# Formal model of jarl in Lean 4 — design

## Trusted base
* Lean 4.33.0 kernel. The theorems depend on no axioms other than Lean's `propext`, `Classical.choice` and `Quot.sound`; the
  table at the end of this file (generated with `tools/axioms.py` from `#print axioms`) lists them per theorem. There are no
  axioms of our own, no `native_decide`, no `bv_decide`.
* The model is tied to the Rust code by reading: each definition cites `file:lines` in /repo and names its simplifications.
* Lean core only: Mathlib is not imported.

### Parameters (code that is not modelled but quantified over)
* `Lints` (Check.lean): the R parser with biome's comment attachment (a partial function from texts to trees), all lint
  rules on expressions (a function from the rule set, version, assignment operator and text to diagnostics or an error)
  and the top-level unreachable-code analysis. The theorems hold for *every* such functions; where something about
  them is needed it is a hypothesis of the theorem (`ParserOk`: comments are pieces of the source; `CommentsExact`;
  "lints do not report rule r"; "lints report only rules of their rule set"). `RunsRules` (C80) puts the modelled rules (RCheck.lean)
  in the place of the lint rules; what is left open there is `Wording`: options, messages, the layout of the text of a fix, and `other`, the reports without fix of rules that
  also propose fixes, of unreachable_code in functions and of true_false_symbol for loop variables.
* `PackageAnalysis`: result of package.rs, any function of the disk.
* `Vcs`: what git2 answers. `Io`: which reads and writes fail. `Disk`: a function from paths to contents.
* rayon: any interleaving of the steps of the workers (Schedule.lean).
* `GitMatch` (Walk.lean): what git says about a path is a parameter; the crate `ignore` (walker, patterns) is modelled by its documentation.
* `ConfigFs` (Discovery.lean): which directories contain a (valid) jarl.toml, what the `ignore` walker lists. `PathResolver::resolve` (air_workspace)
  is modelled by its documentation (closest registered directory).
* `PkgFs` (Package.lean): DESCRIPTION files, contents, what is below a directory; `alnum`: `char::is_alphanumeric` (`Spec.Alnum` says what is assumed); `le`: the
  order of paths (any total order); `UnusedEnv.re`: the regex engine (any function).
* `ServerEnv` (LspServer.lean): the outcomes of the analyses run by the language server's workers, any relation.

* `TomlEnv` (Toml.lean): what the regex crate accepts, which of several unknown keys is named.
* `OutEnv` (Output.lean): NO_COLOR, whether `colored` colours, the working directory, file contents when printing, the renderer of snippets, messages of the
  operating system, lint rules and git, JARL_N_VIOLATIONS_HINT_STAT. `order`: the order in which a `HashMap` is printed (any). The GitHub runner is part of the
  specification (after actions/runner).

### Not modelled
clap, the reader of TOML text (serde's derived decoding is modelled in Toml.lean), annotate_snippets, telemetry and
update notices; how standard output and standard error interleave.
Integers: `usize` offsets are `Nat`, `i32` is `Int` (files over 2 GiB are outside the model). Symbolic links and
non-UTF-8 files are outside the model (a non-UTF-8 file is a failing read).

## Representation choices
* Rust `&str`/`String`: `List Char` (`Str`), byte offsets are computed with `Char.utf8Size`; slicing at a byte offset that is
  not a char boundary (a Rust panic) is an explicit `none`.
* `HashSet`/`HashMap`: lists / functions, with statements phrased by membership so that iteration order is irrelevant.
* `char::is_whitespace`: full Unicode White_Space table (`isWs`).
* Panics are explicit outcomes (`none`, `CheckErr.panic`, `Outcome.panic`).

## Layout
`lean/Verif/*.lean` — the model; `Spec/*.lean` — specifications that do not use the model's functions (only its data types,
texts and byte lengths); `Lemmas/*.lean` — helper lemmas; `Props/*.lean` — the theorems, named `Cnn_…` after the
property they prove, with concrete examples beside them. Suffix `_partial`: part of the claim; `_false_…`: the full claim is
refuted for the code (a finding), `…_witness`: concrete bad run.

| module | code modelled |
|---|---|
| Text | Rust string functions (slicing, split, trim, lines, prefix) |
| Rules | lints/rule table: names, categories, fix status, default status, minimal versions (rule_set.rs, lints/mod.rs) |
| Version, Description | config.rs parse_r_version, description.rs |
| Config | config.rs build_config and everything it calls |
| Fix | fix.rs apply_fixes |
| Location | utils.rs find_new_lines, find_row_col, compute_lints_location |
| Directive | suppression.rs parse_comment_directive and helpers |
| Suppression | suppression.rs SuppressionManager (collection, filtering, outdated suppressions) |
| SuppressionEdit | suppression_edit.rs (where and what `--add-jarl-ignore` inserts) |
| Diagnostic | diagnostic.rs (fields, order) |
| Rmd | rmd/extraction.rs |
| Check | check.rs get_checks, get_checks_rmd; analyze/document.rs; fs.rs extensions |
| LintFix | check.rs lint_fix, lint_only, check_path, check; vcs.rs |
| Schedule | check.rs worker threads as a transition system, crashes |
| Stmt, Cfg | lints/base/unreachable_code (graph, builder, reachability, diagnostics), rule_options/unreachable_code.rs |
| Lsp | jarl-lsp document.rs (positions, change application), lint.rs byte_offset_to_lsp_position, server.rs offset_to_position, ranges_overlap |
| LspExclude | jarl-lsp utils.rs (exclude and include patterns) |
| Run | commands/check.rs 32-268, check.rs 24-78, package.rs 65-237, config.rs 510-541, fs.rs 46-59, jarl-lsp lint.rs 58-218: the parts joined to the whole command (without fixing) and to linting in the editor |
| RunFix | commands/check.rs 32-268, check.rs 24-113, vcs.rs 19-106: the whole command with fixing: configurations one after the other, each guarded by git |
| LspNotice | session.rs 245-305, 380-412, client.rs 140-163, server.rs 60-130, 367-395, lint.rs 152-186: position encoding, the two notices, the shared flag |
| Place | suppression_edit.rs 149-328: which nodes the search for the place of a comment looks at, computed from the program (SuppressionEdit takes them as given) |
| IgnoreReport | commands/check.rs 271-422: the lines printed by --add-jarl-ignore (Cli has the files only) |
| Spec/RValue | (a specification, not a model of jarl) what a piece of R computes: values, 35 functions, the operators, `if`; after the documentation of R. Part of the trusted base of C79 |
| RCheck | check.rs 157-159, analyze/*.rs (all calls), the ranges of the reports in lints/: from the program to the diagnostics of a file (the parameter `Lints.expressions`); Spec/RCheck: RunsRules, the ranges, what the rules are about |
| Spec/Screen, Spec/Documented, Spec/UnusedHelp | no code of their own: the terminal, docs/rules.qmd 51-114, the directory named by a report of unused_function |
| Spec/RAround, Spec/RPasses | (specifications) code around a fix that is described up to a piece of code; passes with several fixes, in the piece and elsewhere; the texts that fixing a file goes through |
| LspActions | jarl-lsp lint.rs (lint_document, conversion of diagnostics), server.rs code actions, suppression_edit.rs (Rmd) |
| LspServer | jarl-lsp server.rs main loop, task channel, workers; session.rs documents (analyses themselves are parameters) |
| Walk | discovery.rs discover_r_file_paths, the walker of discover_nested_settings; patterns of the crate `ignore` by their documentation |
| Discovery | discovery.rs discover_settings, commands/check.rs grouping by configuration, settings used by the editor |
| Package | package.rs, lints duplicated_function_definition and unused_function (both are package-wide) |
| Toml | toml.rs, rule_options/*.rs, settings.rs: from a TOML document to settings; what `derive(Deserialize)` generates |
| RSyntax | R code as a tree of tokens (the parser itself is a dependency; Spec/RGrammar says what it must do) |
| RRules | the fixes of the lint rules in lints/base and lints/testthat (which node, which text), utils.rs, utils_ast.rs |
| RText | tokens with the text between them, the byte ranges of fixes (`text_trimmed_range`); Spec/RText is R's lexer (the parser's own is a dependency) |
| Sprintf | lints/base/sprintf/sprintf.rs parse_sprintf_format and the checks |
| RReports | the rules that only report (eleven of lints/base), rule_options/*.rs, and the errors and panics of rules |
| Json, Output | output_format.rs, statistics.rs (text), commands/check.rs (what is printed), serde_json's pretty printer |
| RVisit | analyze/expression.rs check_expression, analyze/*.rs (which rules look at what) |
| Cli | commands/check.rs (sorting, exit code, hiding, --add-jarl-ignore), statistics.rs, status.rs |

## Findings (code deviates from a property a user would expect)
* F1 `apply_fixes` adds the length difference twice to `last_modified_pos` (fix.rs:61): overlapping fixes can both be applied.
  Realistic witness: three lines `any(is.na(x))` followed by `any(is.na(.5))` become `anyNA0.55)` (C19_false_corrupts_file).
* F2 `apply_fixes` measures length changes in chars but edits by bytes: fixes that remove/add non-ASCII text shift later fixes.
* F3 `--fix-only` selects from `rules`, not from the `--fix` filtered set (config.rs:127-134): with `--fix --fix-only`
  unsafe fixes are applied although `--unsafe-fixes` was not given; and `--fix-only` alone does not imply `--fix`.
* F4 `find_row_col` treats "last newline at byte 0" as "no newline": wrong column on row 2 of a file that starts with a newline.
* F5 `--statistics` and `--add-jarl-ignore` return success even if files failed to parse.
* F6 `--add-jarl-ignore=""` writes comments that jarl itself then rejects as unexplained.
* F7 the documentation says `min-r-version` can be set in jarl.toml, but unknown fields are rejected.
* F8 for .R files newlines are only searched in the expression list: wrong rows for reports about comments behind the last
  expression (C17_false_trailing_comment).
* F9 an end comment that is visited after a physically later start comment makes `TextRange::new` panic (C12_panic_witness).
* F10 description.rs panics on an R entry without parenthesised version (C26_panics_without_version).
* F11 a start comment superseded by another start of the same rule and level is silently dropped.
* F12 the fallback insert point of --add-jarl-ignore can be inside a multi-line string, so the string changes.
* F13 compute_package_analysis runs before the fixes, so ranges of package rules are stale after a fix pass.
* F14 file_scope_from_path looks at all path components.
* F15 `check_expression` does not descend into call callees, subset objects and `$` extractions (C53_false_everything_checked, C53_false_everything_checked_extract).
* F16 duplicate or overlapping path arguments are not deduplicated: files are reported twice and, with --fix, two threads race
  on one file.
* F17 `return` without parentheses is treated as a return: code after it is executed but reported (C37_false_bare_return).
* F18 a branch excluded by `FALSE` is explained as "preceding if/else terminates in all branches" when the other branch returns
  (C39_false_dead_branch_message).
* unreachable_code, smaller: a configured stopping function written with a namespace (`pkg::f`) never matches; code after `repeat`
  without `break` and code inside bare nested braces is not analysed; after `if (TRUE) return(1)` the rest is only reported in pieces.
* Others: `+4.3.0` is accepted as version; `--allow-no-vcs` alone also bypasses the dirty check; TOML `select = []` means no
  rules; a comment whose work is already done by another suppression is reported outdated; `outdated_suppression` cannot
  be suppressed in .R files but can by `jarl-ignore-file` in documents; if the first chunk has a syntax error its file
  suppressions are ignored and those of later chunks are misplaced; `fs::write` is not atomic; a closing fence must have exactly
  the same number of backticks; R chunks nested in larger display fences are linted.
* F19 jarl-lsp server.rs:672-678: the place of an inserted jarl-ignore comment is computed in bytes whatever the negotiated encoding; with
  UTF-16 (the default of the protocol) it is wrong after non-ASCII text (C41_false_insertion_position, exact condition
  C41_insertion_position_ascii).
* F20 document.rs:118-185: all changes of a notification are resolved against the text before the notification, although the protocol
  applies them one after the other: the server's copy silently differs or the server panics; full-document changes are
  refused (C42_false_sequential, C42_false_crash, C42_full_replacement_refused).
* F21 jarl-lsp utils.rs: exclude patterns with an inner slash (also the documented examples) have no effect in the editor; without jarl.toml the
  default patterns are not applied (C43_inner_slash_never_matches, C43_no_settings_excludes_nothing).
* F22 suppression_edit.rs:424-453 remaps the offset but not the line of the insertion point: in Rmd/Qmd documents the suppression action
  always inserts on an earlier line (C45_false_document, C45_false_document_witness). A comment without explanation hides the
  action (C45_false_unexplained_hides_action).
* F23 jarl-lsp server.rs: workers publish without checking that the document is still open and that no newer version was published: with two
  or more workers the diagnostics of an older text can replace those of the last save, and diagnostics can appear after a document
  was closed (C46_false_stale_diagnostics, C46_false_closed_document). A panic in an analysis (F9 and F10 are such panics) ends the worker
  thread for good: after as many as there are workers the server is silent for the rest of the session (C46_false_after_panics). After an
  analysis that fails (e.g. a syntax error) the old diagnostics stay (C46_false_lint_error).
* F24 discovery.rs:95-108 with commands/check.rs:98-111: the configuration in the user's configuration directory is registered under that directory, so
  `jarl check` never uses it for files elsewhere although docs/config.md promises it; the editor does use it (C47_false_user_config). It is
  also loaded when it should not be: as soon as two arguments share an ancestor, the second walk stops at a visited directory and the
  fallback is taken (C47_false_user_config_loaded). `parse_jarl_toml` unwraps: an unreadable jarl.toml, or one that is not UTF-8, is a panic, not the message `Failed to read` that is there for it (C65_false_unreadable).
* F25 check.rs/package.rs: the package-wide reports carry ranges computed once, from the files on disk: after a fix pass they point to other text
  (C48_false_stale_after_fix); in the editor with unsaved changes a range beyond the end of the buffer makes all diagnostics of the
  document fail (C48_false_stale_in_editor). Definitions inside multi-line strings count (C48_false_in_string); a file given twice reports itself
  (C48_false_given_twice, F16).
* F26 unused_function: used functions are reported in these cases: the name has a non-ASCII letter (C49_false_non_ascii, for every such name); the
  `export(` directive extends over several lines (C49_false_multiline_export), shares its line with another directive or is followed by a comment with
  a parenthesis (C49_false_two_exports, C49_false_comment); the uses are in R/unix or R/windows (C49_false_subdirectory). Below a directory named
  `src` nothing is reported for tests (C49_false_src_directory, F14).
* F27 fixes that jarl counts as safe change how R reads the code around them: any_duplicated (`any(duplicated(x)) + 1`), length_test (`2 * length(x == y)`),
  comparison_negation (`a + !(x == y)`, line breaks in the parentheses), redundant_ifelse (`ifelse(a | b, TRUE, FALSE) & c`), outer_negation
  (`any(!x) == y`), all_equal (`isFALSE(all.equal(x, y)) == z`), coalesce (`y & if (is.null(x)) a | b else x`), assignment (`1 -> x -> y`; with the option
  `=`: `f(x <- 3)`); or make code R cannot read: repeat (`(while (TRUE) a ⏎ * b)`), unnecessary_nesting (`else` on a new line, at top level),
  expect_not (`expect_true(!(a + b = 1))`), coalesce (two comparisons). All are theorems `C51_false_…`.
* F28 fixes that jarl counts as safe put in code of another meaning because a condition is not checked: further arguments are dropped (`any(is.na(x), y)` → `anyNA(x)`,
  any_duplicated, which_grepl, length_test, `expect_equal(x, TRUE, info)`, `sapply(x, length, simplify = FALSE)`, `system.file("a", file.path("b"), package = "p")`); the
  value is not looked at (`grep("a", x, value = FALSE)` → `grepv("a", x)`); the operator is not looked at (`any(-x)` → `!all(x)`); the position is not looked at
  (`substr(x, 1, 2) == "abc"` → `startsWith(x, "abc")`, `sample(size = 5, 1:9)` → `sample.int(9, 1:9)`, `sample(1:9)` → `sample.int(9, )`, `NULL %in% x` → `is.null(x)`); an
  argument is given twice (`gsub("a", "b", x, fixed = flag)` → `…, fixed = flag, fixed = TRUE`); precedence inside the new code (`if (is.null(x)) a + b else x` →
  `x %||% a + b`, `x = y = 3` → `x <- y = 3`, `expect_true(!(x = 1))` → `expect_false(x = 1)`, `(while (TRUE) a ⏎ - b)`). All are theorems `C52_false_…`.
* F29 browser and empty_assignment are declared with a safe fix in rule_set.rs but never propose one; true_false_symbol proposes fixes (also `for (T in x)` → `for (TRUE in x)`) but is declared
  without one, so they are dropped (C53_fix_table).
* F30 sprintf: `sprintf("%2$s", a, b)` passes although `a` is unused (C54_false_gap); `sprintf("%1$s %s %s", a, b)` is reported (C54_false_mixed); `"% %"`, `"% 1$s"`, `"%0$s"` pass
  (C54_false_blank, C54_false_zero); `"%1$*2$d"` is reported as invalid (C54_false_zero); `sprintf("%s %s", ...)` and `sprintf("%s", x = y)` are reported as mismatches
  (C54_false_written); `sprintf("abc", x)` → `"abc"` drops the vectorisation (C52_false_sprintf); `sprintf("\x25\x25")` changes its value (C52_false_sprintf_codes).
* F31 implicit_assignment reports `if (a) x <- y <- 1` and `if (a) for (i in x) y <- i`, where all assignments are in bodies (C55_false_implicit_bodies); for_loop_index does not see
  `for (x in 1:x)` and `for (x in x$a)`, and reports `for (x in f(x = 1))` (C55_false_for_loop_index); for_loop_dup_index reports a loop in a function inside of a loop
  (C55_false_dup_index); duplicated_arguments takes `"it's"` and `its` for the same name (C55_false_duplicated), and the order of the names in its message changes from run to run (`HashSet`);
  download_file reports `download.file(url = u, d, "auto", FALSE, "wb")` (C55_false_download).
* F32 crashes: `sapply(X = x, FUN = length)` and `x |> sapply(FUN = length)` panic (lengths.rs 75 looks for an argument `x`, the parameter is called `X`), with the default rules
  (C56_false_crash, C56_false_crash_pipe); `sample(n = )` panics if sample_int is on. Files refused with the default rules although R reads them: `next()`, `break()`, `NULL(x)`
  (duplicated_arguments), `if (0x10) …`, `if (1e3L) …` (if_always_true), `length(x = )`, `vapply(x, FUN = )` (C56_false_refused). One such call hides all reports for the file.
* F33 `--output-format json` prints `Warning: No R files found …`, which is not JSON, if there is no file (C60_false_no_files), and with --statistics the table for humans (C60_false_statistics).
* F34 `--output-format github`: if files cannot be parsed nothing at all is printed for them, on neither stream; only the exit status tells (C59_false_errors).
* F35 invalid_chunk_suppression has line breaks in its text: its concise report has three lines (C58_false_lines, C58_false_one_line), GitHub shows the first (C59_false_one_line).
* F36 `--output-format github` does not escape file names: with a comma or `::` the annotation is put at another file, or loses its line (C59_false_comma, C59_false_colons).
* F37 the concise format wraps the rule's name in the escape sequence of a link even if it is written to a pipe, unless NO_COLOR is set (C58_false_link).
* F38 section titles are 49 characters wide, not 57: the padding counts bytes of `─` (C61_false_width).
* F39 arguments by name are looked for by name and else at the *same* position among the unnamed ones, so naming an earlier argument hides the code from the rule: `expect_equal(object = x, TRUE)`,
  `ifelse(test = x, TRUE, FALSE)`, `apply(X = x, 1, mean)`, `do.call(what = cbind.data.frame, x)`, `sapply(X = x, length)`, `expect_true(grepl(pattern = "a", x))` are not reported; rules that need the same
  code twice compare its text, so a line break in one of them hides it (is_numeric, sort, coalesce, string_boundary); `any((is.na(x)))` and `!x == y` are not reported (theorems `C63_false_…`).
* F40 fixes delete comments: `node_contains_comments` (utils.rs 404-408) is false as soon as there is a comment directly above or behind the code, so `# c ⏎ any( # d ⏎ is.na(x))` loses `# d`; `assignment` never
  looks for comments (`x = # c ⏎ 1`); `all_equal` on `! # c ⏎ all.equal(x, y)` looks only at the call (theorems `C64_false_…`).
* F41 fixing may never end: `fixed_regex` takes any `fixed =` that is not the word TRUE for a missing one and adds `fixed = TRUE`, again in every pass; if another of its calls is inside, that one is skipped in every
  pass and asks for another pass: `grep("a", grep("b", x, fixed = T), fixed = T)` grows until the disk is full (C22_false_endless, C22_false_terminates).
* F42 fixes glue tokens together: `if (a) b else(x) == NA` becomes `if (a) b elseis.na((x))`, which R cannot read (C66_false_glued).
* F43 discovery.rs 233-256: the walker uses the exclude patterns and `default-exclude` of one configuration for all files; the filter behind it (292-352) uses those of the nearest one, but compares only files, so patterns of
  directories never match there. `exclude = ["tests/"]` in one package leaves out the `tests` of its neighbours, and in a nested jarl.toml it has no effect; `jarl check a b` and `jarl check b a` may differ (theorems `C69_false_…`).
* F44 `jarl check renv` checks `renv`, although the comment in discovery.rs 433-435 says that it does nothing (C68_false_renv_argument). A file given as argument is left out if it is excluded by name, checked if it is excluded by directory or
  by a default pattern (C68_false_explicit).
* F45 arguments that do not exist are not mentioned and do not change the exit status, if another argument yields a file (C68_missing, C68_false_missing).
* F46 `tests/` in `include` is only the directory next to jarl.toml, in `exclude` it is any directory of that name (C68_false_include_depth).
* F47 the editor does not look at the files the command line looks at: patterns of directories are compared with every directory of the absolute path, so in a project below a directory `renv` or `revdep` nothing is linted (C70_above_nothing);
  patterns without slash are not compared with directories, stars in patterns of directories are not stars; hidden and git-ignored files are linted; `include` differs too (theorems `C70_false_…`).
* F48 the R version of DESCRIPTION is only found for files in the very directory of DESCRIPTION (config.rs:524-533 looks at the parent of each file), so not for the files of a package, which are in R/ and tests/: `grepv`, `coalesce` and `list2df` never run there, against docs/using-jarl.md (C71_not_found, C71_false_package);
* F49 when checked files lie beside DESCRIPTION files that disagree, the version of the file that the threads deliver first is used for all files of the group, so two runs of the same command differ (C72_false_version). Similarly, with --fix and a jarl.toml that build_config refuses, it depends on the order of a hash map whether the files of other groups have been fixed before the error ends the command (commands/check.rs:106-114; not in the model);
* F50 the editor analyses a package only when the open file lies directly in R/: the reports of `unused_function` for files in tests/ and inst/ that `jarl check` prints never appear in the editor (C73_false_tests). `threshold-ignore` is compared with different numbers: on the command line with the reports of all checked files of all packages (and the smallest threshold of all jarl.toml), in the editor with those of one package, so in a repository with two packages the editor shows reports that `jarl check` hides (C73_false_threshold).
* F51 git is asked for each configuration separately, after the files of the earlier configurations have been fixed (commands/check.rs 105-114, check.rs 30-41). In a clean repository with two jarl.toml files `jarl check --fix` fixes the files of one, finds the repository dirty because of its own changes and refuses the others; a hash map decides which (C75_false_own_changes). Files in no repository stop only their own group, though the message says that no fixes were applied (C75_false_uncovered).
* F52 an invalid configuration (an unknown rule in the jarl.toml of a later group) ends the command with an error after the earlier groups were fixed on disk (C75_false_config).
* F53 --add-jarl-ignore drops the errors of the check: if no file can be parsed or read it prints "No violations found" and exits with 0 (C78_false_errors; F5 is the exit code alone).
* F54 --add-jarl-ignore comes before `unused_function` reports are hidden: reports that `jarl check` would not print get comments (C78_false_hidden).
* F55 redundant_equals: `x == TRUE` for the number 2 is FALSE, what is left is 2 (C79_false_redundant_equals); `redundant_ifelse` likewise (C79_false_redundant_ifelse).
* F56 is_numeric: `is.numeric(x) || is.integer(x)` is TRUE for factors, `is.numeric(x)` is FALSE (C79_false_is_numeric).
* F57 `NA %in% x` becomes `anyNA(x)`, `x %in% NA` becomes `is.na(x)`: different for NaN, and `is.na` keeps names (C79_false_any_is_na, C79_false_equals_na, C79_false_equals_na_names).
* F58 class_equals: `class(x) == "data.frame"` and `identical(class(x), "data.frame")` differ from `inherits` for objects with several classes (C79_false_class_equals, C79_false_class_identical).
* F59 lengths: `sapply(list(), length)` is `list()`, and for strings `sapply` makes names (C79_false_lengths, C79_false_lengths_names).
* F60 seq, seq2: intended to change the value for length 0 (C79_false_seq, C79_false_seq2); but `1:length(x = y)` becomes `seq_along(x = y)`, an error or another meaning: the argument is called
  along.with (C79_false_seq_names; only said to be not described).
* F61 sort: `x[order(x)]` keeps missing values (at the end), `sort(x)` drops them (C79_false_sort).
* F62 sample_int: `sample(1:0, 1)` draws from 1 and 0, `sample.int(0, 1)` is an error (C79_false_sample_int).
* F63 string_boundary: `substr(x, 1, 1) == "a"` keeps names, `startsWith` does not (C79_false_string_boundary).
* F64 unnecessary_nesting: `if ("TRUE")` is allowed, `"TRUE" && …` is an error (C79_false_unnecessary_nesting).
* F65 functions of other packages with the same name are replaced: `foo::any(is.na(x))` (C79_false_any_is_na_package).
* F66 true_false_symbol: `T` and `F` are variables that can have other values (C79_false_true_false_symbol); replacing them is the purpose of the rule.
* F67 class_equals: documented as an unsafe fix (docs/rules.qmd 55), but rule_set.rs has it as safe: plain `--fix` applies it (C82_false_class_equals; that it changes values is F58).
* F68 sample_int and unused_function are documented as enabled by default, but are disabled (C82_false_default).
* F69 browser and empty_assignment are documented without fix, and have none, but count as rules with a safe fix: `--fix-only`, which drops the rules without fix (config.rs:128-132), runs them (C82_false_no_fix).
* F70 the table has a rule `unused_suppression`, which does not exist (`--select-rules unused_suppression` is an error); the rule is `outdated_suppression`, which is not in the table (C82_false_name).

## Properties
| id | modelled by | how it is proved |
|---|---|---|
| C01 | Rules | case split over the finite rule type; lookup lemma lifted to all strings |
| C02–C05 | Config | membership characterisation of expand / validate / reconcile; order lemma on version triples |
| C06 | Config, Check | case analysis on flags; negation witness for fix-only, `_partial` otherwise; end to end through get_checks |
| C07 | Config, Check | map-wise; congruence for "nothing else changes" |
| C08–C10, C12 | Suppression | the traversal is a list of visits (`Reach` characterises it); fold invariant for regions; filter = stateless predicate |
| C11 | Directive | explicit grammar spec, both directions |
| C13, C23, C31, C34 | SuppressionEdit, Cli | round trip through the grammar; descending insertion lemma; tree recursion |
| C14–C16 | Rmd, Check | inductive reading of the lines; per-chunk decomposition of the result |
| C17 | Location, Check | counting lemma; negation witnesses for F4, F8 |
| C18–C20 | Fix | loop invariant relating adjusted offsets; negation witnesses for F1, F2 |
| C21, C22 | LintFix | fuel-indexed loop, induction on passes; measure for termination |
| C24 | LintFix | case analysis over the repository map parameter |
| C25, C26 | Version, Description | spec by rendering, parse ∘ render |
| C27–C30 | Cli | stable sort uniqueness, counting |
| C32, C33 | Schedule | per-file projection of interleavings; invariant over all reachable states |
| C35 | Suppression, Check | both directions against the inductive `BadComment` |
| C36 | Config | unfolding of the builder |
| C37 | Stmt, Cfg | big-step semantics with arbitrary interpretation (Spec/Exec); simulation: every executable statement is in a block reachable from the entry, by mutual induction on statements and on the execution |
| C38 | Stmt, Cfg | syntactic spec (Spec/Dead); block closed iff statement ends; dead statements are in blocks without incoming edges; blocks are sorted, so their range covers them |
| C39 | Stmt, Cfg | first recorded predecessor of the dead block ends with the jump; executions only get to such places; the reports are merged per reason and come sorted (C39_reports_in_order) |
| C40 | Cfg | case split |
| C41 | Lsp | decomposition of the text at the place, scan invariant |
| C42 | Lsp (apply_changes) | induction on the list of changes and on the history |
| C43 | LspExclude | wildcard matcher against an inductive relation |
| C44 | LspActions | conversion lemma of C41, uniqueness of edits |
| C45 | LspActions, SuppressionEdit | C31 + C41 + C14 |
| C46 | LspServer | labelled transition system with all interleavings; invariants by induction on runs; decreasing measure for completion |
| C47 | Discovery | invariant of the set of visited directories (every visited directory has its nearest configuration registered) |
| C48 | Package | line grammar against the scanner; first-seen invariant over the sorted files; sorting makes the order of the files irrelevant |
| C49 | Package | counting argument: definitions are occurrences, so counts agree iff every occurrence is a definition; NAMESPACE lines against a declarative grammar |
| C50 | RSyntax, Spec/RGrammar | a precedence-climbing parser finds every well-formed tree, and a function has one result |
| C51 | RRules | replacement lemma: a node may be replaced by one that is no weaker at its edges (`Fits`), by induction on the path to the root; per rule, the text reads as such a node |
| C52 | RRules | the text put in reads as one node (C50), so the new expression is that node up to layout; per rule, arguments found by name or position are those R matches (`match_value`) |
| C53 | RVisit | the walk lists the places whose frames are all walked through (induction over the tree, generalised over the place); per rule, that it returns nothing on other kinds of nodes |
| C54 | Sprintf, RRules | the loop is compared with an inductive relation between pieces and text, in both directions; the arguments used are a range |
| C55 | RReports, RVisit | per rule an equivalence with a statement about the place (frames) and the node; conditions by induction over the tree against a relational semantics; number literals against a grammar |
| C56 | RReports, RVisit | per rule an equivalence with an inductive list of failures; the walk stops at the first |
| C57 | RSyntax, RRules, RVisit | a node has each condition on one child only: mixing the left side of one edited program with the right side of the other (two-hole nodes), then induction over the fixes from the last to the first |
| C58 | Output, Cli | the reader of lines undoes the printer, by induction over the report; locations are there by an induction over the check |
| C59 | Output, Cli | the runner's reader undoes the printer; cutting at lines of a concatenation |
| C60 | Json, Output | the reader of JSON undoes the pretty printer for every value (mutual induction on values, fuel = length) |
| C61 | Output, Cli | case split on the counts; the counts by the table of rules |
| C62 | Output, Cli | the set of names by induction over the lists; the warning is no other line of the tail |
| C63 | RRules, RVisit | inversion: code that is documented code without its layout has the shape the rule matches on (`call_inv`, `bin_inv`, …); arguments that R matches are those found by name or position if they are in order |
| C64 | RRules | the text a rule puts in has only gaps of the replaced code (`CalmRule`, rule by rule); `skip` is false only if there are none with comments (`ChecksComments`); induction on the cuts for several fixes |
| C65 | Toml, Cfg, RReports | every reader is an equivalence with what the value is (`Reads`); the options by the list of keys without repetition; both directions |
| C66 | RText, Fix, LintFix, Spec/RText | which tokens may stand side by side in R code (`Steps`, induction on trees) and which of them merge (`Glued`, by their last and first characters); lexing pieces gives the pieces (`lexN_pieces`) and the converse (`lexN_inv`); byte ranges are token ranges (`swapped_of_rewritten`), then C57 |
| C67 | RRules, RVisit, RText, Fix, LintFix, Spec/RTogether, Spec/RText | a weight of programs (`weight`: names that fixes replace, comparisons, the unwanted assignment operators, `if` without `else`, conditions with `all.equal`, arguments of `sample`, `any`, `all`, `length` count more); each rule of `endingRules` puts in something lighter at its place (`FallsRule`, Props/RWeight, RWeightOps, RWeightRoom), replacing at a place lowers the whole (`Lighter.plug`), several at once by induction from the last (`together_weight`); the loop by an invariant (readable text) and the weight as measure |
| C68 | Walk, Discovery | the walk is a recursion over the tree, the specification speaks of paths: induction over the tree (`mem_visitEntry`); patterns: the translation (`addLine`) against the declarative `Hits` by cases over slashes in front, inside, at the end; threads: a permutation by induction over the order in which they end; nearest configuration: what is reached by the walk with patterns is reached by the one without (`listed`), then C47 |
| C69 | Walk | corollary of C68 for the part that holds; concrete trees for the part that does not |
| C70 | Walk, LspExclude | both sides are reduced to the same statement about components of the path: the editor by splitting the text of the path, the command line by C68_one_config and the declarative `Hits` |
| C71 | Run, Config, Description | the search over the probes is `findSome?`; C26 gives the version of one DESCRIPTION |
| C72 | Run (with Walk, Discovery, Config, Package, Check, Cli) | files and keys of different runs are permutations of each other; every stage is shown to give the same value for permuted input: the configuration of a group, the duplicated definitions (sorted by path), the unused functions (at most one package touches a file), the results of the files; then C27 |
| C73 | Run (both programs) | the package analyses of a file in R/ depend only on the files below the package directory, whichever files are given (files_mem, extras_eq); other files have no entries at all; the configurations agree by C47; then C29 on one side and C44 on the other `C73_editor_hides`: for a file of an R package, the editor hides the reports of `unused_function` exactly if the settings do not name it and the package has more than `threshold-ignore` of them. |
| C74 | RunFix | an invariant over the groups (the world each group sees agrees with the first one on its own files, on DESCRIPTION files and configurations); C18–C21 for one file; permutation lemmas of C72 `C74_only_found`, `C74_each_alone`, `C74_same_outcome`, `C74_same_one_config`, `C74_recheck`, `C74_only_fixes` |
| C75 | RunFix | induction over the groups; counterexamples by evaluation (F51, F52); only the guard gives errors about version control `C75_refused_partial`, `C75_changed_partial`, `C75_one_config`, `C75_false_own_changes`, `C75_false_uncovered`, `C75_false_config` |
| C76 | LspNotice | an invariant counting notices shown and workers about to show one; a simulation of the machine of C46 `C76_encoding`, `C76_hidden_once`, `C76_config_once`, `C76_refines` |
| C77 | Place, SuppressionEdit, LspActions | a table of the tokens in front of which line breaks may be added, by induction over the grammar; larger gaps do not change the tokens (maximal munch); a line begins inside a token only if the token has a line break; invariant of the search `C77_same_program_partial`, `C77_outside`, `C77_short_tokens`, `C77_editor`; false: `C77_false_string` |
| C78 | IgnoreReport | the loop over the files computed line by line (`ignoreFiles_spec`: every file is looked at once, so earlier writes do not matter), counting by a list without duplicates of all pairs (place, rule) | C78_added, C78_failures, C78_changed, C78_summary, C78_order; negative C78_false_errors, C78_false_hidden |
| C79 | RRules, Spec/RValue | the laws of C52 say what replaces what; for each law, the value of the new code is computed from that of the old one with an evaluator for a piece of R; recycling, sorting (`mergeSort` of an order is the order of `sort`), strings and places by induction over the vectors | C79_safe_fixes_keep_values_partial, C79_around_partial (evaluation is monotone along described paths), C79_passes_partial (several fixes and passes, from C57), C79_file_partial (the loop over a file, from C66); negative C79_false_… (18) |
| C80 | RCheck | the walk over what is looked at taken apart (`inOrder_ok`, `checkExpressions_ok`), names tell the reports apart (`raw_code`), then C08 for hiding, C55/C56/C63 for the rules and `tokensAt_part` for the ranges | C80_reports, C80_said_ranges (all 11 rules without fix), C80_found, C80_fixes, C80_fix_ranges (where a fix stands), C80_handed_on (no fix is lost), C80_pass (one pass of --fix; no example of its hypotheses yet), C80_refused, C80_failures |
| C81 | Output | a machine for ECMA-48 sequences (Spec/Screen.lean); every piece of the output leaves the machine in the text state (`Shows`, closed under append, join, filter), then through the emitters | C81_colours |
| C82 | Rules | the table of docs/rules.qmd as data (Spec/Documented.lean), rule by rule; false for six rules | C82_documented_partial, C82_rows, C82_false_… |

## Seeded bugs
`tools/mutate.py` edits a scratch copy of the model, rebuilds and records which theorems fail; `tools/mut*.py` are the lists of
edits, `seeded/LOG.jsonl` the results (`tools/mutlog.py`).

## Axioms per theorem
<!-- axioms:begin -->
* axioms **none**: `C17_false_leading_newline`, `C18_false_non_ascii`, `C19_false_when_growing`, `C19_false_corrupts_file`, `C41_false_insertion_position`, `C48_false_in_string`, `C48_false_next_line`, `C58_false_one_line`, `C58_false_link`, `C61_false_width`, `C68_false_include_depth`, `brightEnv`, `C82_false_no_fix`, `C82_false_name`
* axioms **propext**: `C06_no_unsafe_fix_partial`, `C06_false_with_fix_only`, `C06_only_unsafe_removed`, `C12_panic_witness`, `C17_false_trailing_comment`, `C19_flag_is_sticky`, `C21_fix_outcome`, `C21_parse_error_untouched`, `C21_no_writes`, `C26_panics_without_version`, `C32_schedule_independent`, `C36_flags`, `C42_false_sequential`, `C42_false_crash`, `C43_no_settings_excludes_nothing`, `C45_false_document_witness`, `C45_false_unexplained_hides_action`, `C46_false_closed_document`, `C46_false_bad_request`, `C48_false_stale_after_fix`, `C48_false_stale_in_editor`, `C49_scope`, `C49_false_multiline_export`, `C49_false_subdirectory`, `C52_false_any_is_na`, `C52_false_any_duplicated`, `C52_false_which_grepl`, `C52_false_length_test`, `C52_false_outer_negation`, `C52_false_equals_null`, `C52_false_sample_int`, `C52_false_sample_int_comma`, `C52_false_grepv`, `C52_false_expect_true_false`, `C52_false_expect_not`, `C52_false_string_boundary`, `C52_false_assignment`, `C52_false_coalesce`, `C52_false_repeat`, `C52_false_system_file`, `C52_false_fixed_regex`, `C52_false_lengths`, `C53_rules_once`, `C53_false_everything_checked`, `C53_false_everything_checked_extract`, `C54_false_blank`, `C54_false_zero`, `C54_false_written`, `C52_false_sprintf`, `C55_rule_table`, `C55_if_else`, `C55_internal_function`, `C55_false_implicit_bodies`, `C55_false_for_loop_index`, `C55_false_dup_index`, `C55_false_duplicated`, `C55_false_download`, `C56_false_crash`, `C56_false_crash_pipe`, `C56_false_refused`, `C56_false_crash_sample`, `C57_ex_two`, `C58_false_lines`, `C59_false_one_line`, `C59_false_comma`, `C59_false_colons`, `C64_false_comment_above`, `C64_false_comment_behind`, `C64_false_assignment`, `C64_false_all_equal`, `C65_empty`, `C65_file`, `C65_false_unreadable`, `C68_missing`, `C68_ex_project`, `C68_false_renv_argument`, `C68_false_explicit`, `C68_false_once`, `C68_false_missing`, `C69_false_own_config`, `C69_false_argument_order`, `C69_false_nested_exclude`, `C69_false_nested_rules_above`, `C70_ex_values`, `C70_false_path_pattern`, `C70_false_directory_name`, `C70_false_directory_star`, `C70_false_above`, `C70_false_hidden`, `C70_false_include`, `C76_race`, `exPrinted_unescaped`, `C82_documented_partial`, `C82_false_class_equals`, `C82_false_default`
* axioms **propext, Classical.choice, Quot.sound**: `C02_rule_selection`, `C03_ignore_wins`, `C04_unknown_rules_rejected`, `C05_version_gate`, `C05_version_monotone`, `C05_unknown_version`, `C07_lists`, `C08_hidden_iff_suppressed`, `C11_valid`, `C11_unexplained`, `C11_misnamed`, `C11_pipe_only_chunk`, `C11_array_item`, `C12_regions`, `C12_unmatched_end`, `C12_unmatched_start`, `C12_panics_iff`, `C13_inserted_comments_are_valid`, `C13_at_insert_point`, `C13_blank_reason`, `C16_chunks`, `C16_file_rule_hidden`, `C16_later_file_comment_misplaced`, `C16_outdated_file`, `C17_row`, `C17_row_col_partial`, `C17_prefix_suffices`, `C17_location_partial`, `C17_rmd_location_partial`, `C19_apart`, `C19_apart`, `C22_skip_means_fix`, `C22_false_terminates`, `C23_only_inserts`, `C23_original_is_sublist`, `C23_never_panics`, `C24_guard`, `C24_allowed`, `checkVersionControl_iff`, `C25_version_strings`, `C25_round_trip`, `C27_sorted`, `C27_order_independent`, `C27_run`, `C28_exit_code_partial`, `C30_statistics`, `C30_printed`, `C34_untouched`, `C34_edited`, `C35_reported`, `bad_collected`, `C37_reported_code_never_runs`, `C37_reported_top_level_code_never_runs`, `C38_dead_code_is_reported`, `C39_code_after_jump`, `C39_top_level_code_after_jump`, `C39_code_after_executable_jump`, `C41_offset_to_position`, `C41_diagnostic_position`, `C41_position_to_offset`, `C41_any_position`, `C41_order`, `C41_overlap`, `C41_insertion_position_utf8`, `C41_insertion_position_ascii`, `C42_end_to_start`, `C42_single_change`, `C42_history`, `C43_excluded`, `C44_edit_deterministic`, `C44_diagnostics`, `C44_fix_action`, `C45_r_file`, `C45_offered`, `C45_not_twice`, `C45_document_inline`, `C45_chunk_action`, `C45_chunk_action_edit`, `C46_published`, `C46_main_loop_survives`, `C46_everything_done`, `C46_workers_finish`, `C46_single_worker`, `C46_closing_clears`, `C46_false_stale_diagnostics`, `C46_false_lint_error`, `C47_nearest_config`, `C47_argument_order`, `C47_false_user_config`, `C47_false_user_config_loaded`, `C48_scan`, `C48_range`, `C48_reported`, `C48_sorted`, `C48_deterministic`, `C49_mentioned`, `C49_unused_message`, `C49_namespace`, `C49_reported`, `C49_deterministic`, `C49_no_namespace`, `C49_tests`, `C49_false_non_ascii`, `C49_false_two_exports`, `C49_false_comment`, `C52_fixes_as_documented`, `C52_fix_result`, `C53_looked_at`, `C53_loop_variables`, `C53_once`, `C53_proposed`, `C53_every_rule_called`, `C54_mismatch`, `C54_mismatch_numbered`, `C54_mismatch_message`, `C54_reported`, `C54_false_gap`, `C54_false_mixed`, `C55_reports`, `C55_implicit_assignment`, `C55_implicit_found`, `C55_implicit_statement`, `C55_duplicated_arguments`, `C56_rule_fails`, `C56_refused`, `C56_first`, `C57_fixes_together`, `C57_pass`, `C57_proposed`, `C57_passes`, `C57_as_documented`, `C58_concise`, `C59_github`, `C59_false_errors`, `C60_json`, `C60_faithful`, `C60_false_statistics`, `C63_found`, `C63_comparison_negation`, `C63_assignment`, `C63_pipes`, `C63_enabled`, `C63_false_expect_true_false`, `C63_false_expect_null`, `C63_false_expect_length`, `C63_false_redundant_ifelse`, `C63_false_matrix_apply`, `C63_false_list2df`, `C63_false_lengths`, `C63_false_expect_match`, `C63_false_is_numeric`, `C63_false_sort`, `C63_false_coalesce`, `C63_false_class_equals`, `C63_false_parentheses`, `C63_false_comparison_negation`, `C64_fixes_keep_comments`, `C64_commented_code_is_skipped`, `C64_pass`, `C64_passes`, `C65_settings`, `C65_accepted`, `C65_refused`, `C65_skipped`, `C66_text`, `C66_pass`, `C66_passes`, `C66_ranges`, `C66_apart`, `C66_in_text`, `C66_apply_fixes`, `C66_no_panic`, `C66_fix_file`, `C66_ex_two`, `C66_ex_file`, `C67_bounded`, `C67_text_bounded`, `C67_fix_ends`, `C67_runs_end`, `C67_ex_two`, `C67_ex_loop`, `C67_ex_file`, `C67_false_keeping`, `C68_checked`, `C68_run`, `C68_pattern`, `C68_exclude`, `C68_include`, `C68_one_config`, `C68_no_config`, `C68_explicit`, `C68_arguments`, `C68_default_patterns`, `C68_nearest_config`, `C69_own_config_partial`, `C68_one_config`, `C70_agree_partial`, `C70_ex_agree`, `C70_above_nothing`, `C72_false_version`, `C72_same_report`, `C72_example`, `C72_false_version`, `C73_editor_partial`, `C73_example`, `C73_editor_hides`, `C73_hides_example`, `C74_only_found`, `C74_only_fixes`, `C74_each_alone`, `C74_same_outcome`, `C74_same_one_config`, `C74_recheck`, `C74_example`, `C74_recheck_example`, `C74_one_config_example`, `C75_refused_partial`, `C75_refused_example`, `C75_changed_partial`, `C75_changed_example`, `C75_one_config`, `C75_one_config_example`, `C76_hidden_once`, `C76_config_once`, `C76_refines`, `C77_same_program_partial`, `C77_outside`, `C77_short_tokens`, `C77_editor`, `C77_false_string`, `C77_ex`, `C78_added`, `C78_failures`, `C78_changed`, `C78_summary`, `C78_order`, `C78_files`, `C78_false_hidden`, `C78_ex`, `C79_safe_fixes_keep_values_partial`, `C79_around_partial`, `C79_passes_partial`, `C79_file_partial`, `C79_ex_passes`, `C79_ex_file`, `C79_false_redundant_equals`, `C79_false_redundant_ifelse`, `C79_false_is_numeric`, `C79_false_any_is_na`, `C79_false_any_is_na_package`, `C79_false_equals_na`, `C79_false_equals_na_names`, `C79_false_class_equals`, `C79_false_class_identical`, `C79_false_lengths`, `C79_false_lengths_names`, `C79_false_seq`, `C79_false_seq_names`, `C79_false_seq2`, `C79_false_sort`, `C79_false_sample_int`, `C79_false_string_boundary`, `C79_false_unnecessary_nesting`, `C79_false_true_false_symbol`, `C80_reports`, `C80_said_ranges`, `C80_found`, `C80_fixes`, `C80_fix_ranges`, `C80_handed_on`, `C80_refused`, `C80_failures`, `C80_ex_handed_on`, `C80_ex_said_ranges`, `C80_ex_fix_ranges`, `ruleLints_runs`, `C80_ex_check`, `C80_ex_reports`, `C80_ex_found`, `C80_ex_fixes`
* axioms **propext, Quot.sound**: `C01_rule_names`, `C06_safe_fixes_only_partial`, `C07_fixes`, `C07_only_fixes`, `C09_filter_fast_path`, `C09_collect_fast_path`, `C10_outdated_iff`, `C10_removal_safe`, `C11_blanket`, `C11_array_header`, `C14_chunks`, `C14_chunk_lines`, `C14_slice`, `C14_disjoint`, `Chunks_unique`, `C15_rmd_reports`, `C15_documents`, `C18_rewrites_only_fixed_ranges_partial`, `C18_no_panic_partial`, `C19_apart_no_panic`, `Rewritten_unique`, `C19_overlap_skipped_partial`, `C19_exact`, `C19_apart_no_panic`, `C20_no_fix_no_change`, `C21_recheck`, `C21_documents_untouched`, `C22_terminates`, `C22_first_fix_applied`, `C22_false_endless`, `C24_not_consulted`, `C26_depends_versions`, `C26_no_depends`, `C26_project_version`, `C28_false_statistics`, `C28_false_add_ignore`, `C29_hidden_all_or_none`, `C31_insert_point`, `C31_always_found`, `C32_isolated`, `C32_all_finish`, `C33_crash_consistent`, `C33_untouched`, `C37_false_bare_return`, `C39_reports_in_order`, `C39_top_level_in_order`, `C39_top_level_reports`, `C39_false_dead_branch_message`, `C40_stopping_functions`, `C42_full_replacement_refused`, `C43_pattern`, `C43_inner_slash_never_matches`, `C45_false_document`, `C46_false_after_panics`, `C47_each_file_once`, `C47_editor`, `C48_false_given_twice`, `C49_sorted`, `C49_false_src_directory`, `C50_grammar_unambiguous`, `C51_fixes_keep_structure`, `C51_fixes_with_room`, `safe_repeatRule`, `safe_unnecessaryNesting`, `safe_expectNot`, `room_coalesce`, `safe_assignment_eq`, `room_assignment_right`, `room_assignment_left`, `C51_false_any_duplicated`, `C51_false_length_test`, `C51_false_comparison_negation`, `C51_false_comparison_negation_lines`, `C51_false_redundant_ifelse`, `C51_false_outer_negation`, `C51_false_all_equal`, `C51_false_coalesce`, `C51_false_coalesce_unreadable`, `C51_false_assignment`, `C51_false_assignment_equal`, `C51_false_repeat`, `C51_false_unnecessary_nesting`, `C51_false_expect_not`, `lawRules_cover`, `C53_fix_table`, `C54_invalid_iff`, `C54_valid_passes`, `C54_invalid_found`, `C54_useless`, `C54_call`, `C54_after_pipe`, `C54_fix`, `C52_false_sprintf_codes`, `C55_if_always_true`, `C55_if_always_true_constants`, `C55_vector_logic`, `C55_vector_logic_advice`, `C55_for_loop_dup_index`, `C55_for_loop_index`, `C55_browser`, `C55_undesirable_function`, `C55_empty_assignment`, `C55_download_file`, `C55_duplicated_arguments_found`, `C55_duplicated_arguments_skipped`, `C55_options`, `C57_cuts_possible`, `C57_cuts_unique`, `C58_prints`, `C58_errors`, `C60_false_no_files`, `C61_summary`, `C61_disjoint`, `C62_sections`, `C62_deprecated`, `C62_sections`, `C64_comments_around`, `C64_not_always`, `C66_one_reading`, `C66_lossless`, `C66_gaps`, `C66_false_glued`, `C68_no_default_exclude`, `C68_threads`, `C68_ex_run`, `C69_false_excluded_directory`, `C71_beside_partial`, `C71_not_found`, `C71_false_package`, `C71_beside_example`, `C71_not_found_example`, `C72_example_status`, `C73_false_tests`, `C73_false_threshold`, `C75_false_own_changes`, `C75_false_uncovered`, `C75_false_config`, `C76_encoding`, `C76_hidden_count`, `C76_config_named`, `C78_false_errors`, `C81_colours`, `C82_rows`
<!-- axioms:end -->
