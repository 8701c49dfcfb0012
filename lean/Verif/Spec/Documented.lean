import Verif.Rules
/-!
# Specification: the table of rules in the documentation (docs/rules.qmd) (C82)
-/
namespace Jarl.Spec
open Jarl

/-- A row: name, groups, "Has fix" (✅ safe, ❗ unsafe, ❌ none), "Disabled by default", "R >= …". -/
structure DocRow where
  name : Str
  groups : List Category
  fix : FixStatus
  disabled : Bool
  version : Option RVersion
deriving DecidableEq

/-- docs/rules.qmd 51-114. -/
def docTable : List DocRow := [
  ⟨cs! "all_equal", [.susp], .unsafe_, false, none⟩,
  ⟨cs! "any_duplicated", [.perf], .safe, false, none⟩,
  ⟨cs! "any_is_na", [.perf], .safe, false, none⟩,
  ⟨cs! "assignment", [.read], .safe, true, none⟩,
  ⟨cs! "blanket_suppression", [.comm], .none, false, none⟩,
  ⟨cs! "browser", [.corr], .none, false, none⟩,
  ⟨cs! "class_equals", [.susp], .unsafe_, false, none⟩,
  ⟨cs! "coalesce", [.read], .safe, false, some ⟨4, 4, 0⟩⟩,
  ⟨cs! "comparison_negation", [.read], .safe, false, none⟩,
  ⟨cs! "download_file", [.susp], .none, false, none⟩,
  ⟨cs! "duplicated_arguments", [.susp], .none, false, none⟩,
  ⟨cs! "duplicated_function_definition", [.corr], .none, false, none⟩,
  ⟨cs! "empty_assignment", [.read], .none, false, none⟩,
  ⟨cs! "equals_na", [.corr], .safe, false, none⟩,
  ⟨cs! "equals_nan", [.corr], .safe, false, none⟩,
  ⟨cs! "equals_null", [.corr], .safe, false, none⟩,
  ⟨cs! "expect_length", [.testthat], .safe, true, none⟩,
  ⟨cs! "expect_match", [.testthat], .safe, true, none⟩,
  ⟨cs! "expect_named", [.testthat], .safe, true, none⟩,
  ⟨cs! "expect_no_match", [.testthat], .safe, true, none⟩,
  ⟨cs! "expect_not", [.testthat], .safe, true, none⟩,
  ⟨cs! "expect_null", [.testthat], .safe, true, none⟩,
  ⟨cs! "expect_s3_class", [.testthat], .safe, true, none⟩,
  ⟨cs! "expect_true_false", [.testthat], .safe, true, none⟩,
  ⟨cs! "expect_type", [.testthat], .safe, true, none⟩,
  ⟨cs! "fixed_regex", [.perf], .safe, true, none⟩,
  ⟨cs! "for_loop_dup_index", [.corr, .susp], .none, false, none⟩,
  ⟨cs! "for_loop_index", [.read], .none, false, none⟩,
  ⟨cs! "grepv", [.read], .safe, false, some ⟨4, 5, 0⟩⟩,
  ⟨cs! "if_always_true", [.read, .susp], .none, false, none⟩,
  ⟨cs! "implicit_assignment", [.read], .none, false, none⟩,
  ⟨cs! "internal_function", [.susp], .none, false, none⟩,
  ⟨cs! "invalid_chunk_suppression", [.comm], .none, false, none⟩,
  ⟨cs! "is_numeric", [.read], .safe, false, none⟩,
  ⟨cs! "length_levels", [.read], .safe, false, none⟩,
  ⟨cs! "length_test", [.corr], .safe, false, none⟩,
  ⟨cs! "lengths", [.perf, .read], .safe, false, none⟩,
  ⟨cs! "list2df", [.perf, .read], .safe, false, some ⟨4, 0, 0⟩⟩,
  ⟨cs! "matrix_apply", [.perf], .safe, false, none⟩,
  ⟨cs! "misnamed_suppression", [.comm], .none, false, none⟩,
  ⟨cs! "misplaced_file_suppression", [.comm], .none, false, none⟩,
  ⟨cs! "misplaced_suppression", [.comm], .none, false, none⟩,
  ⟨cs! "numeric_leading_zero", [.read], .safe, false, none⟩,
  ⟨cs! "outer_negation", [.perf, .read], .safe, false, none⟩,
  ⟨cs! "redundant_equals", [.read], .safe, false, none⟩,
  ⟨cs! "redundant_ifelse", [.corr, .perf, .read], .safe, false, none⟩,
  ⟨cs! "repeat", [.read], .safe, false, none⟩,
  ⟨cs! "sample_int", [.read], .safe, false, none⟩,
  ⟨cs! "seq", [.susp], .safe, false, none⟩,
  ⟨cs! "seq2", [.susp], .safe, false, none⟩,
  ⟨cs! "sort", [.perf, .read], .safe, false, none⟩,
  ⟨cs! "sprintf", [.corr, .susp], .safe, false, none⟩,
  ⟨cs! "string_boundary", [.perf, .read], .safe, false, none⟩,
  ⟨cs! "system_file", [.read], .safe, false, none⟩,
  ⟨cs! "true_false_symbol", [.read], .none, false, none⟩,
  ⟨cs! "undesirable_function", [.corr], .none, false, none⟩,
  ⟨cs! "unexplained_suppression", [.comm], .none, false, none⟩,
  ⟨cs! "unmatched_range_suppression", [.comm], .none, false, none⟩,
  ⟨cs! "unnecessary_nesting", [.read], .safe, true, none⟩,
  ⟨cs! "unreachable_code", [.read, .susp], .none, false, none⟩,
  ⟨cs! "unused_function", [.corr], .none, false, none⟩,
  ⟨cs! "unused_suppression", [.comm], .none, false, none⟩,
  ⟨cs! "vector_logic", [.perf], .none, false, none⟩,
  ⟨cs! "which_grepl", [.perf, .read], .safe, false, none⟩]

/-- The rule is as the row says. -/
def AsDocumented (r : Rule) (d : DocRow) : Prop :=
  r.name = d.name ∧ r.categories = d.groups ∧ r.fixStatus = d.fix ∧ r.enabledByDefault = !d.disabled ∧ r.minVersion = d.version

end Jarl.Spec
