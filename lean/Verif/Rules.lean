import Verif.Text
/-!
# Rules: the rule table (generated by tools/gen_rules.py from crates/jarl-core/src/rule_set.rs)

Models rule_set.rs:1-220 (types, accessors) and the `declare_rules!` table, rule_set.rs:221-671.
-/

namespace Jarl

/-- rule_set.rs:6-19 `Category`. -/
inductive Category | comm | corr | susp | perf | read | testthat
  deriving DecidableEq, Repr

/-- rule_set.rs:22-31 `Category::as_str`. -/
def Category.name : Category → Str
  | .comm => cs! "COMM" | .corr => cs! "CORR" | .susp => cs! "SUSP"
  | .perf => cs! "PERF" | .read => cs! "READ" | .testthat => cs! "TESTTHAT"

/-- rule_set.rs:33-40 `Category::ALL`. -/
def Category.all : List Category := [.comm, .corr, .susp, .perf, .read, .testthat]

/-- rule_set.rs:49-63 `FromStr for Category`. -/
def Category.parse (s : Str) : Option Category :=
  if s = cs! "COMM" then some .comm
  else if s = cs! "CORR" then some .corr
  else if s = cs! "SUSP" then some .susp
  else if s = cs! "PERF" then some .perf
  else if s = cs! "READ" then some .read
  else if s = cs! "TESTTHAT" then some .testthat
  else none

/-- rule_set.rs:72-78 `FixStatus`. -/
inductive FixStatus | none | safe | unsafe_
  deriving DecidableEq, Repr

/-- An R version `(major, minor, patch)`; Rust `(u32, u32, u32)`. -/
structure RVersion where
  major : Nat
  minor : Nat
  patch : Nat
  deriving DecidableEq, Repr

/-- The derived lexicographic `<=` on Rust tuples `(u32, u32, u32)`. -/
def RVersion.le (a b : RVersion) : Bool :=
  a.major < b.major || (a.major == b.major &&
    (a.minor < b.minor || (a.minor == b.minor && a.patch ≤ b.patch)))

/-- rule_set.rs:221-671 `enum Rule` (one constructor per `declare_rules!` entry). -/
inductive Rule
  | allEqual | anyDuplicated | anyIsNa | assignment
  | blanketSuppression | invalidChunkSuppression | browser | classEquals
  | comparisonNegation | coalesce | downloadFile | duplicatedArguments
  | duplicatedFunctionDefinition | emptyAssignment | equalsNa | equalsNaN
  | equalsNull | expectLength | expectMatch | expectNamed
  | expectNoMatch | expectNot | expectNull | expectS3Class
  | expectTrueFalse | expectType | fixedRegex | forLoopDupIndex
  | forLoopIndex | grepv | ifAlwaysTrue | implicitAssignment
  | internalFunction | isNumeric | lengthLevels | lengthTest
  | lengths | list2df | matrixApply | misplacedFileSuppression
  | misplacedSuppression | misnamedSuppression | numericLeadingZero | outdatedSuppression
  | outerNegation | redundantEquals | redundantIfelse | repeat_
  | sampleInt | seq | seq2 | sort
  | sprintf | stringBoundary | systemFile | trueFalseSymbol
  | undesirableFunction | unexplainedSuppression | unmatchedRangeSuppression | unnecessaryNesting
  | unreachableCode | unusedFunction | vectorLogic | whichGrepl
  deriving DecidableEq, Repr

/-- rule_set.rs:114-118 `Rule::name`, table rule_set.rs:221-671. -/
def Rule.name : Rule → Str
  | .allEqual => cs! "all_equal"  -- rule_set.rs:222
  | .anyDuplicated => cs! "any_duplicated"  -- rule_set.rs:229
  | .anyIsNa => cs! "any_is_na"  -- rule_set.rs:236
  | .assignment => cs! "assignment"  -- rule_set.rs:243
  | .blanketSuppression => cs! "blanket_suppression"  -- rule_set.rs:250
  | .invalidChunkSuppression => cs! "invalid_chunk_suppression"  -- rule_set.rs:257
  | .browser => cs! "browser"  -- rule_set.rs:265
  | .classEquals => cs! "class_equals"  -- rule_set.rs:272
  | .comparisonNegation => cs! "comparison_negation"  -- rule_set.rs:279
  | .coalesce => cs! "coalesce"  -- rule_set.rs:286
  | .downloadFile => cs! "download_file"  -- rule_set.rs:293
  | .duplicatedArguments => cs! "duplicated_arguments"  -- rule_set.rs:300
  | .duplicatedFunctionDefinition => cs! "duplicated_function_definition"  -- rule_set.rs:307
  | .emptyAssignment => cs! "empty_assignment"  -- rule_set.rs:314
  | .equalsNa => cs! "equals_na"  -- rule_set.rs:321
  | .equalsNaN => cs! "equals_nan"  -- rule_set.rs:328
  | .equalsNull => cs! "equals_null"  -- rule_set.rs:335
  | .expectLength => cs! "expect_length"  -- rule_set.rs:342
  | .expectMatch => cs! "expect_match"  -- rule_set.rs:349
  | .expectNamed => cs! "expect_named"  -- rule_set.rs:356
  | .expectNoMatch => cs! "expect_no_match"  -- rule_set.rs:363
  | .expectNot => cs! "expect_not"  -- rule_set.rs:370
  | .expectNull => cs! "expect_null"  -- rule_set.rs:377
  | .expectS3Class => cs! "expect_s3_class"  -- rule_set.rs:384
  | .expectTrueFalse => cs! "expect_true_false"  -- rule_set.rs:391
  | .expectType => cs! "expect_type"  -- rule_set.rs:398
  | .fixedRegex => cs! "fixed_regex"  -- rule_set.rs:405
  | .forLoopDupIndex => cs! "for_loop_dup_index"  -- rule_set.rs:412
  | .forLoopIndex => cs! "for_loop_index"  -- rule_set.rs:419
  | .grepv => cs! "grepv"  -- rule_set.rs:426
  | .ifAlwaysTrue => cs! "if_always_true"  -- rule_set.rs:433
  | .implicitAssignment => cs! "implicit_assignment"  -- rule_set.rs:440
  | .internalFunction => cs! "internal_function"  -- rule_set.rs:447
  | .isNumeric => cs! "is_numeric"  -- rule_set.rs:454
  | .lengthLevels => cs! "length_levels"  -- rule_set.rs:461
  | .lengthTest => cs! "length_test"  -- rule_set.rs:468
  | .lengths => cs! "lengths"  -- rule_set.rs:475
  | .list2df => cs! "list2df"  -- rule_set.rs:482
  | .matrixApply => cs! "matrix_apply"  -- rule_set.rs:489
  | .misplacedFileSuppression => cs! "misplaced_file_suppression"  -- rule_set.rs:496
  | .misplacedSuppression => cs! "misplaced_suppression"  -- rule_set.rs:503
  | .misnamedSuppression => cs! "misnamed_suppression"  -- rule_set.rs:510
  | .numericLeadingZero => cs! "numeric_leading_zero"  -- rule_set.rs:517
  | .outdatedSuppression => cs! "outdated_suppression"  -- rule_set.rs:524
  | .outerNegation => cs! "outer_negation"  -- rule_set.rs:531
  | .redundantEquals => cs! "redundant_equals"  -- rule_set.rs:538
  | .redundantIfelse => cs! "redundant_ifelse"  -- rule_set.rs:545
  | .repeat_ => cs! "repeat"  -- rule_set.rs:552
  | .sampleInt => cs! "sample_int"  -- rule_set.rs:559
  | .seq => cs! "seq"  -- rule_set.rs:566
  | .seq2 => cs! "seq2"  -- rule_set.rs:573
  | .sort => cs! "sort"  -- rule_set.rs:580
  | .sprintf => cs! "sprintf"  -- rule_set.rs:587
  | .stringBoundary => cs! "string_boundary"  -- rule_set.rs:594
  | .systemFile => cs! "system_file"  -- rule_set.rs:601
  | .trueFalseSymbol => cs! "true_false_symbol"  -- rule_set.rs:608
  | .undesirableFunction => cs! "undesirable_function"  -- rule_set.rs:615
  | .unexplainedSuppression => cs! "unexplained_suppression"  -- rule_set.rs:622
  | .unmatchedRangeSuppression => cs! "unmatched_range_suppression"  -- rule_set.rs:629
  | .unnecessaryNesting => cs! "unnecessary_nesting"  -- rule_set.rs:636
  | .unreachableCode => cs! "unreachable_code"  -- rule_set.rs:643
  | .unusedFunction => cs! "unused_function"  -- rule_set.rs:650
  | .vectorLogic => cs! "vector_logic"  -- rule_set.rs:657
  | .whichGrepl => cs! "which_grepl"  -- rule_set.rs:664

/-- rule_set.rs:121-125 `Rule::categories`. -/
def Rule.categories : Rule → List Category
  | .allEqual => [.susp]
  | .anyDuplicated => [.perf]
  | .anyIsNa => [.perf]
  | .assignment => [.read]
  | .blanketSuppression => [.comm]
  | .invalidChunkSuppression => [.comm]
  | .browser => [.corr]
  | .classEquals => [.susp]
  | .comparisonNegation => [.read]
  | .coalesce => [.read]
  | .downloadFile => [.susp]
  | .duplicatedArguments => [.susp]
  | .duplicatedFunctionDefinition => [.corr]
  | .emptyAssignment => [.read]
  | .equalsNa => [.corr]
  | .equalsNaN => [.corr]
  | .equalsNull => [.corr]
  | .expectLength => [.testthat]
  | .expectMatch => [.testthat]
  | .expectNamed => [.testthat]
  | .expectNoMatch => [.testthat]
  | .expectNot => [.testthat]
  | .expectNull => [.testthat]
  | .expectS3Class => [.testthat]
  | .expectTrueFalse => [.testthat]
  | .expectType => [.testthat]
  | .fixedRegex => [.perf]
  | .forLoopDupIndex => [.corr, .susp]
  | .forLoopIndex => [.read]
  | .grepv => [.read]
  | .ifAlwaysTrue => [.read, .susp]
  | .implicitAssignment => [.read]
  | .internalFunction => [.susp]
  | .isNumeric => [.read]
  | .lengthLevels => [.read]
  | .lengthTest => [.corr]
  | .lengths => [.perf, .read]
  | .list2df => [.perf, .read]
  | .matrixApply => [.perf]
  | .misplacedFileSuppression => [.comm]
  | .misplacedSuppression => [.comm]
  | .misnamedSuppression => [.comm]
  | .numericLeadingZero => [.read]
  | .outdatedSuppression => [.comm]
  | .outerNegation => [.perf, .read]
  | .redundantEquals => [.read]
  | .redundantIfelse => [.corr, .perf, .read]
  | .repeat_ => [.read]
  | .sampleInt => [.read]
  | .seq => [.susp]
  | .seq2 => [.susp]
  | .sort => [.perf, .read]
  | .sprintf => [.corr, .susp]
  | .stringBoundary => [.perf, .read]
  | .systemFile => [.read]
  | .trueFalseSymbol => [.read]
  | .undesirableFunction => [.corr]
  | .unexplainedSuppression => [.comm]
  | .unmatchedRangeSuppression => [.comm]
  | .unnecessaryNesting => [.read]
  | .unreachableCode => [.read, .susp]
  | .unusedFunction => [.corr]
  | .vectorLogic => [.perf]
  | .whichGrepl => [.perf, .read]

/-- rule_set.rs:128-132,178-180 `Rule::default_status` / `is_enabled_by_default`. -/
def Rule.enabledByDefault : Rule → Bool
  | .assignment => false
  | .expectLength => false
  | .expectMatch => false
  | .expectNamed => false
  | .expectNoMatch => false
  | .expectNot => false
  | .expectNull => false
  | .expectS3Class => false
  | .expectTrueFalse => false
  | .expectType => false
  | .fixedRegex => false
  | .sampleInt => false
  | .unnecessaryNesting => false
  | .unusedFunction => false
  | _ => true

/-- rule_set.rs:135-139 `Rule::fix_status`. -/
def Rule.fixStatus : Rule → FixStatus
  | .allEqual => .unsafe_
  | .anyDuplicated => .safe
  | .anyIsNa => .safe
  | .assignment => .safe
  | .blanketSuppression => .none
  | .invalidChunkSuppression => .none
  | .browser => .safe
  | .classEquals => .safe
  | .comparisonNegation => .safe
  | .coalesce => .safe
  | .downloadFile => .none
  | .duplicatedArguments => .none
  | .duplicatedFunctionDefinition => .none
  | .emptyAssignment => .safe
  | .equalsNa => .safe
  | .equalsNaN => .safe
  | .equalsNull => .safe
  | .expectLength => .safe
  | .expectMatch => .safe
  | .expectNamed => .safe
  | .expectNoMatch => .safe
  | .expectNot => .safe
  | .expectNull => .safe
  | .expectS3Class => .safe
  | .expectTrueFalse => .safe
  | .expectType => .safe
  | .fixedRegex => .safe
  | .forLoopDupIndex => .none
  | .forLoopIndex => .none
  | .grepv => .safe
  | .ifAlwaysTrue => .none
  | .implicitAssignment => .none
  | .internalFunction => .none
  | .isNumeric => .safe
  | .lengthLevels => .safe
  | .lengthTest => .safe
  | .lengths => .safe
  | .list2df => .safe
  | .matrixApply => .safe
  | .misplacedFileSuppression => .none
  | .misplacedSuppression => .none
  | .misnamedSuppression => .none
  | .numericLeadingZero => .safe
  | .outdatedSuppression => .none
  | .outerNegation => .safe
  | .redundantEquals => .safe
  | .redundantIfelse => .safe
  | .repeat_ => .safe
  | .sampleInt => .safe
  | .seq => .safe
  | .seq2 => .safe
  | .sort => .safe
  | .sprintf => .safe
  | .stringBoundary => .safe
  | .systemFile => .safe
  | .trueFalseSymbol => .none
  | .undesirableFunction => .none
  | .unexplainedSuppression => .none
  | .unmatchedRangeSuppression => .none
  | .unnecessaryNesting => .safe
  | .unreachableCode => .none
  | .unusedFunction => .none
  | .vectorLogic => .none
  | .whichGrepl => .safe

/-- rule_set.rs:142-146 `Rule::minimum_r_version`. -/
def Rule.minVersion : Rule → Option RVersion
  | .coalesce => some ⟨4, 4, 0⟩
  | .grepv => some ⟨4, 5, 0⟩
  | .list2df => some ⟨4, 0, 0⟩
  | _ => none

/-- rule_set.rs:149-153 `Rule::deprecation` (the replacement rule name). -/
def Rule.deprecation : Rule → Option Str
  | .browser => some (cs! "undesirable_function")
  | _ => none

/-- rule_set.rs:213-216 `ALL_RULES` / `Rule::all`. -/
def Rule.all : List Rule := [
  .allEqual, .anyDuplicated, .anyIsNa, .assignment,
  .blanketSuppression, .invalidChunkSuppression, .browser, .classEquals,
  .comparisonNegation, .coalesce, .downloadFile, .duplicatedArguments,
  .duplicatedFunctionDefinition, .emptyAssignment, .equalsNa, .equalsNaN,
  .equalsNull, .expectLength, .expectMatch, .expectNamed,
  .expectNoMatch, .expectNot, .expectNull, .expectS3Class,
  .expectTrueFalse, .expectType, .fixedRegex, .forLoopDupIndex,
  .forLoopIndex, .grepv, .ifAlwaysTrue, .implicitAssignment,
  .internalFunction, .isNumeric, .lengthLevels, .lengthTest,
  .lengths, .list2df, .matrixApply, .misplacedFileSuppression,
  .misplacedSuppression, .misnamedSuppression, .numericLeadingZero, .outdatedSuppression,
  .outerNegation, .redundantEquals, .redundantIfelse, .repeat_,
  .sampleInt, .seq, .seq2, .sort,
  .sprintf, .stringBoundary, .systemFile, .trueFalseSymbol,
  .undesirableFunction, .unexplainedSuppression, .unmatchedRangeSuppression, .unnecessaryNesting,
  .unreachableCode, .unusedFunction, .vectorLogic, .whichGrepl]

/-- rule_set.rs:193-198 `Rule::from_name`: a Rust `match` on the literals in table order, i.e. the
first rule whose name literal equals the string. -/
def Rule.fromName (s : Str) : Option Rule := Rule.all.find? (fun r => r.name = s)

/-- rule_set.rs:163-176 -/
def Rule.hasSafeFix (r : Rule) : Bool := r.fixStatus = .safe
/-- rule_set.rs:168-170 -/
def Rule.hasUnsafeFix (r : Rule) : Bool := r.fixStatus = .unsafe_
/-- rule_set.rs:173-175 -/
def Rule.hasNoFix (r : Rule) : Bool := r.fixStatus = .none
/-- rule_set.rs:188-190 `has_category`. -/
def Rule.hasCategory (r : Rule) (c : Category) : Bool := r.categories.contains c

/-! ## Lemmas about the table -/

theorem Rule.mem_all (r : Rule) : r ∈ Rule.all := by cases r <;> decide

theorem Rule.all_nodup : Rule.all.Nodup := by decide +kernel

theorem Rule.names_nodup : (Rule.all.map Rule.name).Nodup := by decide +kernel

theorem nodup_map_inj {α β} {f : α → β} {l : List α} (h : (l.map f).Nodup) {a b : α}
    (ha : a ∈ l) (hb : b ∈ l) (hab : f a = f b) : a = b := by
  induction l with
  | nil => cases ha
  | cons c l ih =>
    simp only [List.map_cons, List.nodup_cons, List.mem_map, not_exists, not_and] at h
    rcases List.mem_cons.mp ha with rfl | ha'
    · rcases List.mem_cons.mp hb with rfl | hb'
      · rfl
      · exact absurd hab.symm (h.1 b hb')
    · rcases List.mem_cons.mp hb with rfl | hb'
      · exact absurd hab (h.1 a ha')
      · exact ih h.2 ha' hb'

theorem Rule.name_inj {r s : Rule} (h : r.name = s.name) : r = s :=
  nodup_map_inj Rule.names_nodup (Rule.mem_all r) (Rule.mem_all s) h

theorem Rule.fromName_eq_some {s : Str} {r : Rule} : Rule.fromName s = some r ↔ r.name = s := by
  unfold Rule.fromName
  constructor
  · intro h
    have := List.find?_some h
    simpa using this
  · intro h
    subst h
    cases hf : Rule.all.find? (fun r' => decide (r'.name = r.name)) with
    | none =>
      have := List.find?_eq_none.mp hf r (Rule.mem_all r)
      simp at this
    | some r' =>
      have := List.find?_some hf
      simp at this
      rw [Rule.name_inj this]

theorem Rule.fromName_eq_none {s : Str} : Rule.fromName s = none ↔ ∀ r : Rule, r.name ≠ s := by
  constructor
  · intro h r hr
    rw [Rule.fromName_eq_some.mpr hr] at h; cases h
  · intro h
    cases hf : Rule.fromName s with
    | none => rfl
    | some r => exact absurd (Rule.fromName_eq_some.mp hf) (h r)

theorem Category.parse_eq_some {s : Str} {c : Category} : Category.parse s = some c ↔ c.name = s := by
  constructor
  · intro h
    unfold Category.parse at h
    repeat' split at h
    all_goals first
      | (cases h; subst_vars; rfl)
      | cases h
  · rintro rfl; cases c <;> decide

theorem Category.mem_all (c : Category) : c ∈ Category.all := by cases c <;> decide

/-- Rule names consist of lower-case letters, digits and underscores, and are non-empty. -/
def isRuleChar (c : Char) : Bool :=
  (97 ≤ c.toNat && c.toNat ≤ 122) || (48 ≤ c.toNat && c.toNat ≤ 57) || c = '_'

theorem Rule.name_chars (r : Rule) : (∀ c ∈ r.name, isRuleChar c = true) ∧ r.name ≠ [] := by
  cases r <;> decide +kernel

end Jarl
