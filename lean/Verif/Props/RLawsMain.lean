import Verif.Props.RLawsMatch
import Verif.Props.RFixMain
/-!
# C52: what the rules put in is what they document
-/
namespace Jarl
open Spec

/-- The rules, by name, with what they do not check themselves. -/
def lawRules : List (Str × (Zip → Option Edit) × (Zip → Prop)) :=
  [(cs! "all_equal", allEqualTrue, always), (cs! "all_equal", allEqualFalse, onlyNested), (cs! "any_duplicated", anyDuplicated, onlyNested),
   (cs! "any_is_na", anyIsNa, onlyNested), (cs! "any_is_na", anyIsNa2, always), (cs! "assignment <-", assignment .assign, plainSides),
   (cs! "assignment =", assignment .eq, plainSides), (cs! "class_equals", classIdentical, onlyTwo), (cs! "class_equals", classEquals, sidesOne),
   (cs! "coalesce", coalesce, tightSides), (cs! "comparison_negation", comparisonNegation, always), (cs! "equals_na", equalsNa, always),
   (cs! "equals_nan", equalsNan, always), (cs! "equals_null", equalsNull, notNullIn), (cs! "expect_length", expectLength, innerPlain),
   (cs! "expect_match", (expectMatch · (cs! "expect_true") (cs! "expect_match")), innerNames), (cs! "expect_named", expectNamed, atMostTwo),
   (cs! "expect_no_match", (expectMatch · (cs! "expect_false") (cs! "expect_no_match")), innerNames), (cs! "expect_not", expectNot, notEq),
   (cs! "expect_null", expectNull, expectArgs), (cs! "expect_s3_class", expectS3Class, innerPlain), (cs! "expect_true_false", expectTrueFalse, twoArgs),
   (cs! "expect_type", expectType, innerPlain), (cs! "fixed_regex", fixedRegex, noOptions), (cs! "grepv", grepv, valueTrue), (cs! "is_numeric", isNumeric, always),
   (cs! "length_levels", lengthLevels, onlyNested), (cs! "length_test", lengthTest, onlyPlain), (cs! "lengths", lengths, onlyFun), (cs! "list2df", list2df, always),
   (cs! "matrix_apply", matrixApply, always), (cs! "numeric_leading_zero", numericLeadingZero, always), (cs! "outer_negation", outerNegation, onlyNegation),
   (cs! "redundant_equals", redundantEquals, always), (cs! "redundant_ifelse", redundantIfelse, always), (cs! "repeat", repeatRule, statementLines),
   (cs! "sample_int", sampleInt, firstPlain), (cs! "seq", seq, always), (cs! "seq2", seq2, always), (cs! "sort", sortRule, sortOptions),
   (cs! "string_boundary", stringBoundary, boundaryPlaces), (cs! "system_file", systemFile, oneUnnamed), (cs! "true_false_symbol", trueFalseSymbol, always),
   (cs! "unnecessary_nesting", unnecessaryNesting, always), (cs! "which_grepl", whichGrepl, onlyNested), (cs! "sprintf", sprintfRule, plainFormat)]

/-- For every program, every place in it, and every one of these rules: if the rule proposes a fix there, if there are no comments inside the replaced code, it is not the right side
of a pipe, and the condition holds, then what R reads in its place in the fixed program is what the documentation of the rule says for the code that was there. -/
theorem C52_fixes_as_documented : ∀ q ∈ lawRules, Lawful q.1 q.2.1 q.2.2 := by
  simp only [lawRules, List.forall_mem_cons, List.not_mem_nil, false_imp_iff, implies_true, and_true]
  exact ⟨law_allEqualTrue, law_allEqualFalse, law_anyDuplicated, law_anyIsNa, law_anyIsNa2, law_assignment .assign (Or.inl rfl), law_assignment .eq (Or.inr rfl),
    law_classIdentical, law_classEquals, law_coalesce, law_comparisonNegation, law_equalsNa, law_equalsNan, law_equalsNull, law_expectLength, law_expectMatch true,
    law_expectNamed, law_expectMatch false, law_expectNot, law_expectNull, law_expectS3Class, law_expectTrueFalse, law_expectType, law_fixedRegex, law_grepv, law_isNumeric,
    law_lengthLevels, law_lengthTest, law_lengths, law_list2df, law_matrixApply, law_numericLeadingZero, law_outerNegation, law_redundantEquals, law_redundantIfelse,
    law_repeatRule, law_sampleInt, law_seq, law_seq2, law_sortRule, law_stringBoundary, law_systemFile, law_trueFalseSymbol, law_unnecessaryNesting, law_whichGrepl, law_sprintfRule⟩

/-- All rules of C51 are among these. -/
theorem lawRules_cover : ∀ q ∈ keepingRules ++ roomRules, ∃ c, (q.1, q.2, c) ∈ lawRules := by
  simp only [keepingRules, roomRules, List.cons_append, List.nil_append, List.forall_mem_cons, List.not_mem_nil, false_imp_iff, implies_true, and_true]
  refine ⟨?_, ?_, ?_, ?_, ?_, ?_, ?_, ?_, ?_, ?_, ?_, ?_, ?_, ?_, ?_, ?_, ?_, ?_, ?_, ?_, ?_, ?_, ?_, ?_, ?_, ?_, ?_, ?_, ?_, ?_, ?_, ?_, ?_, ?_, ?_, ?_, ?_, ?_, ?_, ?_⟩ <;>
    (refine ⟨?_, ?_⟩; rotate_left; · unfold lawRules; repeat (first | exact List.mem_cons_self | apply List.mem_cons_of_mem))

/-- For the rules that keep the structure everywhere: the fixed program is R code, there is one expression in the place of the old one, and it is the documented one. -/
theorem C52_fix_result : ∀ q ∈ lawRules, (q.1, q.2.1) ∈ keepingRules → ∀ ts p z ed, Parses ts p → z.prog = p → q.2.1 z = some ed → innerComments (toks ed.z.e) = false →
    piped ed.z.fs = false → q.2.2 ed.z →
    ∃ e', Placed ed e' ∧ Law q.1 (core ed.z.e) (core e') ∧ ∀ e'', Placed ed e'' → e'' = e' := by
  intro q hq hk ts p z ed hp hz h hc hpi hcond
  obtain ⟨_, _, e', he', ht, hpar⟩ := C51_fixes_keep_structure _ hk ts p z ed hp hz h hc
  refine ⟨e', ⟨he', ht, hpar⟩, C52_fixes_as_documented q hq ts p z ed e' hp hz h hc hpi hcond ⟨he', ht, hpar⟩, fun e'' h'' => ?_⟩
  have hw := WF_plug (fs := ed.z.fs) (e := e') hpar.2.1
  have hw'' := WF_plug (fs := ed.z.fs) (e := e'') h''.2.2.2.1
  exact expr_unique h''.1 he' hw'' (WF_free (isArgs_of_isArg (isArg_of_isExpr he')) hw) (h''.2.1.trans ht.symm)

/-- `T` and `F` as the function of a call (`T(x)`), in front of `$` or `@` (`T$x`), and as a side of a formula (`y ~ T`) are left alone. -/
theorem C52_true_false_left_alone (z : Zip) (ed : Edit) (h : trueFalseSymbol z = some ed) :
    ∀ f fs, z.fs = f :: fs → (∀ g a g2, f ≠ .callF g .par a g2) ∧ (∀ g b g2 k s, f ≠ .ext g b g2 k s) ∧ (∀ g r, f ≠ .binL g .tilde r) ∧ ∀ l g, f ≠ .binR l g .tilde := by
  intro f fs hf
  have ht : tfAllowed z.fs = true := by
    simp only [trueFalseSymbol, Option.bind_eq_bind, Option.bind_eq_some_iff] at h
    obtain ⟨_, _, h⟩ := h
    cases ha : tfAllowed z.fs with
    | true => rfl
    | false => simp [ha, guard] at h
  rw [hf] at ht
  refine ⟨?_, ?_, ?_, ?_⟩ <;> (intros; rintro rfl; simp [tfAllowed] at ht)

end Jarl
