import Verif.Props.RFixFalse
/-!
# C51: fixes keep the structure of the program around them
-/
namespace Jarl
open Spec

/-- For every program, every place in it, and every one of these rules: if the rule proposes a fix there, and there are no comments inside the
replaced code, then the fixed text is R code again, and R reads it as the old program with one expression in place of another. -/
theorem C51_fixes_keep_structure : ∀ q ∈ keepingRules, SafeRule q.2 := by
  simp only [keepingRules, List.forall_mem_cons, List.not_mem_nil, false_imp_iff, implies_true, and_true]
  exact ⟨safe_allEqualTrue, safe_anyIsNa, safe_anyIsNa2, safe_classIdentical, safe_classEquals, safe_equalsNa, safe_equalsNan, safe_equalsNull,
    safe_expectLength, safe_expectMatch _ _, safe_expectNamed, safe_expectMatch _ _, safe_expectNull, safe_expectS3Class, safe_expectTrueFalse,
    safe_expectType, safe_fixedRegex, safe_grepv, safe_isNumeric, safe_lengthLevels, safe_lengths, safe_list2df, safe_matrixApply,
    safe_numericLeadingZero, safe_redundantEquals, safe_sampleInt, safe_seq, safe_seq2, safe_sortRule, safe_stringBoundary, safe_systemFile,
    safe_trueFalseSymbol, safe_whichGrepl, safe_sprintfRule⟩

/-- The other rules keep the structure if the code is on one line (or in parentheses) and the place has room for the new operator. -/
theorem C51_fixes_with_room : ∀ q ∈ roomRules, RoomRule q.2 := by
  have weaken : ∀ {r}, RoomRule' r → RoomRule r := fun h ts p z ed hp hz hr hc _ => h ts p z ed hp hz hr hc
  simp only [roomRules, List.forall_mem_cons, List.not_mem_nil, false_imp_iff, implies_true, and_true]
  exact ⟨weaken room_allEqualFalse, weaken room_anyDuplicated, room_comparisonNegation, room_lengthTest, weaken room_outerNegation, room_redundantIfelse⟩

/-- The hypotheses are met: `y <- any(is.na(x))`. -/
example : ∃ ts p z ed, Parses ts p ∧ z.prog = p ∧ anyIsNa z = some ed ∧ innerComments (toks ed.z.e) = false ∧ edited ed =
    toks (prog1 (.bin (nm (cs! "y")) .none .assign (cl (cs! "anyNA") (nm (cs! "x"))))) :=
  ⟨_, _, ⟨[.binR (nm (cs! "y")) .none .assign, stmt1], cl (cs! "any") (cl (cs! "is.na") (nm (cs! "x")))⟩, _,
    (show Parses (toks (prog1 (.bin (nm (cs! "y")) .none .assign (cl (cs! "any") (cl (cs! "is.na") (nm (cs! "x"))))))) _ by reads), rfl, rfl, rfl, rfl⟩

/-- There is room for a comparison: `y <- any(duplicated(x))`. -/
example : ∃ ts p z ed, Parses ts p ∧ z.prog = p ∧ anyDuplicated z = some ed ∧ innerComments (toks ed.z.e) = false ∧ oneLine (toks ed.z.e) ∧ room ed.z.fs 20 :=
  ⟨_, _, ⟨[.binR (nm (cs! "y")) .none .assign, stmt1], cl (cs! "any") (cl (cs! "duplicated") (nm (cs! "x")))⟩, _,
    (show Parses (toks (prog1 (.bin (nm (cs! "y")) .none .assign (cl (cs! "any") (cl (cs! "duplicated") (nm (cs! "x"))))))) _ by reads), rfl, rfl, rfl,
    by simp [oneLine, toks, fixAt, cl, nm, Gap.nl], by decide, show rbp .assign ≤ 20 by decide⟩

end Jarl
