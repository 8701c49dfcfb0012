import Verif.Props.RFoundExamples
/-!
# C63: code that the rules document but do not find

Without the conditions of `C63_found`: programs on which the rules report nothing.
-/
namespace Jarl
open Spec

/-- The rule finds all code it documents, without conditions. -/
def AlwaysFound (name : Str) : Prop :=
  ∀ ts p want z new, Parses ts p → LookedAt p z → Law name (bare z.e) new → FoundBy want p name z

/-- The rule finds all code it documents, also if there are parentheses in it. -/
def AlwaysFoundCore (name : Str) : Prop :=
  ∀ ts p want z new, Parses ts p → LookedAt p z → Law name (core z.e) new → FoundBy want p name z

theorem missed {name : Str} (fs : List Frame) (e : Node) (h : (isStmts (plug fs e) && wf .top (plug fs e) && decide (Look.node ⟨fs, e⟩ ∈ visits (plug fs e)) &&
    (proposed (fun n => n = name) .assign (plug fs e)).all (fun ed => ed.z ≠ ⟨fs, e⟩)) = true) :
    Parses (toks (plug fs e)) (plug fs e) ∧ LookedAt (plug fs e) ⟨fs, e⟩ ∧ ¬ FoundBy .assign (plug fs e) name ⟨fs, e⟩ := by
  simp only [Bool.and_eq_true, decide_eq_true_eq, List.all_eq_true] at h
  refine ⟨⟨h.1.1.1, wf_WF h.1.1.2, rfl⟩, (C53_looked_at _ _).mp h.1.2, ?_⟩
  rintro ⟨ed, h1, h2⟩
  exact h.2 ed h1 h2

theorem not_always {name : Str} (fs : List Frame) (e : Node) {new} (h : (isStmts (plug fs e) && wf .top (plug fs e) && decide (Look.node ⟨fs, e⟩ ∈ visits (plug fs e)) &&
    (proposed (fun n => n = name) .assign (plug fs e)).all (fun ed => ed.z ≠ ⟨fs, e⟩)) = true) (hl : Law name (bare e) new) : ¬ AlwaysFound name :=
  fun hf => have ⟨h1, h2, h3⟩ := missed fs e h; h3 (hf _ _ _ _ _ h1 h2 hl)

theorem not_always_core {name : Str} (fs : List Frame) (e : Node) {new} (h : (isStmts (plug fs e) && wf .top (plug fs e) && decide (Look.node ⟨fs, e⟩ ∈ visits (plug fs e)) &&
    (proposed (fun n => n = name) .assign (plug fs e)).all (fun ed => ed.z ≠ ⟨fs, e⟩)) = true) (hl : Law name (core e) new) : ¬ AlwaysFoundCore name :=
  fun hf => have ⟨h1, h2, h3⟩ := missed fs e h; h3 (hf _ _ _ _ _ h1 h2 hl)

/-- `expect_equal(object = x, TRUE)` is not found. -/
theorem C63_false_expect_true_false : ¬ AlwaysFound (cs! "expect_true_false") :=
  not_always [stmt1] (cl (cs! "expect_equal") (a2 (arg (cs! "object") x') yes)) (by decide +kernel)
    (.expect_true_false (b := true) (as := [arg (cs! "object") x', yes]) (x := x') (Or.inl fn_self) rfl (by decide) (Or.inl ⟨rfl, rfl⟩) text_true)

/-- `expect_equal(object = x, NULL)` is not found. -/
theorem C63_false_expect_null : ¬ AlwaysFound (cs! "expect_null") :=
  not_always [stmt1] (cl (cs! "expect_equal") (a2 (arg (cs! "object") x') null)) (by decide +kernel)
    (.expect_null (as := [arg (cs! "object") x', null]) (x := x') (Or.inl fn_self) rfl (by decide) (Or.inl ⟨rfl, rfl⟩) ⟨_, rfl⟩)

/-- `expect_equal(object = length(x), 1)` is not found. -/
theorem C63_false_expect_length : ¬ AlwaysFound (cs! "expect_length") :=
  not_always [stmt1] (cl (cs! "expect_equal") (a2 (arg (cs! "object") (cl (cs! "length") x')) (num (cs! "1")))) (by decide +kernel)
    (.expect_length (as := [arg (cs! "object") (cl (cs! "length") x'), num (cs! "1")]) (ns := [x']) (x := x') (Or.inl fn_self) rfl (by decide) (Or.inl ⟨rfl, rfl⟩) fn_self
      ⟨rfl, by decide, rfl⟩)

/-- `ifelse(test = x, TRUE, FALSE)` is not found. -/
theorem C63_false_redundant_ifelse : ¬ AlwaysFound (cs! "redundant_ifelse") :=
  not_always [stmt1] (cl (cs! "ifelse") (a3 (arg (cs! "test") x') yes no)) (by decide +kernel)
    (.redundant_ifelse (b := false) (as := [arg (cs! "test") x', yes, no]) (c := x') (name := cs! "ifelse") (p1 := cs! "test") (p2 := cs! "yes") (p3 := cs! "no") fn_self rfl rfl
      (by decide) rfl rfl rfl ⟨_, rfl⟩ ⟨_, rfl⟩)

/-- `apply(X = x, 1, mean)` is not found. -/
theorem C63_false_matrix_apply : ¬ AlwaysFound (cs! "matrix_apply") :=
  not_always [stmt1] (cl (cs! "apply") (a3 (arg (cs! "X") x') (num (cs! "1")) (nm (cs! "mean")))) (by decide +kernel)
    (.matrix_apply (as := [arg (cs! "X") x', num (cs! "1"), nm (cs! "mean")]) (x := x') fn_self (by decide) rfl (by decide) rfl rfl text_num rfl text_id
      (show ((cs! "mean", cs! "1"), cs! "rowMeans") ∈ marginFn by decide))

/-- `do.call(what = cbind.data.frame, x)` is not found. -/
theorem C63_false_list2df : ¬ AlwaysFound (cs! "list2df") :=
  not_always [stmt1] (cl (cs! "do.call") (a2 (arg (cs! "what") (nm (cs! "cbind.data.frame"))) x')) (by decide +kernel)
    (.list2df (as := [arg (cs! "what") (nm (cs! "cbind.data.frame")), x']) (x := x') fn_self rfl (by decide) rfl (Or.inl text_id) rfl)

/-- `sapply(X = x, length)` is not found. -/
theorem C63_false_lengths : ¬ AlwaysFound (cs! "lengths") :=
  not_always [stmt1] (cl (cs! "sapply") (a2 (arg (cs! "X") x') (nm (cs! "length")))) (by decide +kernel)
    (.lengths (as := [arg (cs! "X") x', nm (cs! "length")]) (x := x') fn_self rfl (by decide) rfl text_id rfl)

/-- `expect_true(grepl(pattern = 'a', x))` is not found. -/
theorem C63_false_expect_match : ¬ AlwaysFound (cs! "expect_match") :=
  not_always [stmt1] (cl (cs! "expect_true") (cl (cs! "grepl") (a2 (arg (cs! "pattern") (str (cs! "'a'"))) x'))) (by decide +kernel)
    (.expect_match (b := true) (as := [cl (cs! "grepl") (a2 (arg (cs! "pattern") (str (cs! "'a'"))) x')]) (ns := [arg (cs! "pattern") (str (cs! "'a'")), x']) fn_self ⟨rfl, by decide, rfl⟩
      fn_self rfl rfl rfl rfl (by decide))

/-- `is.numeric(f(x)) || is.integer(f(⏎x))` is not found: what is compared is the text. -/
theorem C63_false_is_numeric : ¬ AlwaysFound (cs! "is_numeric") :=
  not_always [stmt1] (op (cl (cs! "is.numeric") (cl (cs! "f") x')) .or2 (cl (cs! "is.integer") (cl (cs! "f") xL))) (by decide +kernel)
    (.is_numeric (f := nm (cs! "is.numeric")) (g := nm (cs! "is.integer")) (as := [cl (cs! "f") x']) (Or.inl ⟨text_id, text_id⟩))

/-- `f(x)[order(f(⏎x))]` is not found. -/
theorem C63_false_sort : ¬ AlwaysFound (cs! "sort") :=
  not_always afterY (.call (cl (cs! "f") x') .none .brk (cl (cs! "order") (cl (cs! "f") xL)) .none) (by decide +kernel)
    (.sort (x := cl (cs! "f") x') (g := nm (cs! "order")) (as := [cl (cs! "f") x']) (opts := []) fn_self (by decide) rfl (List.Perm.refl _))

/-- `if (is.null(f(x))) z else f(⏎x)` is not found. -/
theorem C63_false_coalesce : ¬ AlwaysFound (cs! "coalesce") :=
  not_always afterY (.ifElse .none .none (cl (cs! "is.null") (cl (cs! "f") x')) .none (nm (cs! "z")) .none (cl (cs! "f") xL)) (by decide +kernel)
    (.coalesce (f := nm (cs! "is.null")) (a := cl (cs! "f") x') (x := cl (cs! "f") x') fn_self rfl rfl (Or.inl rfl) (Or.inl rfl))

/-- `y <- class(x) == 'a'`, which is no condition, is not found. -/
theorem C63_false_class_equals : ¬ AlwaysFound (cs! "class_equals") :=
  not_always afterY (op (cl (cs! "class") x') .eq2 (str (cs! "'a'"))) (by decide +kernel)
    (.class_equals (x := x') (s := str (cs! "'a'")) (l := cl (cs! "class") x') (r := str (cs! "'a'")) fn_self nofun ⟨_, rfl⟩ (Or.inl ⟨rfl, rfl⟩) (Or.inl rfl))

/-- `any((is.na(x)))` is not found. -/
theorem C63_false_parentheses : ¬ AlwaysFoundCore (cs! "any_is_na") :=
  not_always_core [stmt1] (cl (cs! "any") (.paren .none (cl (cs! "is.na") x') .none)) (by decide +kernel) (.any_is_na (as := [x']) fn_self fn_self)

/-- `!x == y`, which R reads as `!(x == y)`, is not found. -/
theorem C63_false_comparison_negation : ¬ AlwaysFoundCore (cs! "comparison_negation") :=
  not_always_core [stmt1] (neg (op x' .eq2 (nm (cs! "y")))) (by decide +kernel) (.comparison_negation (l := x') (r := nm (cs! "y")) .eq)

end Jarl
