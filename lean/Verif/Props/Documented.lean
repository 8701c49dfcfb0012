import Verif.Spec.Documented
import Verif.Props.Config
/-!
# C82: the table of rules in the documentation
-/
namespace Jarl
open Spec

/-- The rules about which the table is wrong. -/
def misdocumented : List Rule := [.browser, .classEquals, .emptyAssignment, .sampleInt, .unusedFunction, .outdatedSuppression]

instance (r : Rule) (d : DocRow) : Decidable (AsDocumented r d) := by unfold AsDocumented; infer_instance

/-- **C82** except for `misdocumented`: the table has exactly one row with the name of the rule, and it is right: groups, fix, whether it is enabled by default, which version of R it needs. -/
theorem C82_documented_partial (r : Rule) (h : r ∉ misdocumented) : ∃ d, docTable.filter (fun d => d.name = r.name) = [d] ∧ AsDocumented r d := by
  revert h
  cases r <;> first
    | (intro h; exact absurd (by decide) h)
    | (intro _; refine ⟨_, by rfl, by decide⟩)

/-- Every row but one is about a rule. -/
theorem C82_rows (d : DocRow) (h : d ∈ docTable) : (∃ r : Rule, r.name = d.name) ∨ d.name = cs! "unused_suppression" := by
  have : docTable.all (fun d => (Rule.fromName d.name).isSome || decide (d.name = cs! "unused_suppression")) = true := by decide +kernel
  have := List.all_eq_true.1 this d h
  simp only [Bool.or_eq_true, decide_eq_true_eq] at this
  rcases this with h | h
  · left
    obtain ⟨r, hr⟩ := Option.isSome_iff_exists.1 h
    exact ⟨r, by simpa using List.find?_some hr⟩
  · exact .inr h

/-- The fixes of `class_equals` are documented as unsafe (only with `--unsafe-fixes`), but they are safe fixes for jarl. -/
theorem C82_false_class_equals : ∃ d ∈ docTable, d.name = Rule.classEquals.name ∧ d.fix = .unsafe_ ∧ Rule.classEquals.fixStatus = .safe := by
  refine ⟨_, List.mem_of_getElem? (i := 6) rfl, ?_⟩; decide

/-- `sample_int` and `unused_function` are documented as enabled by default, but are not. -/
theorem C82_false_default : (∃ d ∈ docTable, d.name = Rule.sampleInt.name ∧ d.disabled = false) ∧ Rule.sampleInt.enabledByDefault = false ∧
    (∃ d ∈ docTable, d.name = Rule.unusedFunction.name ∧ d.disabled = false) ∧ Rule.unusedFunction.enabledByDefault = false := by
  decide +kernel

/-- `browser` and `empty_assignment` are documented as rules without fix, and have none (C55), but count as rules with safe fixes. -/
theorem C82_false_no_fix : (∃ d ∈ docTable, d.name = Rule.browser.name ∧ d.fix = .none) ∧ Rule.browser.fixStatus = .safe ∧
    (∃ d ∈ docTable, d.name = Rule.emptyAssignment.name ∧ d.fix = .none) ∧ Rule.emptyAssignment.fixStatus = .safe := by
  decide +kernel

/-- `outdated_suppression` is not in the table; there is a rule `unused_suppression` in it, which does not exist. -/
theorem C82_false_name : (∀ d ∈ docTable, d.name ≠ Rule.outdatedSuppression.name) ∧ (∃ d ∈ docTable, d.name = cs! "unused_suppression") ∧ Rule.fromName (cs! "unused_suppression") = none := by
  decide +kernel

end Jarl
