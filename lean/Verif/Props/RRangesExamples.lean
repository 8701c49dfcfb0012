import Verif.Props.RRanges
import Verif.Props.RCheckExamples
/-!
# C80: examples for the ranges and the fixes that are handed on

Tests, not proofs: they show that the hypotheses can be met.
-/
namespace Jarl
open Spec

/-- `C80_handed_on` for `any(is.na(x))`. -/
theorem C80_ex_handed_on {ds : List Diagnostic} (h : getChecks (ruleLints checkWords) exPkg exConfig (cs! "a.R") checkText = .ok ds) :
    ∃ ed : Edit, anyIsNa checkZ1 = some ed ∧ ∃ rg, RangeFixed checkText checkSrc (cs! "any_is_na") ed.z rg ∧
      (HiddenAt (.mk ⟨0, blen checkText⟩ false [] [] [] []) checkText .anyIsNa rg ∨
        ∃ d ∈ ds, d.name = cs! "any_is_na" ∧ d.range = rg ∧ d.fix = textFix checkSrc ed (cs! "anyNA(x)")) := by
  have he : (anyIsNa checkZ1).any (fun ed => !ed.skip) = true := by decide +kernel
  cases hc : anyIsNa checkZ1 with
  | none => rw [hc] at he; cases he
  | some ed =>
    rw [hc] at he
    exact ⟨ed, rfl, C80_handed_on (ruleLints_runs checkWords) (ruleLints_parser _) (by decide +kernel) h rfl checkText_reads (r := .anyIsNa) (by decide +kernel)
      ⟨by decide +kernel, by decide +kernel, by intro l hl; cases hl⟩ check_looked.1 (q := (cs! "any_is_na", anyIsNa)) (by simp [fixRules, keepingRules]) rfl hc (by simpa using he)⟩

/-- `C80_said_ranges` for `browser()`. -/
theorem C80_ex_said_ranges {ds : List Diagnostic} (h : getChecks (ruleLints checkWords) exPkg exConfig (cs! "a.R") checkText = .ok ds) (rg : Range) :
    (∃ d ∈ ds, d.name = cs! "browser" ∧ d.range = rg) ↔ Rule.browser ∈ exConfig.rulesToApply ∧ ∃ z, LookedAt checkZ1.prog z ∧ (∃ s, ruleOf checkWords.opts (cs! "browser") z = .ok (some s)) ∧
      RangeSaid checkText checkSrc (cs! "browser") z rg ∧ ¬ HiddenAt (.mk ⟨0, blen checkText⟩ false [] [] [] []) checkText .browser rg :=
  C80_said_ranges (ruleLints_runs checkWords) (ruleLints_parser _) (by decide +kernel) h rfl checkText_reads (by intro es he; cases he; simp) (r := .browser) (by decide +kernel) rg

/-- `C80_fix_ranges` for the report with a fix. -/
theorem C80_ex_fix_ranges : ∃ ds, getChecks (ruleLints checkWords) exPkg exConfig (cs! "a.R") checkText = .ok ds ∧ ∃ d ∈ ds, d.fix ≠ Fix.empty ∧
    ∃ r ∈ exConfig.rulesToApply, d.name = r.name ∧ FixAllowed exConfig r ∧ ∃ z, z.prog = checkZ1.prog ∧ isExpr z.e = true ∧ RangeFixed checkText checkSrc r.name z d.range := by
  obtain ⟨ds, h, d, hd, hf⟩ := C80_ex_fixes
  exact ⟨ds, h, d, hd, hf, C80_fix_ranges (ruleLints_runs checkWords) (ruleLints_parser _) (by decide +kernel) h rfl checkText_reads (by intro es he; cases he; simp) hd hf⟩

end Jarl
