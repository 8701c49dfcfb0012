import Verif.Props.RCheck
/-!
# C80: lint rules for which `RunsRules` holds, and a file

Tests, not proofs: they show that the hypotheses of the theorems of `RCheck` can be met.
-/
namespace Jarl
open Spec

/-- Lints that run the modelled rules: the parser is the relation `ReadsAs`. -/
noncomputable def ruleLints (W : Wording) : Lints where
  parse code := some ⟨.mk ⟨0, blen code⟩ false [] [] [] [], some code⟩
  expressions inp text :=
    @dite _ (∃ sp : Src × Node, ReadsAs text sp.1 sp.2) (Classical.propDecidable _) (fun h => checkExpressions W inp h.choose.1 h.choose.2) (fun _ => .ok [])
  unreachable _ _ := .ok []

/-- `RunsRules` can be met, whatever the texts of the messages and fixes are. -/
theorem ruleLints_runs (W : Wording) : RunsRules W (ruleLints W) := by
  intro inp text src p hr
  have h : ∃ sp : Src × Node, ReadsAs text sp.1 sp.2 := ⟨(src, p), hr⟩
  have hc := h.choose_spec
  have e1 : h.choose.1 = src := by
    have := hc.1.symm.trans hr.1
    exact Option.some.inj this
  have e2 : h.choose.2 = p := C50_grammar_unambiguous (e1 ▸ hc.2) hr.2
  have e3 : (ruleLints W).expressions inp text = checkExpressions W inp h.choose.1 h.choose.2 := dif_pos h
  rw [e3, e1, e2]

theorem bare_root {r : Range} {first level n} (h : Reach (.mk r false [] [] [] []) first level n) : n = .mk r false [] [] [] [] := by
  induction h with
  | root => rfl
  | firstChild _ hc ih => rw [ih] at hc; cases hc
  | laterChild _ hc _ ih => rw [ih] at hc; cases hc

theorem ruleLints_parser (W : Wording) : ParserOk (ruleLints W) := by
  intro code p hp n first level c hreach hc
  cases hp
  rw [bare_root hreach] at hc
  simp [SynNode.leading, SynNode.trailing, SynNode.dangling] at hc

/-- Messages and fixes for the file below. -/
def checkWords : Wording where
  opts := { dupSkipped := [], implicitSkipped := [], undesirable := [] }
  said n _ := (n, none)
  fixed n _ := (n, none)
  content _ _ _ := cs! "anyNA(x)"
  other _ _ _ := []

/-- The file. -/
def checkText : Str := cs! "y <- any(is.na(x))\nbrowser()\n"

def checkSrc : Src := (lex checkText).getD ⟨[], []⟩

/-- `browser()`, on the second line. -/
def checkBrowser : Node := .call (.atom nl .id (cs! "browser")) .none .par .hole .none

/-- `any(is.na(x))` in the first statement. -/
def checkZ1 : Zip := ⟨[.binR (nm (cs! "y")) .none .assign, .sconsE [] (.scons checkBrowser [] .snil)], cl (cs! "any") (cl (cs! "is.na") x')⟩

/-- The second statement. -/
def checkZ2 : Zip := ⟨[.sconsE [] .snil, .sconsR (.bin (nm (cs! "y")) .none .assign (cl (cs! "any") (cl (cs! "is.na") x'))) []], checkBrowser⟩

theorem checkText_reads : ReadsAs checkText checkSrc checkZ1.prog := ⟨by decide +kernel, parses_of (by decide +kernel)⟩

theorem check_looked : LookedAt checkZ1.prog checkZ1 ∧ LookedAt checkZ1.prog checkZ2 :=
  ⟨(C53_looked_at _ _).1 (by decide +kernel), (C53_looked_at _ _).1 (by decide +kernel)⟩

/-- All rules are enabled; the fix for `any(is.na(x))` is there, the rule `repeat` is unfixable. -/
theorem C80_ex_check : ∃ ds, getChecks (ruleLints checkWords) exPkg exConfig (cs! "a.R") checkText = .ok ds ∧
    ds.map (fun d => (d.name, d.range, d.fix.content, d.location)) =
      [(cs! "any_is_na", ⟨5, 18⟩, cs! "anyNA(x)", some (1, 5)), (cs! "browser", ⟨19, 28⟩, [], some (2, 0))] := by
  have hx : (ruleLints checkWords).expressions exConfig.lintInput checkText = checkExpressions checkWords exConfig.lintInput checkSrc checkZ1.prog := ruleLints_runs _ _ _ _ _ checkText_reads
  have he : getChecks (ruleLints checkWords) exPkg exConfig (cs! "a.R") checkText =
      getChecks { ruleLints checkWords with expressions := fun _ _ => checkExpressions checkWords exConfig.lintInput checkSrc checkZ1.prog } exPkg exConfig (cs! "a.R") checkText := by
    have hr : hasRmdExtension (cs! "a.R") = false := by decide +kernel
    unfold getChecks
    rw [hr]
    simp only [Bool.false_eq_true, if_false]
    unfold getChecksR checkerDiagnostics runChecker unreachableDiags
    rw [hx]
  rw [he]
  have : (match getChecks { ruleLints checkWords with expressions := fun _ _ => checkExpressions checkWords exConfig.lintInput checkSrc checkZ1.prog } exPkg exConfig (cs! "a.R") checkText with
      | .ok ds => ds.map (fun d => (d.name, d.range, d.fix.content, d.location))
      | .error _ => []) = [(cs! "any_is_na", ⟨5, 18⟩, cs! "anyNA(x)", some (1, 5)), (cs! "browser", ⟨19, 28⟩, [], some (2, 0))] := by decide +kernel
  split at this
  · rename_i ds hds; exact ⟨ds, hds, this⟩
  · cases this

/-- The hypotheses of `C80_reports` hold for this file, and it says that `browser()` is reported and nothing else is said by that rule. -/
theorem C80_ex_reports {ds : List Diagnostic} (h : getChecks (ruleLints checkWords) exPkg exConfig (cs! "a.R") checkText = .ok ds) (rg : Range) :
    (∃ d ∈ ds, d.name = cs! "browser" ∧ d.range = rg) ↔ ∃ z, LookedAt checkZ1.prog z ∧ About checkWords.opts (cs! "browser") z ∧ RangeOf checkText checkSrc z rg ∧
      ¬ HiddenAt (.mk ⟨0, blen checkText⟩ false [] [] [] []) checkText .browser rg := by
  have := C80_reports (ruleLints_runs checkWords) (ruleLints_parser _) (by decide +kernel) h rfl checkText_reads (by intro es he; cases he; simp) (r := .browser) (by decide +kernel) rg
  refine this.trans ?_
  rw [and_iff_right (show Rule.browser ∈ exConfig.rulesToApply by decide +kernel)]
  rfl

/-- The hypotheses of `C80_found` hold for `any(is.na(x))`. -/
theorem C80_ex_found {ds : List Diagnostic} (h : getChecks (ruleLints checkWords) exPkg exConfig (cs! "a.R") checkText = .ok ds) :
    ∃ rg, RangeFound checkText checkSrc (cs! "any_is_na") checkZ1 rg ∧ (HiddenAt (.mk ⟨0, blen checkText⟩ false [] [] [] []) checkText .anyIsNa rg ∨ ∃ d ∈ ds, d.name = cs! "any_is_na" ∧ d.range = rg) :=
  C80_found (ruleLints_runs checkWords) (ruleLints_parser _) (by decide +kernel) h rfl checkText_reads (by intro es he; cases he; simp) (r := .anyIsNa) (by decide +kernel) check_looked.1
    (q := (cs! "any_is_na", notBoth (Const .na))) (by simp [foundRules]) rfl (.any_is_na (f := sym (cs! "any")) (g := sym (cs! "is.na")) (as := [sym (cs! "x")]) (.inl rfl) (.inl rfl)) (by intro l g o r he; cases he)

/-- The hypotheses of `C80_fixes` hold for the report with a fix. -/
theorem C80_ex_fixes : ∃ ds, getChecks (ruleLints checkWords) exPkg exConfig (cs! "a.R") checkText = .ok ds ∧ ∃ d ∈ ds, d.fix ≠ Fix.empty := by
  obtain ⟨ds, h, hm⟩ := C80_ex_check
  refine ⟨ds, h, ?_⟩
  cases ds with
  | nil => cases hm
  | cons d ds =>
    refine ⟨d, by simp, fun he => ?_⟩
    simp only [List.map_cons, List.cons.injEq, Prod.mk.injEq] at hm
    have := hm.1.2.2.1
    rw [he] at this
    exact absurd this (by decide)

end Jarl
