import Verif.Props.PackageDup
import Verif.LspActions
import Verif.LintFix
/-!
# C48: ranges computed from the files on disk, used for another text

`compute_package_analysis` reads the files once, before anything is fixed (check.rs:25); in the editor it reads the files on disk, not the
buffer (jarl-lsp lint.rs:138-149).
-/
namespace Jarl
open Spec

/-- The text on disk: a fixable violation above a duplicated definition. -/
def staleText : Str := cs! "x <- any(is.na(y))\nfoo <- function(z) z\n"

/-- The text after fixing. -/
def staleFixed : Str := cs! "x <- anyNA(y)\nfoo <- function(z) z\n"

/-- A package with `foo` also in `a.R`. -/
def stalePkg : PkgFs where
  description d := d = [cs! "pkg"]
  read p := if p = [cs! "pkg", cs! "R", cs! "a.R"] then some (cs! "foo <- function(x) x\n")
    else if p = [cs! "pkg", cs! "R", cs! "b.R"] then some staleText else none
  below d := if d = [cs! "pkg", cs! "R"] then [[cs! "pkg", cs! "R", cs! "a.R"], [cs! "pkg", cs! "R", cs! "b.R"]] else []

/-- What the analysis reports for `b.R`. -/
theorem stale_reports :
    reportsFor [cs! "pkg", cs! "R", cs! "b.R"] (computeDuplicates pathLe [[cs! "pkg", cs! "R"]]
      (sharedData asciiAlnum false stalePkg [[cs! "pkg"]] [[cs! "pkg", cs! "R", cs! "b.R"]])) =
    [⟨cs! "foo", ⟨19, 22⟩, [cs! "pkg", cs! "R", cs! "a.R"], 1⟩] := by
  have h : ∃ x y, (sharedData asciiAlnum false stalePkg [[cs! "pkg"]] [[cs! "pkg", cs! "R", cs! "b.R"]]).filter
      (fun f => f.scope = .r && f.rootKey = [cs! "pkg", cs! "R"]) = [x, y] ∧
      reportsFor [cs! "pkg", cs! "R", cs! "b.R"] (dupFiles [] (if pathLe x.path y.path then [x, y] else [y, x])) =
        [⟨cs! "foo", ⟨19, 22⟩, [cs! "pkg", cs! "R", cs! "a.R"], 1⟩] :=
    ⟨⟨[cs! "pkg", cs! "R"], [cs! "pkg", cs! "R", cs! "b.R"], [cs! "pkg"], [⟨cs! "foo", ⟨19, 22⟩, 2⟩], [], .r⟩,
     ⟨[cs! "pkg", cs! "R"], [cs! "pkg", cs! "R", cs! "a.R"], [cs! "pkg"], [⟨cs! "foo", ⟨0, 3⟩, 1⟩], [], .r⟩,
     by decide +kernel, by decide +kernel⟩
  obtain ⟨x, y, h1, h2⟩ := h
  unfold computeDuplicates
  rw [List.flatMap_cons, List.flatMap_nil, List.append_nil, h1, sort_two]
  exact h2

/-- The analysis handed to `get_checks` for `pkg/R/b.R` (`stale_reports`). -/
def staleAnalysis : PackageAnalysis where
  duplicates p := if p = cs! "pkg/R/b.R" then [(cs! "foo", ⟨19, 22⟩, cs! "Other definition at pkg/R/a.R:1:1")] else []
  unused _ := []

/-- A parser and lints for the texts above. -/
def staleLints : Lints where
  parse code := some ⟨.mk ⟨0, 30⟩ false [] [] [] [], some code⟩
  expressions _ code :=
    if code = staleText then .ok [.new (cs! "any_is_na") [] none ⟨5, 18⟩ ⟨cs! "anyNA(y)", 5, 18, false⟩] else .ok []
  unreachable _ _ := .ok []

def staleConfig : Config where
  rules := Rule.all
  rulesToApply := Rule.all
  applyFixes := true
  applyUnsafeFixes := false
  minimumRVersion := none
  allowDirty := false
  allowNoVcs := false
  unfixable := []
  fixable := none
  assignment := .arrow

/-- **C48**, a defect: after `--fix` changed the text above a duplicated definition, the report points to other text: the range is that of
the text before fixing, which no longer covers the name (and, as the row is computed from the fixed text, the location is not the
definition's either). -/
theorem C48_false_stale_after_fix : ∃ d : Diagnostic,
    lintFix staleLints staleAnalysis staleConfig (cs! "pkg/R/b.R") Io.good 3 (some staleText) = (some staleFixed, some (.ok [d])) ∧
    d.name = Rule.duplicatedFunctionDefinition.name ∧ d.location = some (2, 5) ∧
    slice d.range.start d.range.stop staleFixed = some (cs! "- f") ∧
    (scanAssigns asciiAlnum staleFixed).map (fun a => (a.name, a.range, a.line)) = [(cs! "foo", ⟨14, 17⟩, 2)] := by
  refine ⟨{ Diagnostic.new Rule.duplicatedFunctionDefinition.name (cs! "`foo` is defined more than once in this package.")
    (some (cs! "Other definition at pkg/R/a.R:1:1")) ⟨19, 22⟩ .empty with filename := cs! "pkg/R/b.R", location := some (2, 5) }, ?_, ?_, ?_, ?_, ?_⟩
  · rfl
  · rfl
  · rfl
  · decide +kernel
  · decide +kernel

theorem convertAll_out_of_bounds {content : Str} {enc : Enc} {ds : List Diagnostic} {d : Diagnostic} (hd : d ∈ ds)
    (h : blen content < d.range.start) (xs : List LspDiag) : convertAll content enc ds ≠ .ok xs := by
  induction ds generalizing xs with
  | nil => cases hd
  | cons a as ih =>
    intro hc
    unfold convertAll at hc
    rcases List.mem_cons.mp hd with rfl | hd
    · have : convertToLsp d content enc = .err := by
        unfold convertToLsp byteOffsetToLspPosition
        rw [if_pos h]
      rw [this] at hc
      cases hc
    · split at hc
      · cases hc
      · cases hc
      · split at hc
        · cases hc
        · cases hc
        · rename_i ys hys
          exact ih hd ys hys

/-- **C48**, a defect: when the text in the editor got shorter than on disk, one stale report makes the whole document fail: no
diagnostics at all are published. -/
theorem C48_false_stale_in_editor (enc : Enc) (threshold total : Nat) :
    lintDocument staleLints ⟨cs! "pkg/R/b.R", false, staleConfig, staleAnalysis, true, total, threshold⟩ (cs! "x <- 1\n") enc = .err := by
  cases enc <;> rfl

/-- The same text on a fresh analysis (nothing stale) is fine. -/
example (enc : Enc) (threshold total : Nat) :
    lintDocument staleLints ⟨cs! "pkg/R/b.R", false, staleConfig, ⟨fun _ => [], fun _ => []⟩, true, total, threshold⟩ (cs! "x <- 1\n") enc = .ok [] := by
  cases enc <;> rfl

end Jarl
