import Verif.LintFix
/-!
# Specification for fixing files (C21, C22, C24, C32)
-/
namespace Jarl.Spec

/-- One fix pass turns the text `a` into the text `b`. -/
def Pass (L : Lints) (pkg : PackageAnalysis) (cfg : Config) (path : Str) (a : Str) (skipped : Bool) (b : Str) : Prop :=
  ∃ checks, getChecks L pkg cfg path a = .ok checks ∧ applyFixes (checks.map (·.fix)) a = some (skipped, b)

/-- `Passes … a s b`: successive passes turn `a` into `b`; every pass but the last skipped a fix, and `s` says whether
the last one did (`true` before the first pass). -/
inductive Passes (L : Lints) (pkg : PackageAnalysis) (cfg : Config) (path : Str) (a : Str) : Bool → Str → Prop
  | start : Passes L pkg cfg path a true a
  | step {b c s} : Passes L pkg cfg path a true b → Pass L pkg cfg path b s c → Passes L pkg cfg path a s c

/-- The fixes are allowed by version control: `--allow-no-vcs`, or all paths are in repositories that are clean (or
`--allow-dirty`). -/
def VcsAllows (v : Vcs) (cfg : Config) (paths : List Str) : Prop :=
  cfg.allowNoVcs = true ∨
  ((∀ p ∈ paths, ∃ r, v.repo p = some r) ∧
    (cfg.allowDirty = true ∨ ∀ p ∈ paths, ∀ r, v.repo p = some r →
      ∃ entries, v.status r = some entries ∧ ∀ e ∈ entries, e.1.isSome = true → e.2 = true))

end Jarl.Spec
