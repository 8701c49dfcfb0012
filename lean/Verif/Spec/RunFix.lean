import Verif.RunFix
import Verif.Spec.Run
import Verif.Spec.LintFix
/-!
# Specification: whole runs that fix files
-/
namespace Jarl.Spec
open Jarl

/-- What threads and hash maps may do: the files in any order, the groups in any order. (Nothing is said about the orders inside the analysis of packages.) -/
structure PossibleOrder (w : FileWorld) (a : RunArgs) (items : List (DPath × JarlSettings)) (o : RunOrder) : Prop where
  files : o.files.Perm (foundFiles w a items)
  groups : o.groups.Perm (groupFiles items o.files)

/-- The command may change files. -/
def Fixing (a : RunArgs) : Prop := a.config.fix = true ∨ a.config.unsafeFixes = true

/-- The checked files that are governed by the same configuration file as `f`. -/
def sameConfig (items : List (DPath × JarlSettings)) (files : List DPath) (f : DPath) : List DPath :=
  files.filter (fun g => (resolvePath items g).map Prod.fst = (resolvePath items f).map Prod.fst)

/-- The settings that govern `f`. -/
def settingsFor (items : List (DPath × JarlSettings)) (f : DPath) : Option JarlSettings :=
  groupSettings items ((resolvePath items f).map Prod.fst)

/-- `cfg` is the configuration of `f` in this run. -/
def ConfigFor (w : FileWorld) (a : RunArgs) (items : List (DPath × JarlSettings)) (f : DPath) (cfg : Config) : Prop :=
  configOf w a.config (settingsFor items f) (sameConfig items (foundFiles w a items) f) = .ok cfg

/-- All checked files have a configuration (no unknown rules and the like), and it does not contain the two rules that look at whole packages. -/
def PlainConfigs (w : FileWorld) (a : RunArgs) (items : List (DPath × JarlSettings)) : Prop :=
  ∀ f ∈ foundFiles w a items, ∃ cfg, ConfigFor w a items f cfg ∧
    Rule.duplicatedFunctionDefinition ∉ cfg.rulesToApply ∧ Rule.unusedFunction ∉ cfg.rulesToApply

/-- Git lets the fixes happen, whatever has been fixed so far: `--allow-no-vcs`, or `--allow-dirty` and every checked file lies in a repository. -/
def AlwaysAllowed (w : FileWorld) (git : GitOn) (a : RunArgs) (files : List DPath) : Prop :=
  a.config.allowNoVcs = true ∨ (a.config.allowDirty = true ∧ ∀ t, ∀ f ∈ files, ∃ r, (git t).repo (relText w.cwd f) = some r)

/-- No DESCRIPTION file is itself named on the command line. -/
def NoDescriptionNamed (a : RunArgs) : Prop := ∀ p ∈ a.paths, p.getLast? ≠ some (cs! "DESCRIPTION")

/-- The package rules are off, so no analysis is needed. -/
def noAnalysis : PackageAnalysis := ⟨fun _ => [], fun _ => []⟩

/-- What becomes of the text of the file `f`, and what is reported for it, when only this file is fixed. -/
def FixedAlone (w : FileWorld) (items : List (DPath × JarlSettings)) (io : DPath → Io) (fuel : Nat) (cfg : Config) (f : DPath) :
    Option Str × Option (Except CheckErr (List Diagnostic)) :=
  checkPath (w.lints ((settingsFor items f).getD defaultSettings)) noAnalysis cfg (relText w.cwd f) (io f) fuel (w.text f)

/-- The same command without fixing. -/
def WithoutFix (a : RunArgs) : RunArgs := { a with config := { a.config with fix := false, unsafeFixes := false } }

/-- With `--fix` the rules that have unsafe fixes are not run at all. Nothing is held back this way: with `--unsafe-fixes` or `--fix-only`, or if no such rule is selected. -/
def NothingHeldBack (w : FileWorld) (a : RunArgs) (items : List (DPath × JarlSettings)) : Prop :=
  a.config.unsafeFixes = true ∨ a.config.fixOnly = true ∨
  ∀ f ∈ foundFiles w a items, ∀ cfg, ConfigFor w a items f cfg → ∀ r ∈ cfg.rules, r.hasUnsafeFix = false

/-- Nothing goes wrong with reading and writing. -/
def GoodIo (io : DPath → Io) : Prop := ∀ p, io p = Io.good

/-- The rules themselves do not fail with the message about version control. -/
def NoVcsErrors (L : Lints) : Prop :=
  ∀ inp s, L.expressions inp s ≠ .error .vcs ∧ L.unreachable inp s ≠ .error .vcs

/-- jarl prints for some file that version control does not allow fixes. -/
def SaysRefused (out : CliOut) : Prop := ∃ e ∈ out.errors, e.2 = .vcs

end Jarl.Spec
