import Verif.Run
import Verif.Spec.Package
import Verif.Spec.Walk
import Verif.Spec.Discovery
import Verif.Spec.LspActions
/-!
# Specification: whole runs
-/
namespace Jarl.Spec
open Jarl

/-- The world: the files form a tree with proper names, what has a text is a file, paths are ordered. -/
structure OkWorld (w : FileWorld) : Prop where
  tree : OkTree w.tree
  text : ∀ p s, w.text p = some s → IsFile w.tree p
  order : TotalOrder w.le

/-- Orders of the hash maps in the analysis of packages: each lists the keys of its map, in any order. -/
structure PossiblePkg (w : FileWorld) (cfg : Config) (paths : List DPath) (o : PkgOrder) : Prop where
  roots : Enumerates o.roots (· ∈ packageRoots w.pkgFs paths)
  dup : Enumerates o.dupKeys (fun k => ∃ f ∈ sharedData w.alnum (decide (Rule.unusedFunction ∈ cfg.rulesToApply)) w.pkgFs o.roots paths,
    f.scope = .r ∧ f.rootKey = k)
  unused : Enumerates o.unusedKeys (fun k => ∃ f ∈ sharedData w.alnum true w.pkgFs o.roots paths, f.rootKey = k)

/-- What threads and hash maps may do in one run: the files in any order, the groups in any order. -/
structure PossibleRun (w : FileWorld) (a : RunArgs) (items : List (DPath × JarlSettings)) (o : RunOrder) : Prop where
  files : o.files.Perm (foundFiles w a items)
  groups : o.groups.Perm (groupFiles items o.files)
  pkg : ∀ g ∈ o.groups, ∀ cfg, configOf w a.config (groupSettings items g.1) g.2 = .ok cfg → PossiblePkg w cfg g.2 (o.pkg g.1)

/-- No argument is given twice, and none lies inside another. -/
def Separate (args : List DPath) : Prop := args.Nodup ∧ ∀ p ∈ args, ∀ q ∈ args, p <+: q → p = q

/-- `d` is the directory of a package: it has a DESCRIPTION. -/
def HasDescription (w : FileWorld) (d : DPath) : Prop := ∃ t, w.tree.at (d ++ [cs! "DESCRIPTION"]) = some t

/-- No package lies inside the R directory of another package. -/
def NoPackageInR (w : FileWorld) : Prop := ∀ r r', HasDescription w r → HasDescription w r' → ¬ r ++ [cs! "R"] <+: r'

/-- The R version cannot depend on the order of the files: it is given on the command line, or the DESCRIPTION files that lie beside checked
files say the same. -/
def OneVersion (w : FileWorld) (a : RunArgs) (files : List DPath) : Prop :=
  a.config.minRVersion.isSome = true ∨
  ∀ f ∈ files, ∀ g ∈ files, HasDescription w f.dropLast → HasDescription w g.dropLast →
    w.text (f.dropLast ++ [cs! "DESCRIPTION"]) = w.text (g.dropLast ++ [cs! "DESCRIPTION"])

/-- The same report: the same exit status and the same diagnostics in the same order; the messages about files that could not be checked may come in
another order. -/
def SameReport : Except Unit CliOut → Except Unit CliOut → Prop
  | .error _, .error _ => True
  | .ok o, .ok o' => o.status = o'.status ∧ o.diagnostics = o'.diagnostics ∧ o.errors.Perm o'.errors
  | _, _ => False

/-- The directories of a package that are analysed as a whole. -/
def AnalysedDirs : List DPath := [[cs! "R"], [cs! "tests"], [cs! "inst", cs! "tests"], [cs! "inst", cs! "tinytest"], [cs! "src"]]

/-- Where the package of a file cannot make a difference between the editor and the command line: the file is no R file (a document), or lies in
no analysed directory of a package, or is an R file directly in the R directory of a package that is not part of another package. -/
inductive SimplePlace (w : FileWorld) (f : DPath) : Prop
  | document (h : ¬ RFile f) (hc : ¬ CFile f)
  | elsewhere (h : ∀ r d, HasDescription w r → d ∈ AnalysedDirs → ¬ r ++ d <+: f)
  | package (r n) (he : f = r ++ [cs! "R", n]) (h : RFile f) (hd : HasDescription w r) (hout : ∀ r', HasDescription w r' → r' <+: r → r' = r)

/-- One configuration file governs `f`, for the command line (given `paths`) and for the editor: the nearest one; or there is none, and the user has none
either. (`f` was found by looking into one of the paths, and the user's configuration directory is elsewhere.) -/
structure OneConfig (w : FileWorld) (paths : List DPath) (f : DPath) : Prop where
  found : ∃ p ∈ paths, FoundUnder w.configFs p f ∧ OutsideUserDir w.configFs p
  user : OutsideUserDir w.configFs f
  some : (∃ d, Nearest w.configFs d f) ∨ w.userDir = none

/-- What the hash maps may do when the editor lints `f`. -/
def PossibleEditor (w : FileWorld) (f : DPath) (o : PkgOrder) : Prop :=
  ∀ s cfg paths, editorConfig w f = some (s, .ok cfg) → siblingRFiles w f = some paths → PossiblePkg w cfg paths o

/-- Without the reports of `unused_function`. -/
def WithoutUnused (ds : List Diagnostic) : List Diagnostic := ds.filter (fun d => d.name ≠ cs! "unused_function")

/-- The reports for one file. -/
def ForFile (name : Str) (ds : List Diagnostic) : List Diagnostic := ds.filter (fun d => d.filename = name)

/-- `threshold-ignore` of the settings, 50 if there is no configuration. -/
def ThresholdOf (s : Option JarlSettings) (t : Nat) : Prop := (s = none ∧ t = 50) ∨ ∃ x, s = some x ∧ x.threshold = t

/-- The settings name the rule `unused_function` in `select` or `extend-select`. -/
def NamesUnused (s : Option JarlSettings) : Prop :=
  ∃ x l, s = some x ∧ (x.linter.select = some l ∨ x.linter.extendSelect = some l) ∧ cs! "unused_function" ∈ l

end Jarl.Spec
