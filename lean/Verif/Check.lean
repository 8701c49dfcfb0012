import Verif.Config
import Verif.Location
import Verif.Suppression
import Verif.Rmd
/-!
# Check: linting a text, and fixing a file (check.rs, analyze/document.rs)

The R parser and the individual lint rules are parameters (`Lints`).
-/
namespace Jarl

/-- Why linting a file failed. -/
inductive CheckErr
  /-- `fs::read_to_string` failed -/
  | read
  /-- `fs::write` failed -/
  | write
  /-- the file does not parse (check.rs:133-135) -/
  | parse
  /-- a lint rule, or `find_new_lines`, returned an error -/
  | lint
  /-- version control guard -/
  | vcs
  /-- Rust panic -/
  | panic
deriving DecidableEq, Repr

/-- The part of the configuration a `Checker` receives (checker.rs:9-22). -/
structure LintInput where
  ruleSet : List Rule
  minimumRVersion : Option RVersion
  assignment : AssignOp
deriving DecidableEq

/-- What `air_r_parser::parse` returns for a text without syntax error: the tree (ranges and comments) and the text
of the root's first child (utils.rs:39-50), absent if the root has no child. -/
structure Parsed where
  root : SynNode
  listText : Option Str

/-- The parts of jarl that are not modelled here, as parameters: the parser (`none`: syntax error), all calls of
`check_expression` on the top-level expressions in order, and `unreachable_code_top_level`. All are functions of the
text and of what the checker holds. -/
structure Lints where
  parse : Str → Option Parsed
  expressions : LintInput → Str → Except CheckErr (List Diagnostic)
  unreachable : LintInput → Str → Except CheckErr (List Diagnostic)

/-- package.rs:47-57 `PackageAnalysis`: per path, (name, range, help) triples. -/
structure PackageAnalysis where
  duplicates : Str → List (Str × Range × Str)
  unused : Str → List (Str × Range × Str)

/-- check.rs:143-145: what the configuration puts into the checker. -/
def Config.lintInput (cfg : Config) : LintInput := ⟨cfg.rulesToApply, cfg.minimumRVersion, cfg.assignment⟩

/-- lints/comments/*.rs `create_diagnostic`: one diagnostic without fix per comment range. The fixed message texts are
given by `body` and `help`. -/
def commentDiags (r : Rule) (body help : Str) (ranges : List Range) : List Diagnostic :=
  ranges.map (fun rg => Diagnostic.new r.name body (some help) rg .empty)

/-- `if checker.is_rule_enabled(rule) { .. }` (checker.rs:45-47). -/
def gate (rules : List Rule) (r : Rule) (ds : List Diagnostic) : List Diagnostic := if r ∈ rules then ds else []

/-- analyze/document.rs:102-116 and 118-131: package-level diagnostics. -/
def pkgDiags (r : Rule) (tail : Str) (l : List (Str × Range × Str)) : List Diagnostic :=
  l.map (fun (name, range, help) =>
    Diagnostic.new r.name (cs! "`" ++ name ++ cs! "` " ++ tail) (some help) range .empty)

/-- analyze/document.rs:19-131: all diagnostics, before filtering by suppressions. `exprs` are those of
`check_expression`, `unreach` those of `unreachable_code_top_level`. -/
def rawDiagnostics (rules : List Rule) (m : Manager) (exprs unreach : List Diagnostic)
    (dups unused : List (Str × Range × Str)) : List Diagnostic :=
  exprs ++
  gate rules .unreachableCode unreach ++
  gate rules .blanketSuppression (commentDiags .blanketSuppression
    (cs! "This comment isn't used by Jarl because it is missing a rule to ignore.")
    (cs! "Use targeted comments instead, e.g., `# jarl-ignore any_is_na: <reason>`.") m.blanket) ++
  gate rules .invalidChunkSuppression (commentDiags .invalidChunkSuppression
    (cs! "This `jarl-ignore-chunk` comment is wrongly formatted.")
    (cs! "Use the YAML array form instead:\n#| jarl-ignore-chunk:\n#|   - <rule>: <reason>") m.invalidChunk) ++
  gate rules .unexplainedSuppression (commentDiags .unexplainedSuppression
    (cs! "This comment isn't used by Jarl because it is missing an explanation.")
    (cs! "Add an explanation after the colon, e.g., `# jarl-ignore rule: <reason>`.") m.unexplained) ++
  gate rules .misplacedFileSuppression (commentDiags .misplacedFileSuppression
    (cs! "This comment isn't used by Jarl because `# jarl-ignore-file` must be at the top of the file.")
    (cs! "Move this comment to the beginning of the file, before any code.") m.misplacedFile) ++
  gate rules .misplacedSuppression (commentDiags .misplacedSuppression
    (cs! "This comment isn't used by Jarl because end-of-line suppressions are not supported.")
    (cs! "Move the suppression comment to its own line above the code you want to suppress.") m.misplaced) ++
  gate rules .misnamedSuppression (commentDiags .misnamedSuppression
    (cs! "This comment isn't used by Jarl because it contains an unrecognized rule name.")
    (cs! "Check the rule name for typos.") m.misnamed) ++
  gate rules .unmatchedRangeSuppression (commentDiags .unmatchedRangeSuppression
    (cs! "This `jarl-ignore-start` has no matching `jarl-ignore-end` at the same nesting level.")
    (cs! "Add a matching `jarl-ignore-end` comment at the same nesting level.") m.unmatchedStart) ++
  gate rules .unmatchedRangeSuppression (commentDiags .unmatchedRangeSuppression
    (cs! "This `jarl-ignore-end` has no matching `jarl-ignore-start` at the same nesting level.")
    (cs! "Add a matching `jarl-ignore-start` comment at the same nesting level.") m.unmatchedEnd) ++
  gate rules .duplicatedFunctionDefinition (pkgDiags .duplicatedFunctionDefinition
    (cs! "is defined more than once in this package.") dups) ++
  gate rules .unusedFunction (pkgDiags .unusedFunction
    (cs! "is defined but never called in this package.") unused)

/-- lints/comments/outdated_suppression. -/
def outdatedDiags (ranges : List Range) : List Diagnostic :=
  commentDiags .outdatedSuppression
    (cs! "This suppression comment is unused, no violation would be reported without it.")
    (cs! "Remove this suppression comment or verify that it's still needed.") ranges

/-- analyze/document.rs:19-149 `check_document`: the diagnostics the checker holds afterwards. -/
def checkDocument (rules : List Rule) (m : Manager) (exprs unreach : List Diagnostic)
    (dups unused : List (Str × Range × Str)) : List Diagnostic :=
  let (kept, used) := filterDiagnostics m (rawDiagnostics rules m exprs unreach dups unused)
  kept ++ gate rules .outdatedSuppression (outdatedDiags (unusedSuppressions m used))

/-- analyze/document.rs:29-33. -/
def unreachableDiags (L : Lints) (inp : LintInput) (code : Str) : Except CheckErr (List Diagnostic) :=
  if Rule.unreachableCode ∈ inp.ruleSet then L.unreachable inp code else .ok []

/-- check.rs:157-172: run both kinds of checks on one text whose suppressions are `m`. The top-level
unreachable-code analysis only runs (and only fails) when its rule is enabled. -/
def runChecker (L : Lints) (inp : LintInput) (m : Manager) (code : Str) (dups unused : List (Str × Range × Str)) :
    Except CheckErr (List Diagnostic) := do
  let exprs ← L.expressions inp code
  let unreach ← unreachableDiags L inp code
  return checkDocument inp.ruleSet m exprs unreach dups unused

/-- `if cond { x.fix = Fix::empty(); }` -/
def Diagnostic.clearFixIf (cond : Bool) (d : Diagnostic) : Diagnostic := if cond then { d with fix := Fix.empty } else d

/-- check.rs:190-211: the fix settings for one diagnostic. -/
def applyFixSettings (cfg : Config) (file : Str) (d : Diagnostic) : Diagnostic :=
  let rulesWithoutFix := (cfg.rulesToApply.filter Rule.hasNoFix).map Rule.name
  let d := { d with filename := file }
  let d := d.clearFixIf (rulesWithoutFix.contains d.name)
  let d := d.clearFixIf (cfg.unfixable.contains d.name)
  let d := d.clearFixIf (match cfg.fixable with | some l => !l.contains d.name | none => false)
  d.clearFixIf d.fix.toSkip

/-- utils.rs:87-102 `compute_lints_location`; fails where `find_row_col` underflows. -/
def computeLocations (newLines : List Nat) : List Diagnostic → Except CheckErr (List Diagnostic)
  | [] => .ok []
  | d :: ds => match findRowCol d.range.start newLines with
    | none => .error .panic
    | some loc => do
      let rest ← computeLocations newLines ds
      return { d with location := some loc } :: rest

/-- check.rs:131-172: parse, collect suppressions, run the checks; a file that is not Rmd/Qmd. -/
def checkerDiagnostics (L : Lints) (pkg : PackageAnalysis) (cfg : Config) (file contents : Str) :
    Except CheckErr (Parsed × List Diagnostic) :=
  match L.parse contents with
  | none => .error .parse
  | some p => match fromNode p.root contents with
    | none => .error .panic
    | some m => do
      let ds ← runChecker L cfg.lintInput m contents (pkg.duplicates file) (pkg.unused file)
      return (p, ds)

/-- check.rs:120-218 `get_checks` for a file that is not Rmd/Qmd. -/
def getChecksR (L : Lints) (pkg : PackageAnalysis) (cfg : Config) (file contents : Str) :
    Except CheckErr (List Diagnostic) := do
  let (p, ds) ← checkerDiagnostics L pkg cfg file contents
  match p.listText with
  | none => .error .lint
  | some t => computeLocations (findNewLines t) (ds.map (applyFixSettings cfg file))

/-! ## Rmd and Qmd files -/

/-- check.rs:232-236 `ChunkState`. -/
structure ChunkState where
  code : Str
  manager : Manager
  startByte : Nat

/-- check.rs:260-266: outside the first chunk, file suppressions are misplaced. -/
def demoteFile (index : Nat) (m : Manager) : Manager :=
  if 0 < index then { m with file := [], misplacedFile := m.misplacedFile ++ m.file.map (·.2) } else m

/-- check.rs:248-286: pass 1 (`none` for a chunk with syntax errors). -/
def rmdStates (L : Lints) : Nat → List RChunk → Except CheckErr (List (Option ChunkState))
  | _, [] => .ok []
  | i, c :: cs =>
    match L.parse c.code with
    | none => do
      let rest ← rmdStates L (i + 1) cs
      return none :: rest
    | some p => match fromNode p.root c.code with
      | none => .error .panic
      | some m => do
        let rest ← rmdStates L (i + 1) cs
        return some ⟨c.code, demoteFile i m, c.startByte⟩ :: rest

/-- A range moved by a byte offset. -/
def Range.shift (r : Range) (n : Nat) : Range := ⟨r.start + n, r.stop + n⟩

/-- check.rs:268-279: the file suppressions found in pass 1, with offsets in the document. -/
def rmdFileSuppressions (states : List (Option ChunkState)) : List (Rule × Range) :=
  states.flatMap fun
    | none => []
    | some s => s.manager.file.map (fun f => (f.1, f.2.shift s.startByte))

/-- check.rs:311-317: a diagnostic of a chunk, in the document. -/
def remap (file : Str) (offset : Nat) (d : Diagnostic) : Diagnostic :=
  { d with filename := file, fix := Fix.empty, range := d.range.shift offset }

/-- check.rs:289-319: pass 2. -/
def rmdDiagnostics (L : Lints) (cfg : Config) (file : Str) :
    List (Option ChunkState) → Except CheckErr (List Diagnostic)
  | [] => .ok []
  | none :: ss => rmdDiagnostics L cfg file ss
  | some s :: ss => do
    let ds ← runChecker L cfg.lintInput s.manager s.code [] []
    let rest ← rmdDiagnostics L cfg file ss
    return ds.map (remap file s.startByte) ++ rest

/-- check.rs:329-349: remove the outdated_suppression reports of file suppressions that hide something in another
chunk. -/
def dropSpuriousOutdated (fileSupp : List (Rule × Range)) (ds : List Diagnostic) : List Diagnostic :=
  let violated := ((ds.filter (fun d => d.name ≠ Rule.outdatedSuppression.name)).filterMap
    (fun d => Rule.fromName d.name)).filter (fun r => fileSupp.any (fun f => f.1 = r))
  let usedRanges := (fileSupp.filter (fun f => violated.contains f.1)).map (·.2)
  if fileSupp.isEmpty || violated.isEmpty then ds
  else ds.filter (fun d => !(decide (d.name = Rule.outdatedSuppression.name) && usedRanges.contains d.range))

/-- check.rs:352-356: apply the file suppressions to all chunks. -/
def applyFileSuppressions (fileSupp : List (Rule × Range)) (ds : List Diagnostic) : List Diagnostic :=
  ds.filter fun d => match Rule.fromName d.name with
    | some r => !fileSupp.any (fun f => f.1 = r)
    | none => true

/-- check.rs:227-360 `get_checks_rmd`. -/
def getChecksRmd (L : Lints) (cfg : Config) (file contents : Str) : Except CheckErr (List Diagnostic) := do
  let states ← rmdStates L 0 (extractRChunks contents)
  let all ← rmdDiagnostics L cfg file states
  let fs := rmdFileSuppressions states
  computeLocations (findNewLines contents) (applyFileSuppressions fs (dropSpuriousOutdated fs all))

/-- The extension of a file name. -/
def nameExtension (name : Str) : Option Str :=
  match splitLast '.' name with
  | some ([], _) => none
  | some (_, e) => some e
  | none => none

/-- `Path::extension`: what follows the last dot of the file name, unless that dot is its first character or missing.
Only `/` separates directories, and names `..` or ending in `/` do not occur. -/
def extension (path : Str) : Option Str :=
  nameExtension (match splitLast '/' path with | some (_, n) => n | none => path)

/-- fs.rs:20-36 `has_rmd_extension`. -/
def hasRmdExtension (path : Str) : Bool :=
  match extension path with
  | some e => e = cs! "rmd" || e = cs! "Rmd" || e = cs! "qmd" || e = cs! "Qmd"
  | none => false

/-- fs.rs:14-24 `has_r_extension`. -/
def hasRExtension (path : Str) : Bool :=
  match extension path with
  | some e => e = cs! "r" || e = cs! "R"
  | none => false

/-- check.rs:120-218 `get_checks`. -/
def getChecks (L : Lints) (pkg : PackageAnalysis) (cfg : Config) (file contents : Str) :
    Except CheckErr (List Diagnostic) :=
  if hasRmdExtension file then getChecksRmd L cfg file contents else getChecksR L pkg cfg file contents

end Jarl
