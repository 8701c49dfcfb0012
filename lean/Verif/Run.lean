import Verif.Walk
import Verif.Package
import Verif.Toml
import Verif.Cli
import Verif.Json
import Verif.LspActions
/-!
# Run: the whole command `jarl check` and the whole of linting in the editor
(jarl commands/check.rs:32-268, jarl-core check.rs:24-78, package.rs:65-237, config.rs:510-541, fs.rs:46-59, jarl-lsp lint.rs:58-200)

The parts are modelled in the modules imported here; this module joins them. Commands without `--fix` and `--unsafe-fixes` only (fixing files is
in `LintFix`). Not modelled: the printed text (see `Output`), timing, symbolic links.

What the operating system and the threads decide is a value of `RunOrder`: the order in which the threads of the walker deliver the
files, and the orders of the hash maps.
-/
namespace Jarl

/-- Everything jarl reads, and the dependencies that are parameters: the parser and rules (`lints`, for the rule options of some settings), what
git ignores, the regular expressions (`re`, `isMatch`), `char::is_alphanumeric`, the order of paths.
* `text p`: `fs::read_to_string`;
* `config d`: see `ConfigFs.toml`;
* `first`: `resolver.items().first()`. -/
structure FileWorld where
  tree : FsTree
  text : DPath → Option Str
  git : DPath → Bool → GitMatch
  config : DPath → Option (Option JarlSettings)
  userDir : Option DPath
  cwd : DPath
  lints : JarlSettings → Lints
  first : List (DPath × ExcludeSettings) → Option (DPath × ExcludeSettings)
  alnum : Char → Bool
  le : DPath → DPath → Bool
  re : Str → Option (Str → Bool)
  isMatch : Str → Str → Bool

/-- `Path::exists`. -/
def FileWorld.exists (w : FileWorld) (p : DPath) : Bool := (w.tree.at p).isSome

mutual
/-- The files below a directory: unused_function.rs:225-243 `collect_files`, before the predicate. (The stack of that loop visits the
directories in another order; the order never matters, as the theorems show.) -/
def filesBelow (p : DPath) : FsTree → List DPath
  | .file => [p]
  | .dir es => filesBelowIn p es

def filesBelowIn (p : DPath) : List (Str × FsTree) → List DPath
  | [] => []
  | (n, t) :: es => filesBelow (p ++ [n]) t ++ filesBelowIn p es
end

/-- `collect_files(dir)`: nothing, if `dir` is not a directory. -/
def FileWorld.below (w : FileWorld) (d : DPath) : List DPath :=
  match w.tree.at d with
  | some (.dir es) => filesBelowIn d es
  | _ => []

/-- The disk as `discover_settings` sees it. -/
def FileWorld.configFs (w : FileWorld) : ConfigFs JarlSettings := ⟨w.config, w.userDir, nestedWalk w.git w.tree⟩

/-- The disk as `compute_package_analysis` sees it. -/
def FileWorld.pkgFs (w : FileWorld) : PkgFs := ⟨fun d => w.exists (d ++ [cs! "DESCRIPTION"]), w.text, w.below⟩

/-- Components joined by slashes. -/
def joinPath : DPath → Str
  | [] => []
  | [n] => n
  | n :: m :: p => n ++ '/' :: joinPath (m :: p)

/-- fs.rs:46-59 `relativize_path`. -/
def relText (cwd p : DPath) : Str :=
  if cwd.isPrefixOf p then joinPath (p.drop cwd.length) else '/' :: joinPath p

/-! ## The configuration of a group of files -/

/-- config.rs:524-533: what is found for one path. -/
def descProbe (w : FileWorld) (p : DPath) : DescProbe :=
  let d := match w.tree.at p with
    | some (.dir _) => p
    | _ => p.dropLast
  if w.exists (d ++ [cs! "DESCRIPTION"]) then
    (match w.text (d ++ [cs! "DESCRIPTION"]) with
     | some s => .text s
     | none => .unreadable)
  else .absent

/-- `build_config(&check_config, settings, paths)`. config.rs:85-159. -/
def configOf (w : FileWorld) (args : ArgsConfig) (s : Option JarlSettings) (paths : List DPath) : Except Fail Config :=
  buildConfig args (s.map (·.linter)) (s.getD defaultSettings).assignment (paths.map (descProbe w))

/-! ## The analysis of the packages -/

/-- The orders of the hash maps of `compute_package_analysis`: the package directories (package.rs:114), the packages in the two
analyses (duplicated_function_definition.rs:131, unused_function.rs:287). -/
structure PkgOrder where
  roots : List DPath
  dupKeys : List DPath
  unusedKeys : List DPath

/-- duplicated_function_definition.rs:151-154. -/
def dupHelp (cwd : DPath) (r : DupReport) : Str :=
  cs! "Other definition at " ++ relText cwd r.firstFile ++ cs! ":" ++ digits r.firstLine ++ cs! ":1"

/-- unused_function.rs:254-272 `scope_dir_from_path`, for the components of the relative path. -/
def scopeDir : List Str → Str
  | [] => cs! "tests/"
  | c :: cs =>
    if c = cs! "tests" then cs! "tests/"
    else if c = cs! "inst" then
      (match cs with
       | n :: _ => if n = cs! "tinytest" || n = cs! "tests" then cs! "inst/" ++ n ++ cs! "/" else scopeDir cs
       | [] => scopeDir cs)
    else scopeDir cs

/-- unused_function.rs:413-416, 459-463: with the directory, if the file is not in the R directory of a package. (Simplification: a file that is
analysed both as a file of R/ and as a test, which needs a package inside the tests of another one, has both texts in the code.) -/
def unusedHelp (w : FileWorld) (p : DPath) (r : UnusedReport) : Str :=
  let path := relText w.cwd p
  cs! "Defined at " ++ path ++ cs! ":" ++ digits r.line ++ cs! ":1 but never called" ++
    (if inPackageR w.pkgFs p then [] else cs! " in " ++ scopeDir (splitOn '/' path))

/-- The options of `unused_function`. -/
def unusedEnv (w : FileWorld) (s : JarlSettings) : UnusedEnv := ⟨isSkipped w.isMatch s, w.re⟩

/-- package.rs:65-229 `compute_package_analysis`, the insertions into the map `duplicate_assignments`. -/
def dupMap (w : FileWorld) (cfg : Config) (o : PkgOrder) (paths : List DPath) : List (DPath × List DupReport) :=
  if Rule.duplicatedFunctionDefinition ∈ cfg.rulesToApply then
    computeDuplicates w.le o.dupKeys
      (sharedData w.alnum (decide (Rule.unusedFunction ∈ cfg.rulesToApply)) w.pkgFs o.roots paths)
  else []

/-- package.rs:65-229 `compute_package_analysis`, the changes of the map `unused_functions`. -/
def unusedMap (w : FileWorld) (s : JarlSettings) (cfg : Config) (o : PkgOrder) (paths : List DPath) : List (MapOp UnusedReport) :=
  if Rule.unusedFunction ∈ cfg.rulesToApply then
    computeUnused (unusedEnv w s) (namespaceContents w.pkgFs o.roots) o.unusedKeys (sharedData w.alnum true w.pkgFs o.roots paths)
  else []

/-- The entries of the file `p` in both maps (check.rs:147-152), as triples (name, range, help). The keys of the maps are relative paths; here
the path itself is the key (`relText_inj`: different files have different relative paths). -/
def analysisOf (w : FileWorld) (s : JarlSettings) (cfg : Config) (o : PkgOrder) (paths : List DPath) (p : DPath) : PackageAnalysis where
  duplicates _ := (reportsFor p (dupMap w cfg o paths)).map (fun r => (r.name, r.range, dupHelp w.cwd r))
  unused _ := (entryAfter p (unusedMap w s cfg o paths)).map (fun r => (r.name, r.range, unusedHelp w p r))

/-! ## `jarl check` -/

/-- What the command line says (args.rs:38-140). `config.fix` and `config.unsafeFixes` are not used here. -/
structure RunArgs where
  config : ArgsConfig := {}
  statistics : Bool := false
  addJarlIgnore : Option Str := none
  noDefaultExclude : Bool := false
  paths : List DPath

/-- What the threads and the hash maps decide: the order of the files, the groups in the order of the map, and the orders inside
the analysis of each group. -/
structure RunOrder where
  files : List DPath
  groups : List (Option DPath × List DPath)
  pkg : Option DPath → PkgOrder

/-- settings.rs:16-29: what the walker reads of the settings. -/
def excludeOf (s : JarlSettings) : ExcludeSettings := ⟨s.defaultExclude, s.excl, s.incl⟩

/-- commands/check.rs:49-71: the files found. -/
def foundFiles (w : FileWorld) (a : RunArgs) (items : List (DPath × JarlSettings)) : List DPath :=
  let ex := overrideDefault a.noDefaultExclude (items.map (fun x => (x.1, excludeOf x.2)))
  checkedFiles w.tree w.git ex (w.first ex) a.noDefaultExclude a.paths

/-- check.rs:43-50, 65-78: one file of a group. -/
def fileResult (w : FileWorld) (s : JarlSettings) (cfg : Config) (o : PkgOrder) (paths : List DPath) (p : DPath) :
    Str × Except CheckErr (List Diagnostic) :=
  (relText w.cwd p, lintOnly (w.lints s) (analysisOf w s cfg o paths p) cfg (relText w.cwd p) Io.good (w.text p))

/-- commands/check.rs:106-114: one group. -/
def runGroup (w : FileWorld) (a : RunArgs) (items : List (DPath × JarlSettings)) (o : RunOrder) (g : Option DPath × List DPath) :
    Except Fail FileResults :=
  match configOf w a.config (groupSettings items g.1) g.2 with
  | .error e => .error e
  | .ok cfg => .ok (g.2.map (fileResult w ((groupSettings items g.1).getD defaultSettings) cfg (o.pkg g.1) g.2))

/-- commands/check.rs:105-114: all groups; the first error ends the command. -/
def runGroups (w : FileWorld) (a : RunArgs) (items : List (DPath × JarlSettings)) (o : RunOrder) :
    List (Option DPath × List DPath) → Except Fail FileResults
  | [] => .ok []
  | g :: gs => do
    let rs ← runGroup w a items o g
    let rest ← runGroups w a items o gs
    return rs ++ rest

/-- The settings as `cliReport` sees them. -/
def resolvedItems (items : List (DPath × JarlSettings)) : List ResolvedItem := items.map (fun x => ⟨x.2.linter, x.2.threshold⟩)

/-- The arguments as `cliReport` sees them. -/
def RunArgs.checkArgs (a : RunArgs) : CheckArgs := ⟨a.config.select, a.config.extendSelect, a.statistics, a.addJarlIgnore⟩

/-- commands/check.rs:32-268 `check`. -/
def runCheck (w : FileWorld) (a : RunArgs) (o : RunOrder) : Except Unit CliOut :=
  match discoverSettings w.configFs a.paths with
  | none => .error ()
  | some items =>
    if o.files.isEmpty then .ok ⟨.success, [], []⟩
    else match runGroups w a items o o.groups with
      | .error _ => .error ()
      | .ok rs => cliReport a.checkArgs (resolvedItems items) rs

/-! ## The editor -/

/-- lint.rs:203-218 `collect_sibling_r_files` (the entries of the directory, whatever they are). -/
def siblingRFiles (w : FileWorld) (f : DPath) : Option (List DPath) :=
  match parentDir f with
  | none => none
  | some d =>
    if d.getLast? = some ['R'] ∧ w.exists (d.dropLast ++ [cs! "DESCRIPTION"]) = true then
      match w.tree.at d with
      | some (.dir es) => some ((es.map (fun e => d ++ [e.1])).filter isRFile)
      | _ => none
    else none

/-- lint.rs:112-142: the settings and the configuration for a file; outer `none`: an error of `discover_settings`. -/
def editorConfig (w : FileWorld) (f : DPath) : Option (Option JarlSettings × Except Fail Config) :=
  match editorSettings w.configFs f with
  | none => none
  | some s => some (s, configOf w {} s [f])

/-- lint.rs:144-149: the package analysis, and `unused_functions.values().map(len).sum()` (lint.rs:181). `files`: the paths the map may have
entries for. -/
def editorAnalysis (w : FileWorld) (s : JarlSettings) (cfg : Config) (o : PkgOrder) (f : DPath) : PackageAnalysis × Nat :=
  match siblingRFiles w f with
  | none => (⟨fun _ => [], fun _ => []⟩, 0)
  | some paths =>
    let ops := unusedMap w s cfg o paths
    let keys := (ops.map (fun op => match op with | .insert p _ => p | .extend p _ => p)).eraseDups
    (analysisOf w s cfg o paths f, ((keys.map (fun p => (entryAfter p ops).length)).sum))

/-- lint.rs:164-173, 182-193: is the rule named, and the threshold. -/
def editorNamed (s : Option JarlSettings) : Bool :=
  match s with
  | none => false
  | some s => ((s.linter.select.getD []) ++ (s.linter.extendSelect.getD [])).any (fun n => n = unusedFunctionName)

/-- What the editor knows about the file `f` (lint.rs:100-193). -/
def editorContext (w : FileWorld) (o : PkgOrder) (f : DPath) (s : Option JarlSettings) (cfg : Config) : LspContext :=
  let a := editorAnalysis w (s.getD defaultSettings) cfg o f
  { path := relText w.cwd f
    excluded := shouldExcludeBySettings ('/' :: joinPath f) (s.map excludeOf)
    cfg, pkg := a.1, unusedNamed := editorNamed s, unusedTotal := a.2
    threshold := match s with | none => 50 | some s => s.threshold }

/-- lint.rs:58-200 `lint_document` for a file of the disk opened in the editor with the text `content`. -/
def editorLint (w : FileWorld) (o : PkgOrder) (f : DPath) (content : Str) (enc : Enc) : LspRes (List LspDiag) :=
  match editorConfig w f with
  | none => .err
  | some (s, cfg) =>
    if shouldExcludeBySettings ('/' :: joinPath f) (s.map excludeOf) then .ok []
    else match cfg with
      | .error .panic => .panic
      | .error _ => .err
      | .ok cfg => lintDocument (w.lints (s.getD defaultSettings)) (editorContext w o f s cfg) content enc

end Jarl
