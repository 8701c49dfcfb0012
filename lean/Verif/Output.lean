import Verif.Cli
import Verif.Json
/-!
# Output: what `jarl check` prints (crates/jarl/src/output_format.rs, commands/check.rs:70-268, statistics.rs)

Parameters (`OutEnv`): the environment variables, whether `colored` writes escape sequences, the working directory, the
contents of the files when the report is printed, the renderer of code snippets and the messages of the operating system.
The two streams are modelled separately; their interleaving is not. `--add-jarl-ignore` prints one line per changed file,
which is not modelled here (what it does to the files is, in `Cli`).
-/
namespace Jarl

/-- output_format.rs:118-130 `OutputFormat`. -/
inductive OutputFormat | full | concise | github | json
deriving DecidableEq, Repr

/-- What the printed text depends on besides the results. -/
structure OutEnv where
  /-- `NO_COLOR` is set -/
  noColor : Bool
  /-- the crate `colored` colours its strings: neither `NO_COLOR` nor a pipe stops it -/
  colors : Bool
  /-- the working directory -/
  cwd : Str
  /-- `fs::read_to_string` when the report is printed; `.error` holds the message -/
  read : Str → Except Str Str
  /-- diagnostic.rs:148- `render_diagnostic`: styled, source, path, title, diagnostic -/
  render : Bool → Str → Str → Str → Diagnostic → Str
  /-- output_format.rs:68-71: `JARL_N_VIOLATIONS_HINT_STAT` as `i32`, 15 if absent or not a number -/
  hint : Int
  /-- the message of the operating system, a lint rule or git about a path -/
  detail : Str → CheckErr → Str

/-- The options of args.rs `CheckCommand` that decide what is printed, and what was found while the configuration was read. -/
structure OutArgs extends CheckArgs where
  ignore : Str := []
  format : OutputFormat := .full
  /-- `--assignment` was given -/
  assignment : Bool := false
  /-- `--with-timing`, with the duration shown -/
  timing : Option Str := none
  /-- check.rs:32, 56-63: the configuration of a parent directory -/
  parentConfig : Option Str := none
  /-- for every jarl.toml: `deprecated_assignment_syntax` -/
  oldSyntax : List Bool := []

/-- Standard output and standard error. -/
structure Streams where
  out : Str
  err : Str
deriving DecidableEq, Repr

/-- `println!` -/
def line (s : Str) : Str := s ++ ['\n']

/-- The escape character. -/
def esc : Char := Char.ofNat 27

/-- crate `colored`: `code` is `37` for white, `31` for red, `1;31` for red and bold, ... -/
def paint (env : OutEnv) (code s : Str) : Str :=
  if env.colors then esc :: (cs! "[" ++ code ++ cs! "m") ++ s ++ esc :: cs! "[0m" else s

/-- output_format.rs:11-16 `make_hyperlink`. -/
def hyperlink (text : Str) : Str :=
  esc :: cs! "]8;;https://jarl.etiennebacher.com/rules/" ++ text ++ esc :: cs! "\\" ++ text ++ esc :: cs! "]8;;" ++
    esc :: cs! "\\"

/-- fs.rs:44-56 `relativize_path`, without the Windows and wasm parts: the components of the working directory are taken
off the front. Paths are normal (no `.`, `..`, repeated or trailing `/`). -/
def relativize (cwd path : Str) : Str :=
  if path = cwd then []
  else (stripPrefix (cwd ++ ['/']) path).getD path

/-- output_format.rs:170-174, 203-207, 272-276: the text of a diagnostic. -/
def Diagnostic.text (d : Diagnostic) : Str :=
  match d.suggestion with
  | some s => d.body ++ [' '] ++ s
  | none => d.body

/-- output_format.rs:176-181, 381-385: the name of the rule, as a link unless `NO_COLOR` is set. -/
def ruleTitle (env : OutEnv) (name : Str) : Str := if env.noColor then name else hyperlink name

/-- The chain of an `anyhow::Error`, outermost first: check.rs:71-75, 96-109, error.rs:10-18, vcs.rs:51-98. -/
def errChain (env : OutEnv) (path : Str) : CheckErr → List Str
  | .read => [cs! "Failed to read file: " ++ path, env.detail path .read]
  | .write => [cs! "Failed to write file: " ++ path, env.detail path .write]
  | .parse => [cs! "Failed to get checks for file: " ++ path, cs! "Failed to parse " ++ path ++ cs! " due to syntax errors."]
  | .lint => [cs! "Failed to get checks for file: " ++ path, env.detail path .lint]
  | .vcs => [env.detail path .vcs]
  | .panic => [env.detail path .panic]

/-- output_format.rs:160-167, 310-317: what is shown of an error: the root cause of a syntax error, else the outermost
message. -/
def errShown (env : OutEnv) (path : Str) (e : CheckErr) : Str :=
  if e = .parse then (errChain env path e).getLast?.getD [] else (errChain env path e).head?.getD []

/-- output_format.rs:156-168, 306-318: the errors on standard error. -/
def errLines (env : OutEnv) (errors : List (Str × CheckErr)) : Str :=
  errors.flatMap (fun (p, e) => line (paint env (cs! "1;31") (cs! "Error") ++ cs! ": " ++ errShown env p e))

/-- output_format.rs:182-191: one diagnostic, concise. `none`: no location, `unreachable!`. -/
def conciseLine (env : OutEnv) (d : Diagnostic) : Option Str :=
  d.location.map (fun (row, col) =>
    line (paint env (cs! "37") (relativize env.cwd d.filename) ++ cs! " [" ++ digits row ++ cs! ":" ++ digits (col + 1) ++
      cs! "] " ++ paint env (cs! "31") (ruleTitle env d.name) ++ cs! " " ++ d.text))

/-- output_format.rs:247-277: one diagnostic, for GitHub. -/
def githubLine (d : Diagnostic) : Option Str :=
  d.location.map (fun (row, col) =>
    cs! "::warning title=Jarl (" ++ d.name ++ cs! "),file=" ++ d.filename ++ cs! ",line=" ++ digits row ++ cs! ",col=" ++
      digits (col + 1) ++ cs! "::" ++ d.filename ++ cs! ":" ++ digits row ++ cs! ":" ++ digits (col + 1) ++ cs! " " ++
      line (cs! "[" ++ d.name ++ cs! "] " ++ d.text))

/-- Print all, in order; panics at the first that panics. -/
def emitAll (f : Diagnostic → Option Str) : List Diagnostic → Option Str
  | [] => some []
  | d :: ds => do
    let a ← f d
    let b ← emitAll f ds
    return a ++ b

/-- output_format.rs:142-196 `ConciseEmitter::emit`. -/
def emitConcise (env : OutEnv) (ds : List Diagnostic) (errors : List (Str × CheckErr)) : Option Streams :=
  (emitAll (conciseLine env) ds).map (fun s => ⟨s, errLines env errors⟩)

/-- output_format.rs:238-283 `GithubEmitter::emit`: the errors are not printed. -/
def emitGithub (ds : List Diagnostic) : Option Streams :=
  (emitAll githubLine ds).map (fun s => ⟨s, []⟩)

/-- `#[derive(Serialize)]` of diagnostic.rs:44-62, location.rs:4-8, diagnostic.rs:10-19; `TextRange` is the array of its
bounds. -/
def diagJson (d : Diagnostic) : Json := .obj [
  (cs! "message", .obj [
    (cs! "name", .str d.name), (cs! "body", .str d.body),
    (cs! "suggestion", match d.suggestion with | some s => .str s | none => .null)]),
  (cs! "filename", .str d.filename),
  (cs! "range", .arr [.num d.range.start, .num d.range.stop]),
  (cs! "location", match d.location with
    | some (row, col) => .obj [(cs! "row", .num row), (cs! "column", .num col)]
    | none => .null),
  (cs! "fix", .obj [
    (cs! "content", .str d.fix.content), (cs! "start", .num d.fix.start), (cs! "end", .num d.fix.stop),
    (cs! "to_skip", .bool d.fix.toSkip)])]

/-- output_format.rs:222-225: `{:#}` joins the chain with `: `. -/
def errJson (env : OutEnv) (e : Str × CheckErr) : Json := .obj [
  (cs! "file", .str e.1), (cs! "error", .str ((cs! ": ").intercalate (errChain env e.1 e.2)))]

/-- output_format.rs:106-116, 227-230 `JsonOutput`. -/
def report (env : OutEnv) (ds : List Diagnostic) (errors : List (Str × CheckErr)) : Json := .obj [
  (cs! "diagnostics", .arr (ds.map diagJson)), (cs! "errors", .arr (errors.map (errJson env)))]

/-- output_format.rs:211-236 `JsonEmitter::emit`. -/
def emitJson (env : OutEnv) (ds : List Diagnostic) (errors : List (Str × CheckErr)) : Option Streams :=
  some ⟨(report env ds errors).pretty 0, []⟩

/-- output_format.rs:361-388: one diagnostic with its code; nothing for a file that cannot be read. -/
def fullBlock (env : OutEnv) (d : Diagnostic) : Option Str :=
  d.location.map (fun _ => match env.read d.filename with
    | .ok source =>
      line (env.render (!env.noColor) source (relativize env.cwd d.filename) (ruleTitle env d.name) d) ++ ['\n']
    | .error _ => [])

/-- output_format.rs:342-358: a warning per diagnostic of a file that cannot be read (only files that were read are in
the cache). -/
def fullWarnings (env : OutEnv) (ds : List Diagnostic) : Str :=
  ds.flatMap (fun d => match env.read d.filename with
    | .ok _ => []
    | .error m => line (cs! "Warning: Could not read source file " ++ d.filename ++ cs! ": " ++ m))

/-- output_format.rs:287-392 `FullEmitter::emit`. -/
def emitFull (env : OutEnv) (ds : List Diagnostic) (errors : List (Str × CheckErr)) : Option Streams :=
  (emitAll (fullBlock env) ds).map (fun s =>
    ⟨s, errLines env errors ++ (if !errors.isEmpty && !ds.isEmpty then ['\n'] else []) ++ fullWarnings env ds⟩)

/-- output_format.rs:21-29 `print_section_header`: padded by bytes, three per `─`. -/
def sectionHeader (title : Str) : Str :=
  let pre := cs! "── " ++ title ++ cs! " ──"
  line (pre ++ List.replicate (57 - blen pre) '─')

/-- output_format.rs:44-62: which fixes are available. -/
def fixLines (nSafe nUnsafe : Nat) : Str :=
  if 0 < nSafe then
    if nUnsafe = 0 then line (digits nSafe ++ cs! " fixable with the `--fix` option.")
    else line (digits nSafe ++ cs! " fixable with the `--fix` option (" ++
      (if nUnsafe = 1 then cs! "1 hidden fix" else digits nUnsafe ++ cs! " hidden fixes") ++
      cs! " can be enabled with the `--unsafe-fixes` option).")
  else if 0 < nUnsafe then
    line ((if nUnsafe = 1 then cs! "1 fix is" else digits nUnsafe ++ cs! " fixes are") ++
      cs! " available with the `--fix --unsafe-fixes` option.")
  else []

/-- `Display` for `i32`. -/
def intDigits (i : Int) : Str := if i < 0 then '-' :: digits i.natAbs else digits i.natAbs

/-- output_format.rs:33-82 `print_summary`. The count is converted to `i32`: fewer than 2^31 diagnostics. -/
def summary (env : OutEnv) (ds : List Diagnostic) (hasErrors : Bool) : Str :=
  let total := ds.length
  if 0 < total then
    line [] ++ sectionHeader (cs! "Summary") ++
    (if 1 < total then line (cs! "Found " ++ digits total ++ cs! " errors.") else line (cs! "Found 1 error.")) ++
    fixLines (ds.filter Diagnostic.hasSafeFix).length (ds.filter Diagnostic.hasUnsafeFix).length ++
    (if env.hint < (total : Int) then
      line (cs! "More than " ++ intDigits env.hint ++ cs! " errors reported, use `--statistics` to get the count by rule.")
    else [])
  else if hasErrors then [] else sectionHeader (cs! "Summary") ++ line (cs! "All checks passed!")

/-- output_format.rs:85-104 `print_warnings`, `print_notes`. -/
def section_ (title : Str) (items : List Str) : Str :=
  if items.isEmpty then [] else line [] ++ sectionHeader title ++ items.flatMap line

/-- Insert into a sorted set (`BTreeSet::insert`). -/
def setInsert (s : Str) : List Str → List Str
  | [] => [s]
  | t :: ts => match strCmp s t with
    | .lt => s :: t :: ts
    | .eq => t :: ts
    | .gt => t :: setInsert s ts

/-- check.rs:213-234: the rules named on the command line and in the jarl.toml files, sorted, without repetition. -/
def explicitNames (args : OutArgs) (items : List ResolvedItem) : List Str :=
  let cli := [args.select, args.extendSelect, args.ignore].flatMap (fun s =>
    ((splitOn ',' s).map trim).filter (fun n => !n.isEmpty))
  let toml := items.flatMap (fun i => [i.linter.select, i.linter.extendSelect, i.linter.ignore].flatMap (fun l => l.getD []))
  (cli ++ toml).foldl (fun set n => setInsert n set) []

/-- rule_set.rs:264: the version from which a rule is deprecated (the only deprecated rule is `browser`). -/
def Rule.deprecatedSince : Rule → Str
  | .browser => cs! "0.5.0"
  | _ => []

/-- check.rs:236-245: the warning for a named rule. -/
def deprecationWarning (name : Str) : Option Str :=
  match Rule.fromName name with
  | none => none
  | some r => match r.deprecation with
    | none => none
    | some repl =>
      some (cs! "Rule `" ++ name ++ cs! "` is deprecated since v" ++ r.deprecatedSince ++ cs! ". Use `" ++ repl ++ cs! "` instead.")

/-- check.rs:184-245: the warnings. -/
def warnings (args : OutArgs) (items : List ResolvedItem) (all : List (Str × List Diagnostic)) : List Str :=
  (if args.assignment then [cs! "`--assignment` is deprecated. Use `[lint.assignment]` in jarl.toml instead."] else []) ++
  (if unusedHidden args.toCheckArgs items all then
    [digits (unusedCount all) ++ cs! " `unused_function` diagnostics hidden (likely false positives).\nTo show them:\n  - set 'threshold-ignore' in `[lint.unused_function]` in jarl.toml,\n  - or explicitly include 'unused_function' in the set of rules."]
    else []) ++
  (args.oldSyntax.filter id).map (fun _ =>
    cs! "Argument `assignment` in `[lint]` is deprecated. Use `[lint.assignment]` with `operator` instead.") ++
  (explicitNames args items).filterMap deprecationWarning

/-- check.rs:249-260: the notes. -/
def notes (args : OutArgs) : List Str :=
  (match args.timing with | some d => [cs! "Checked files in: " ++ d] | none => []) ++
  (match args.parentConfig with | some p => [cs! "Used '" ++ p ++ cs! "'"] | none => [])

/-- `{:>5}`: to the right in five columns. -/
def right5 (s : Str) : Str := List.replicate (5 - s.length) ' ' ++ s

/-- statistics.rs:33-41: a line of the table. -/
def statLine (env : OutEnv) (e : Str × Nat × Bool) : Str :=
  line (paint env (cs! "1") (right5 (digits e.2.1)) ++ cs! " [" ++ (if e.2.2 then cs! "*" else cs! " ") ++ cs! "] " ++
    paint env (cs! "1;31") e.1)

/-- statistics.rs:7-50 `print_statistics`; `entries` is the table in the order of the hash map. -/
def statisticsText (env : OutEnv) (args : OutArgs) (ds : List Diagnostic) (entries : List (Str × Nat × Bool)) : Str :=
  if ds.isEmpty then line (cs! "All checks passed!")
  else (statisticsLines entries).flatMap (statLine env) ++ line [] ++ line (cs! "Rules with `[*]` have an automatic fix.") ++
    (match args.parentConfig with | some p => line [] ++ line (cs! "Used '" ++ p ++ cs! "'") | none => [])

/-- check.rs:156-169: the emitter of the format. -/
def emit (env : OutEnv) (format : OutputFormat) (ds : List Diagnostic) (errors : List (Str × CheckErr)) : Option Streams :=
  match format with
  | .concise => emitConcise env ds errors
  | .json => emitJson env ds errors
  | .github => emitGithub ds
  | .full => emitFull env ds errors

/-- check.rs:173-176. -/
def OutputFormat.human : OutputFormat → Bool
  | .full | .concise => true
  | .github | .json => false

/-- commands/check.rs:70-268: what is printed, for a run without `--add-jarl-ignore`. No results: no file was found
(check.rs:70-77). `order` is the iteration order of the hash map of statistics.rs. `none`: panic. -/
def checkOutput (env : OutEnv) (order : List (Str × Nat × Bool) → List (Str × Nat × Bool)) (args : OutArgs)
    (items : List ResolvedItem) (rs : FileResults) : Option Streams :=
  if rs.isEmpty then
    some ⟨line (paint env (cs! "1;33") (cs! "Warning") ++ cs! ": " ++
      paint env (cs! "1;37") (cs! "No R files found under the given path(s).")), []⟩
  else
    let all := allDiagnostics rs
    let flat := flatSorted (hideUnused args.toCheckArgs items all)
    if args.statistics then some ⟨statisticsText env args flat (order (countRules flat)), []⟩
    else match emit env args.format flat (allErrors rs) with
      | none => none
      | some s =>
        if args.format.human then
          some ⟨s.out ++ summary env flat (!(allErrors rs).isEmpty) ++
            section_ (cs! "Warnings") (warnings args items all) ++ section_ (cs! "Notes") (notes args), s.err⟩
        else some s

end Jarl
