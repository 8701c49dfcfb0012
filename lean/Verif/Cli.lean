import Verif.LintFix
import Verif.SuppressionEdit
/-!
# Cli: the `check` command (crates/jarl/src/commands/check.rs, statistics.rs, status.rs)

Not modelled: file discovery, the text printed around the diagnostics, timing.
-/
namespace Jarl

/-- status.rs:4-11 `ExitStatus`. -/
inductive ExitStatus | success | failure | error
deriving DecidableEq, Repr

/-- status.rs:13-21: the process exit code. -/
def ExitStatus.code : ExitStatus → Nat
  | .success => 0
  | .failure => 1
  | .error => 255

/-! ## Order of diagnostics -/

/-- Lexicographic comparison of lists (Rust slices, strings and path components). -/
def lexCmp (cmp : α → α → Ordering) : List α → List α → Ordering
  | [], [] => .eq
  | [], _ :: _ => .lt
  | _ :: _, [] => .gt
  | a :: as, b :: bs => match cmp a b with
    | .eq => lexCmp cmp as bs
    | o => o

/-- Comparison of natural numbers. -/
def natCmp (a b : Nat) : Ordering := if a < b then .lt else if a = b then .eq else .gt

/-- Rust `str::cmp`: byte order of UTF-8, which is the order of code points. -/
def strCmp : Str → Str → Ordering := lexCmp (fun a b => natCmp a.toNat b.toNat)

/-- `Path::cmp` compares components. The paths jarl prints are relative to the working directory or absolute, without `.`
and `..` components, so splitting at `/` gives the components. -/
def pathCmp (a b : Str) : Ordering := lexCmp strCmp (splitOn '/' a) (splitOn '/' b)

/-- biome `TextRange` compares start, then end. -/
def rangeCmp (a b : Range) : Ordering := match natCmp a.start b.start with
  | .eq => natCmp a.stop b.stop
  | o => o

/-- diagnostic.rs:138-146 `Ord for Diagnostic`. -/
def diagCmp (a b : Diagnostic) : Ordering := match pathCmp a.filename b.filename with
  | .eq => rangeCmp a.range b.range
  | o => o

/-- `a ≤ b`. -/
def diagLe (a b : Diagnostic) : Bool := diagCmp a b != .gt

/-! ## Collecting the results -/

/-- What `jarl_core::check::check` returns, one pair per file. -/
abbrev FileResults := List (Str × Except CheckErr (List Diagnostic))

/-- commands/check.rs:122-134: the errors. -/
def allErrors (rs : FileResults) : List (Str × CheckErr) :=
  rs.filterMap (fun r => match r.2 with | .ok _ => none | .error e => some (r.1, e))

/-- commands/check.rs:122-134: the files with diagnostics. -/
def allDiagnostics (rs : FileResults) : List (Str × List Diagnostic) :=
  rs.filterMap (fun r => match r.2 with
    | .ok ds => if ds.isEmpty then none else some (r.1, ds)
    | .error _ => none)

/-- The fields of args.rs:38-140 `CheckCommand` that matter after the files have been checked. -/
structure CheckArgs where
  select : Str := []
  extendSelect : Str := []
  statistics : Bool := false
  addJarlIgnore : Option Str := none

/-- An item of the resolver: the settings of one jarl.toml; `threshold` is
`rule_options.unused_function.threshold_ignore`. -/
structure ResolvedItem where
  linter : LinterSettings
  threshold : Nat

/-- The name of the rule that can be hidden. -/
def unusedFunctionName : Str := Rule.unusedFunction.name

/-- commands/check.rs:437-451: is `unused_function` named in a `select` or `extend-select`? -/
def explicitlySelected (args : CheckArgs) (items : List ResolvedItem) : Bool :=
  (splitOn ',' args.select ++ splitOn ',' args.extendSelect).any (fun s => trim s = unusedFunctionName) ||
  items.any (fun i => ((i.linter.select.getD []) ++ (i.linter.extendSelect.getD [])).any (fun s => s = unusedFunctionName))

/-- commands/check.rs:453-464: the smallest threshold, 50 without settings. -/
def thresholdIgnore (items : List ResolvedItem) : Nat :=
  match items.map (·.threshold) with
  | [] => 50
  | t :: ts => ts.foldl Nat.min t

/-- commands/check.rs:466-470. -/
def unusedCount (all : List (Str × List Diagnostic)) : Nat :=
  ((all.flatMap (·.2)).filter (fun d => d.name = unusedFunctionName)).length

/-- commands/check.rs:472: are the `unused_function` diagnostics hidden? -/
def unusedHidden (args : CheckArgs) (items : List ResolvedItem) (all : List (Str × List Diagnostic)) : Bool :=
  !explicitlySelected args items && decide (thresholdIgnore items < unusedCount all)

/-- commands/check.rs:432-480 `hide_unused_function_if_needed`: the diagnostics kept. -/
def hideUnused (args : CheckArgs) (items : List ResolvedItem) (all : List (Str × List Diagnostic)) :
    List (Str × List Diagnostic) :=
  if unusedHidden args items all then
    (all.map (fun (p, ds) => (p, ds.filter (fun d => d.name ≠ unusedFunctionName)))).filter (fun (_, ds) => !ds.isEmpty)
  else all

/-- commands/check.rs:145-151: flattened and sorted (`sort` is stable). -/
def flatSorted (all : List (Str × List Diagnostic)) : List Diagnostic :=
  (all.flatMap (·.2)).mergeSort diagLe

/-! ## Statistics -/

/-- statistics.rs:21-27: count one diagnostic. The map is a list of entries with distinct keys. -/
def bump (hm : List (Str × Nat × Bool)) (d : Diagnostic) : List (Str × Nat × Bool) :=
  match hm with
  | [] => [(d.name, 1, d.hasSafeFix)]
  | (k, n, f) :: rest => if k = d.name then (k, n + 1, f || d.hasSafeFix) :: rest else (k, n, f) :: bump rest d

/-- statistics.rs:18-27: the map after all diagnostics. -/
def countRules (ds : List Diagnostic) : List (Str × Nat × Bool) := ds.foldl bump []

/-- statistics.rs:29-31: the lines, for the iteration order `entries` of the map: sorted by count (stable), reversed. -/
def statisticsLines (entries : List (Str × Nat × Bool)) : List (Str × Nat × Bool) :=
  (entries.mergeSort (fun a b => decide (a.2.1 ≤ b.2.1))).reverse

/-- statistics.rs:7-50: the exit status of `print_statistics`. -/
def statisticsStatus (ds : List Diagnostic) : ExitStatus := if ds.isEmpty then .success else .failure

/-! ## --add-jarl-ignore -/

/-- check.rs:296-300: group by file (BTreeMap keyed by the path string, in byte order). -/
def groupByFile (all : List (Str × List Diagnostic)) : List (Str × List Diagnostic) :=
  ((all.map (·.1)).eraseDups.mergeSort (fun a b => strCmp a b != .gt)).map
    (fun p => (p, (all.filter (fun x => x.1 = p)).flatMap (·.2)))

/-- check.rs:321-340: the edits of one file; `point` gives the insertion point of a diagnostic in a text. -/
def rawEdits (point : Str → Str → Diagnostic → Option InsertPoint) (path content : Str) (ds : List Diagnostic) :
    List RawEdit :=
  ds.filterMap (fun d => (point path content d).map (fun p => ⟨p, d.name⟩))

/-- check.rs:302-397: all files in turn. Files that cannot be read are skipped; a file without edits is not written;
`none`: panic. A failing write leaves `writeFails path`. -/
def addIgnores (point : Str → Str → Diagnostic → Option InsertPoint) (reason : Str) (writeFails : Str → Option (Option Str)) :
    List (Str × List Diagnostic) → Disk → Option Disk
  | [], d => some d
  | (p, ds) :: rest, d =>
    match d p with
    | none => addIgnores point reason writeFails rest d
    | some content =>
      let edits := rawEdits point p content ds
      if edits.isEmpty then addIgnores point reason writeFails rest d
      else match addIgnoreToFile content reason edits with
        | none => none
        | some text =>
          addIgnores point reason writeFails rest (d.set p (match writeFails p with | some left => left | none => some text))

/-- check.rs:271-422 `add_jarl_ignore_comments`: what it does to the files. -/
def addIgnoresToDisk (point : Str → Str → Diagnostic → Option InsertPoint) (reason : Str)
    (writeFails : Str → Option (Option Str)) (rs : FileResults) (d : Disk) : Option Disk :=
  if reason.any (fun c => c = '\n' || c = '\r') then some d
  else addIgnores point reason writeFails (groupByFile (allDiagnostics rs)) d

/-- What the command reports. -/
structure CliOut where
  /-- the status -/
  status : ExitStatus
  /-- printed errors -/
  errors : List (Str × CheckErr)
  /-- printed diagnostics, in order -/
  diagnostics : List Diagnostic

/-- check.rs:281-285: the reason contains no line break. -/
def reasonOk (reason : Str) : Bool := !(reason.any (fun c => c = '\n' || c = '\r'))

/-- check.rs:271-422 `add_jarl_ignore_comments`: `.error ()` is the error for a line break in the reason. -/
def addJarlIgnore (reason : Str) : Except Unit CliOut :=
  if reasonOk reason then .ok ⟨.success, [], []⟩ else .error ()

/-- commands/check.rs:113-268: from the results of all files (in the arbitrary order of the groups) to the report;
`.error ()` is an `Err`, which `main` turns into exit code 255 (main.rs:18-36). Without results (no file found) the
status is `Success` (check.rs:70-77). -/
def cliReport (args : CheckArgs) (items : List ResolvedItem) (rs : FileResults) : Except Unit CliOut :=
  let all := allDiagnostics rs
  match args.addJarlIgnore with
  | some reason => addJarlIgnore reason
  | none =>
    let kept := hideUnused args items all
    let flat := flatSorted kept
    if args.statistics then .ok ⟨statisticsStatus flat, [], []⟩
    else
      let status := if !(allErrors rs).isEmpty then .error else if kept.isEmpty then .success else .failure
      .ok ⟨status, allErrors rs, flat⟩

/-- main.rs:11-37: the exit code. -/
def exitCode : Except Unit CliOut → Nat
  | .ok o => o.status.code
  | .error _ => ExitStatus.error.code

end Jarl
