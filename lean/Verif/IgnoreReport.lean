import Verif.Cli
/-!
# IgnoreReport: what `--add-jarl-ignore` prints (crates/jarl/src/commands/check.rs:271-422)

`Cli` has what it does to the files. Not modelled: colours and the texts of errors of the operating system.
-/
namespace Jarl

/-- The lines that are printed. -/
inductive IgnoreLine
  /-- check.rs:284-289: "Info: No violations found, no suppression comments added." -/
  | noViolations
  /-- check.rs:386-391: "Modified: Added {n} suppression comment(s) to {path}" -/
  | added (n : Nat) (path : Str)
  /-- check.rs:309-316, on standard error: "Error: Could not read {path}: {e}" -/
  | cannotRead (path : Str)
  /-- check.rs:394-399, on standard error: "Error: Could not write {path}: {e}" -/
  | cannotWrite (path : Str)
  /-- check.rs:406-411: "Summary: Added {n} suppression comment(s) across {files} file(s)." -/
  | summary (n files : Nat)
  /-- check.rs:416: "Used '{config}'" -/
  | used (config : Str)
deriving DecidableEq, Repr

/-- The state of the loop over the files: the files, the lines printed, `total_suppressions`, `files_modified`. -/
structure IgnoreSt where
  disk : Disk
  lines : List IgnoreLine
  total : Nat
  files : Nat

/-- check.rs:376-380: `num_suppressions`, one per rule and place. -/
def numSuppressions (edits : List RawEdit) : Nat := ((mergeEdits edits).map (·.rules.length)).sum

/-- check.rs:302-401: one file. `none`: panic. `writeFails p = some c`: writing fails and leaves the file `c`. -/
def ignoreFile (point : Str → Str → Diagnostic → Option InsertPoint) (reason : Str) (writeFails : Str → Option (Option Str))
    (p : Str) (ds : List Diagnostic) (st : IgnoreSt) : Option IgnoreSt :=
  match st.disk p with
  | none => some { st with lines := st.lines ++ [.cannotRead p] }
  | some content =>
    let edits := rawEdits point p content ds
    if edits.isEmpty then some st
    else match addIgnoreToFile content reason edits with
      | none => none
      | some text =>
        match writeFails p with
        | none => some ⟨st.disk.set p (some text), st.lines ++ [.added (numSuppressions edits) p], st.total + numSuppressions edits, st.files + 1⟩
        | some left => some { st with disk := st.disk.set p left, lines := st.lines ++ [.cannotWrite p] }

/-- check.rs:302-401: all files. -/
def ignoreFiles (point : Str → Str → Diagnostic → Option InsertPoint) (reason : Str) (writeFails : Str → Option (Option Str)) :
    List (Str × List Diagnostic) → IgnoreSt → Option IgnoreSt
  | [], st => some st
  | (p, ds) :: rest, st => match ignoreFile point reason writeFails p ds st with
    | none => none
    | some st => ignoreFiles point reason writeFails rest st

/-- check.rs:403-417: the end. -/
def ignoreEnd (config : Option Str) (st : IgnoreSt) : List IgnoreLine :=
  st.lines ++ (if st.total > 0 then [.summary st.total st.files] else []) ++ config.toList.map .used

/-- check.rs:271-422 `add_jarl_ignore_comments`, with check.rs:116-136. `none`: panic; `.error ()`: the error for a line break in the reason; otherwise the files afterwards and the lines printed (the
status is always `Success`). `config`: the configuration file in a directory above, if there is one. -/
def ignoreRun (point : Str → Str → Diagnostic → Option InsertPoint) (reason : Str) (writeFails : Str → Option (Option Str)) (config : Option Str)
    (rs : FileResults) (d : Disk) : Option (Except Unit (Disk × List IgnoreLine)) :=
  if !reasonOk reason then some (.error ())
  else if (allDiagnostics rs).isEmpty then some (.ok (d, [.noViolations]))
  else match ignoreFiles point reason writeFails (groupByFile (allDiagnostics rs)) ⟨d, [], 0, 0⟩ with
    | none => none
    | some st => some (.ok (st.disk, ignoreEnd config st))

end Jarl
