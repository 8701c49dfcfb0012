import Verif.Run
/-!
# RunFix: the whole command `jarl check --fix` (jarl commands/check.rs:32-268, jarl-core check.rs:24-113, vcs.rs:19-106)

`Run` is the command without fixing; here the files may change. The groups of files (one per configuration file) are treated one after the other, in the
order of a hash map; the files of a group by many threads (`Schedule`: with one thread per file the schedule does not matter, so here each file goes from its text
before the group to its text after it). Not modelled: two threads for the same file (when it is named twice).
-/
namespace Jarl

/-- What git says, when the files have these texts. -/
abbrev GitOn := (DPath → Option Str) → Vcs

/-- check.rs:43-63: one file of a group: its text afterwards, and the result (`none`: not finished after `fuel` passes). -/
def fixFile (w : FileWorld) (s : JarlSettings) (cfg : Config) (o : PkgOrder) (paths : List DPath) (io : DPath → Io) (fuel : Nat) (p : DPath) :
    Option Str × Option (Except CheckErr (List Diagnostic)) :=
  checkPath (w.lints s) (analysisOf w s cfg o paths p) cfg (relText w.cwd p) (io p) fuel (w.text p)

/-- All results, if all have finished. -/
def allDone : List (Str × Option (Except CheckErr (List Diagnostic))) → Option FileResults
  | [] => some []
  | (n, r) :: l => match r, allDone l with
    | some r, some rs => some ((n, r) :: rs)
    | _, _ => none

/-- check.rs:24-51 `check` for one group: the packages are analysed, then git is asked, then the files are treated. -/
def fixGroup (w : FileWorld) (git : GitOn) (s : JarlSettings) (cfg : Config) (o : PkgOrder) (io : DPath → Io) (fuel : Nat) (paths : List DPath) :
    (DPath → Option Str) × Option FileResults :=
  match paths with
  | [] => (w.text, some [])
  | first :: _ =>
    if (cfg.applyFixes || cfg.applyUnsafeFixes) && !checkVersionControl (git w.text) cfg (paths.map (relText w.cwd)) then
      (w.text, some [(relText w.cwd first, .error .vcs)])
    else
      (fun p => if p ∈ paths then (fixFile w s cfg o paths io fuel p).1 else w.text p,
       allDone (paths.map (fun p => (relText w.cwd p, (fixFile w s cfg o paths io fuel p).2))))

/-- commands/check.rs:105-114: all groups, each in the world that the one before it left; the first error of `build_config` ends the command. -/
def fixGroups (w : FileWorld) (git : GitOn) (a : RunArgs) (items : List (DPath × JarlSettings)) (o : RunOrder) (io : DPath → Io) (fuel : Nat) :
    List (Option DPath × List DPath) → (DPath → Option Str) → (DPath → Option Str) × Option (Except Fail FileResults)
  | [], t => (t, some (.ok []))
  | g :: gs, t =>
    match configOf { w with text := t } a.config (groupSettings items g.1) g.2 with
    | .error e => (t, some (.error e))
    | .ok cfg =>
      match fixGroup { w with text := t } git ((groupSettings items g.1).getD defaultSettings) cfg (o.pkg g.1) io fuel g.2 with
      | (t', none) => (t', none)
      | (t', some rs) =>
        match fixGroups w git a items o io fuel gs t' with
        | (t'', none) => (t'', none)
        | (t'', some (.error e)) => (t'', some (.error e))
        | (t'', some (.ok rest)) => (t'', some (.ok (rs ++ rest)))

/-- commands/check.rs:32-268 `check`, with fixing: the texts afterwards, and what is printed (`none`: a file needs more than `fuel` passes). With
`--add-jarl-ignore` the files change again afterwards (see `Cli`). -/
def runFix (w : FileWorld) (git : GitOn) (a : RunArgs) (o : RunOrder) (io : DPath → Io) (fuel : Nat) :
    (DPath → Option Str) × Option (Except Unit CliOut) :=
  match discoverSettings w.configFs a.paths with
  | none => (w.text, some (.error ()))
  | some items =>
    if o.files.isEmpty then (w.text, some (.ok ⟨.success, [], []⟩))
    else match fixGroups w git a items o io fuel o.groups w.text with
      | (t, none) => (t, none)
      | (t, some (.error _)) => (t, some (.error ()))
      | (t, some (.ok rs)) => (t, some (cliReport a.checkArgs (resolvedItems items) rs))

end Jarl
