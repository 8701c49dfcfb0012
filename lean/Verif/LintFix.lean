import Verif.Check
/-!
# LintFix: reading, fixing and writing files (check.rs:24-113, vcs.rs)
-/
namespace Jarl

/-- A file system as far as jarl sees it: the text of a path, `none` if it cannot be read as UTF-8 text. -/
abbrev Disk := Str → Option Str

/-- The disk after one path changed. -/
def Disk.set (d : Disk) (p : Str) (c : Option Str) : Disk := fun q => if q = p then c else d q

/-- Faults of the operating system, per pass of the loop: whether reading succeeds, and what a failing write leaves behind
(`none`: the write succeeds; `some c`: it fails and the file then is `c`, e.g. truncated). -/
structure Io where
  readOk : Nat → Bool
  writeFails : Nat → Option (Option Str)

/-- No faults. -/
def Io.good : Io := ⟨fun _ => true, fun _ => none⟩

/-- `fs::read_to_string` at pass `n`. -/
def Io.read (io : Io) (n : Nat) (d : Option Str) : Option Str := if io.readOk n then d else none

/-- check.rs:65-78 `lint_only`. -/
def lintOnly (L : Lints) (pkg : PackageAnalysis) (cfg : Config) (path : Str) (io : Io) (d : Option Str) :
    Except CheckErr (List Diagnostic) :=
  match io.read 0 d with
  | none => .error .read
  | some contents => getChecks L pkg cfg path contents

/-- check.rs:95-110: the loop of `lint_fix` at pass `n`; `skipped` is `has_skipped_fixes`. The result is the file at the
end and what `lint_fix` returns; `none` means that `fuel` passes were not enough. -/
def lintFixLoop (L : Lints) (pkg : PackageAnalysis) (cfg : Config) (path : Str) (io : Io) :
    (fuel n : Nat) → (skipped : Bool) → Option Str → Option Str × Option (Except CheckErr (List Diagnostic))
  | 0, _, _, d => (d, none)
  | fuel + 1, n, skipped, d =>
    match io.read n d with
    | none => (d, some (.error .read))
    | some contents =>
      match getChecks L pkg cfg path contents with
      | .error e => (d, some (.error e))
      | .ok checks =>
        if !skipped then (d, some (.ok checks))
        else match applyFixes (checks.map (·.fix)) contents with
          | none => (d, some (.error .panic))
          | some (skipped', text) =>
            match io.writeFails n with
            | some left => (left, some (.error .write))
            | none => lintFixLoop L pkg cfg path io fuel (n + 1) skipped' (some text)

/-- check.rs:80-113 `lint_fix`. -/
def lintFix (L : Lints) (pkg : PackageAnalysis) (cfg : Config) (path : Str) (io : Io) (fuel : Nat) (d : Option Str) :
    Option Str × Option (Except CheckErr (List Diagnostic)) :=
  if hasRmdExtension path then (d, some (lintOnly L pkg cfg path io d))
  else lintFixLoop L pkg cfg path io fuel 0 true d

/-- check.rs:53-63 `check_path`. -/
def checkPath (L : Lints) (pkg : PackageAnalysis) (cfg : Config) (path : Str) (io : Io) (fuel : Nat) (d : Option Str) :
    Option Str × Option (Except CheckErr (List Diagnostic)) :=
  if cfg.applyFixes || cfg.applyUnsafeFixes then lintFix L pkg cfg path io fuel d
  else (d, some (lintOnly L pkg cfg path io d))

/-- What git says: the repository of a path, and the status entries of a repository (`none`: git error): the path of the
entry if it is UTF-8, and whether the entry is unchanged (`Status::CURRENT`). -/
structure Vcs where
  repo : Str → Option Str
  status : Str → Option (List (Option Str × Bool))

/-- vcs.rs:19-106 `check_version_control` returns `Ok`. -/
def checkVersionControl (v : Vcs) (cfg : Config) (paths : List Str) : Bool :=
  if cfg.allowNoVcs then true
  else if paths.any (fun p => (v.repo p).isNone) then false
  else if cfg.allowDirty then true
  else
    let repos := paths.filterMap v.repo
    if repos.any (fun r => (v.status r).isNone) then false
    else
      let dirty := repos.flatMap (fun r => ((v.status r).getD []).filter (fun e => e.1.isSome && !e.2))
      dirty.isEmpty

/-- check.rs:43-50: all paths, in the order `order` in which the threads of the pool happen to treat them (each file is
read and written by the thread that treats it only). Returns the disk and the result of each path. -/
def checkPaths (L : Lints) (pkg : PackageAnalysis) (cfg : Config) (io : Str → Io) (fuel : Nat) :
    List Str → Disk → Disk × List (Str × Option (Except CheckErr (List Diagnostic)))
  | [], d => (d, [])
  | p :: ps, d =>
    let (f, res) := checkPath L pkg cfg p (io p) fuel (d p)
    let (d', rest) := checkPaths L pkg cfg io fuel ps (d.set p f)
    (d', (p, res) :: rest)

/-- check.rs:24-51 `check`, for already relativized paths. `analysis` is `compute_package_analysis` (package.rs:65-229),
which reads the disk before anything is fixed. -/
def check (L : Lints) (analysis : Disk → PackageAnalysis) (v : Vcs) (cfg : Config) (io : Str → Io) (fuel : Nat)
    (paths : List Str) (d : Disk) : Disk × List (Str × Option (Except CheckErr (List Diagnostic))) :=
  let pkg := analysis d
  match paths with
  | first :: _ =>
    if (cfg.applyFixes || cfg.applyUnsafeFixes) && !checkVersionControl v cfg paths then
      (d, [(first, some (.error .vcs))])
    else checkPaths L pkg cfg io fuel paths d
  | [] => checkPaths L pkg cfg io fuel paths d

end Jarl
