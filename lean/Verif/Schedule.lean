import Verif.LintFix
/-!
# Schedule: the threads of the pool, step by step (check.rs:43-113)

`LintFix.lean` gives the result of one file when its thread runs alone. Here every file is a small machine whose steps
(read and compute; write) interleave with those of the other files in any order. A run that is killed is a schedule that
stops early.
-/
namespace Jarl

/-- Where the thread of a file is: about to read in pass `n` (`s` is `has_skipped_fixes`), about to write, or finished. -/
inductive Pc
  | read (n : Nat) (s : Bool)
  | write (n : Nat) (s : Bool) (text : Str)
  | done (res : Except CheckErr (List Diagnostic))

/-- A file and its thread. -/
structure FileSt where
  disk : Option Str
  pc : Pc

/-- One step of the thread of `path`: check.rs:95-102 (read, compute the checks and the fixed text), or check.rs:107
(write). `lint_only` is the case `s = false`: it reads once and returns. -/
def stepFile (L : Lints) (pkg : PackageAnalysis) (cfg : Config) (path : Str) (io : Io) (st : FileSt) : FileSt :=
  match st.pc with
  | .done _ => st
  | .read n s =>
    match io.read n st.disk with
    | none => ⟨st.disk, .done (.error .read)⟩
    | some contents =>
      match getChecks L pkg cfg path contents with
      | .error e => ⟨st.disk, .done (.error e)⟩
      | .ok checks =>
        if !s then ⟨st.disk, .done (.ok checks)⟩
        else match applyFixes (checks.map (·.fix)) contents with
          | none => ⟨st.disk, .done (.error .panic)⟩
          | some (s', text) => ⟨st.disk, .write n s' text⟩
  | .write n s text =>
    match io.writeFails n with
    | some left => ⟨left, .done (.error .write)⟩
    | none => ⟨some text, .read (n + 1) s⟩

/-- check.rs:53-63, 80-93: where the thread of a file starts. -/
def startFile (cfg : Config) (path : Str) (disk : Option Str) : FileSt :=
  ⟨disk, .read 0 ((cfg.applyFixes || cfg.applyUnsafeFixes) && !hasRmdExtension path)⟩

/-- All files and their threads. Files that are not checked have no thread; the schedule never names them. -/
abbrev World := Str → FileSt

/-- The world before the pool starts. -/
def startWorld (cfg : Config) (d : Disk) : World := fun p => startFile cfg p (d p)

/-- The thread of `p` makes one step. -/
def stepWorld (L : Lints) (pkg : PackageAnalysis) (cfg : Config) (io : Str → Io) (w : World) (p : Str) : World :=
  fun q => if q = p then stepFile L pkg cfg p (io p) (w p) else w q

/-- A schedule: which thread makes the next step. -/
def runSchedule (L : Lints) (pkg : PackageAnalysis) (cfg : Config) (io : Str → Io) (σ : List Str) (w : World) : World :=
  σ.foldl (stepWorld L pkg cfg io) w

/-- The file's thread has finished. -/
def FileSt.isDone (s : FileSt) : Prop := ∃ res, s.pc = .done res

end Jarl
