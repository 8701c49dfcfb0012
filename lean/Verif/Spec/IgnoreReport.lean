import Verif.IgnoreReport
import Verif.Spec.Cli
/-!
# Specification: what `--add-jarl-ignore` prints
-/
namespace Jarl.Spec

/-- `n` is the number of comments for these edits: one for each place and rule. -/
def CommentCount (edits : List RawEdit) (n : Nat) : Prop :=
  ∃ l : List (Nat × Str), l.Nodup ∧ l.length = n ∧ ∀ o r, (o, r) ∈ l ↔ ∃ e ∈ edits, e.point.offset = o ∧ e.rule = r

/-- The file that a line is about. -/
def lineFile : IgnoreLine → Option Str
  | .added _ p => some p
  | .cannotRead p => some p
  | .cannotWrite p => some p
  | _ => none

/-- How many comments a line says were added to a file. -/
def addedIn : IgnoreLine → Option Nat
  | .added n _ => some n
  | _ => none

/-- The file `p` has reports `ds`. -/
def HasReports (rs : FileResults) (p : Str) (ds : List Diagnostic) : Prop := (p, Except.ok ds) ∈ rs ∧ ds ≠ []

end Jarl.Spec
