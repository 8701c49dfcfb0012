import Verif.Cli
/-!
# Specification for the report of a run (C27-C30)
-/
namespace Jarl.Spec

/-- `a` is before `b` in the order of code points. -/
def StrLt (a b : Str) : Prop := List.Lex (fun x y : Char => x.toNat < y.toNat) a b

/-- The path `a` is before `b`: directory by directory. -/
def PathLt (a b : Str) : Prop := List.Lex StrLt (splitOn '/' a) (splitOn '/' b)

/-- `a` may be reported before `b`: its file is before that of `b`, or it is in the same file and does not start later,
and does not end later if both start together. -/
def NotAfter (a b : Diagnostic) : Prop :=
  PathLt a.filename b.filename ∨
  (a.filename = b.filename ∧ (a.range.start < b.range.start ∨ (a.range.start = b.range.start ∧ a.range.stop ≤ b.range.stop)))

/-- The run could not treat this file. -/
def Failed (r : Str × Except CheckErr (List Diagnostic)) : Prop := ∃ e, r.2 = .error e

/-- `d` was found in some file. -/
def Found (rs : FileResults) (d : Diagnostic) : Prop := ∃ p ds, (p, Except.ok ds) ∈ rs ∧ d ∈ ds

/-- All diagnostics of a run, file by file. -/
def found (rs : FileResults) : List Diagnostic :=
  rs.flatMap (fun r => match r.2 with | .ok ds => ds | .error _ => [])

/-- How many diagnostics of a list belong to a rule. -/
def countOf (name : Str) (ds : List Diagnostic) : Nat := (ds.filter (fun d => d.name = name)).length

/-- The rule is named on its own in a list of rules on the command line or in a jarl.toml. -/
def NamedExplicitly (args : CheckArgs) (items : List ResolvedItem) : Prop :=
  (∃ s, (s ∈ splitOn ',' args.select ∨ s ∈ splitOn ',' args.extendSelect) ∧ trim s = cs! "unused_function") ∨
  (∃ i ∈ items, ∃ l, (i.linter.select = some l ∨ i.linter.extendSelect = some l) ∧ cs! "unused_function" ∈ l)

/-- `t` is the threshold in force: the smallest one of all jarl.toml files, 50 if there is none. -/
def Threshold (items : List ResolvedItem) (t : Nat) : Prop :=
  (items = [] ∧ t = 50) ∨ ((∃ i ∈ items, i.threshold = t) ∧ ∀ i ∈ items, t ≤ i.threshold)

end Jarl.Spec
