import Verif.Check
import Verif.Spec.Suppression
/-!
# Specification for the per-file checks (C07, C15, C16)
-/
namespace Jarl.Spec

/-- A diagnostic that must not carry a fix: its rule is `unfixable`, is missing from a given `fixable` list, is a rule
without fix, or the rule itself refused the fix (comments in the node). -/
def FixDenied (cfg : Config) (d : Diagnostic) : Prop :=
  d.name ∈ cfg.unfixable ∨ (∃ l, cfg.fixable = some l ∧ d.name ∉ l) ∨
  (∃ r ∈ cfg.rulesToApply, r.name = d.name ∧ r.fixStatus = .none) ∨ d.fix.toSkip = true

/-- Two configurations that differ at most in `fixable` and `unfixable`. -/
def SameButFixable (a b : Config) : Prop :=
  ∃ fixable unfixable, b = { a with fixable := fixable, unfixable := unfixable }

/-- What a diagnostic says, without its fix. -/
def message (d : Diagnostic) : Str × Str × Option Str × Str × Range × Option (Nat × Nat) :=
  (d.name, d.body, d.suggestion, d.filename, d.range, d.location)

/-- `d` is the report in the document of `d0`, a report about a chunk that starts at byte `offset`. -/
structure ReportOf (file : Str) (offset : Nat) (d0 d : Diagnostic) : Prop where
  name : d.name = d0.name
  body : d.body = d0.body
  suggestion : d.suggestion = d0.suggestion
  filename : d.filename = file
  start : d.range.start = d0.range.start + offset
  stop : d.range.stop = d0.range.stop + offset
  noFix : d.fix = Fix.empty

/-- The chunk at index `k` of the document is `c`, it parses to `p` with the suppressions `m`, and `raw` are all
diagnostics found in it, before any is hidden. -/
def ChunkFinds (L : Lints) (cfg : Config) (contents : Str) (k : Nat) (c : RChunk) (p : Parsed) (m : Manager)
    (raw : List Diagnostic) : Prop :=
  (extractRChunks contents)[k]? = some c ∧ L.parse c.code = some p ∧ fromNode p.root c.code = some m ∧
  ∃ exprs unreach, L.expressions cfg.lintInput c.code = .ok exprs ∧
    (Rule.unreachableCode ∈ cfg.rulesToApply → L.unreachable cfg.lintInput c.code = .ok unreach) ∧
    (Rule.unreachableCode ∉ cfg.rulesToApply → unreach = []) ∧
    raw = rawDiagnostics cfg.rulesToApply (demoteFile k m) exprs unreach [] []

/-- Every comment of a tree is the text at its range. -/
def CommentsExact (root : SynNode) (source : Str) : Prop :=
  ∀ n first level c, Reach root first level n → (c ∈ n.leading ∨ c ∈ n.trailing ∨ c ∈ n.dangling) →
    slice c.range.start c.range.stop source = some c.text

/-- The last component of the path is a non-empty stem, a dot and the extension `e`. -/
def FileExt (path e : Str) : Prop :=
  ∃ dir stem, path = dir ++ stem ++ '.' :: e ∧ (dir = [] ∨ ∃ d, dir = d ++ ['/']) ∧ stem ≠ [] ∧ '/' ∉ stem ∧
    '/' ∉ e ∧ '.' ∉ e

/-- R Markdown and Quarto documents. -/
def IsDocument (path : Str) : Prop := ∃ e ∈ [cs! "Rmd", cs! "rmd", cs! "Qmd", cs! "qmd"], FileExt path e

/-- R files. -/
def IsRFile (path : Str) : Prop := ∃ e ∈ [cs! "R", cs! "r"], FileExt path e

end Jarl.Spec
