import Verif.Directive
/-!
# Specification of the suppression comment grammar (no parsing functions used)
-/
namespace Jarl.Spec

/-- Only whitespace. -/
def Blank (w : Str) : Prop := ∀ c ∈ w, isWs c = true

/-- `# ` or `#`: the markers of ordinary comments. -/
def PlainMarker (m : Str) : Prop := m = cs! "#" ∨ m = cs! "# "

/-- Ordinary markers and the Quarto option marker `#| `. -/
def AnyMarker (m : Str) : Prop := PlainMarker m ∨ m = cs! "#| "

/-- `<rule>: <reason>` with spaces allowed anywhere around the rule and a reason that is not blank. -/
def Explained (r : Rule) (t : Str) : Prop :=
  ∃ w1 w2 e, Blank w1 ∧ Blank w2 ∧ ¬ Blank e ∧ t = w1 ++ r.name ++ w2 ++ ':' :: e

/-- `<rule>`, optionally followed by a colon and anything. -/
def Named (r : Rule) (t : Str) : Prop :=
  ∃ w1 w2 e, Blank w1 ∧ Blank w2 ∧ t = w1 ++ r.name ++ w2 ++ e ∧ (e = [] ∨ ∃ e', e = ':' :: e')

/-- A known rule without a reason: no colon, or only blanks after it. -/
def Unexplained (t : Str) : Prop :=
  ∃ (r : Rule) (w1 w2 e : Str), Blank w1 ∧ Blank w2 ∧ t = w1 ++ r.name ++ w2 ++ e ∧
    (e = [] ∨ ∃ e', Blank e' ∧ e = ':' :: e')

/-- The text up to the first colon (or the end) is not blank and is not a rule name. -/
def Misnamed (t : Str) : Prop :=
  ∃ n e : Str, t = n ++ e ∧ ':' ∉ n ∧ (e = [] ∨ ∃ e', e = ':' :: e') ∧ ¬ Blank n ∧
    ∀ (r : Rule) (w1 w2 : Str), Blank w1 → Blank w2 → n ≠ w1 ++ r.name ++ w2

/-- The documented form of a suppression comment (any indentation). -/
inductive ValidComment : Str → LintDirective → Prop
  | ignore {w m t r} : Blank w → PlainMarker m → Explained r t →
      ValidComment (w ++ m ++ cs! "jarl-ignore " ++ t) (.ignore r)
  | file {w m t r} : Blank w → PlainMarker m → Explained r t →
      ValidComment (w ++ m ++ cs! "jarl-ignore-file " ++ t) (.ignoreFile r)
  | start {w m t r} : Blank w → PlainMarker m → Explained r t →
      ValidComment (w ++ m ++ cs! "jarl-ignore-start " ++ t) (.ignoreStart r)
  | stop {w m t r} : Blank w → PlainMarker m → Named r t →
      ValidComment (w ++ m ++ cs! "jarl-ignore-end " ++ t) (.ignoreEnd r)
  | chunk {w m t r} : Blank w → AnyMarker m → Explained r t →
      ValidComment (w ++ m ++ cs! "jarl-ignore-chunk " ++ t) (.ignoreChunk r)

/-- The four directive words that need a reason, for a given marker. -/
inductive NeedsReason : Str → Str → Prop
  | ignore {m} : PlainMarker m → NeedsReason m (cs! "jarl-ignore ")
  | file {m} : PlainMarker m → NeedsReason m (cs! "jarl-ignore-file ")
  | start {m} : PlainMarker m → NeedsReason m (cs! "jarl-ignore-start ")
  | chunk {m} : AnyMarker m → NeedsReason m (cs! "jarl-ignore-chunk ")

/-- A directive whose reason is missing. -/
def UnexplainedComment (s : Str) : Prop :=
  ∃ w m k t, Blank w ∧ NeedsReason m k ∧ Unexplained t ∧ s = w ++ m ++ k ++ t

/-- A directive whose rule does not exist. -/
def MisnamedComment (s : Str) : Prop :=
  ∃ w m k t, Blank w ∧ (NeedsReason m k ∨ PlainMarker m ∧ k = cs! "jarl-ignore-end ") ∧ Misnamed t ∧
    s = w ++ m ++ k ++ t

/-- A directive that names no rule at all. -/
def BlanketComment (s : Str) : Prop :=
  ∃ w m k, Blank w ∧ (PlainMarker m ∧ k = cs! "jarl-ignore" ∨ AnyMarker m ∧ k = cs! "jarl-ignore-chunk") ∧
    (s = w ++ m ++ k ∨ ∃ t, s = w ++ m ++ k ++ cs! ":" ++ t ∨ s = w ++ m ++ k ++ cs! " :" ++ t)

/-- `#|`, a dash, white space and `t`: an item of a `#| jarl-ignore-chunk:` array. -/
def ItemText (s t : Str) : Prop :=
  ∃ w w1 c, Blank w ∧ Blank w1 ∧ isWs c = true ∧ s = w ++ cs! "#|" ++ w1 ++ '-' :: c :: t

/-- An item of the Quarto array form of `jarl-ignore-chunk`: `#|  - <rule>: <reason>`. -/
def ValidItem (s : Str) (r : Rule) : Prop :=
  ∃ w w1 w2 t, Blank w ∧ Blank w1 ∧ Blank w2 ∧ w2 ≠ [] ∧ Explained r t ∧
    s = w ++ cs! "#|" ++ w1 ++ cs! "-" ++ w2 ++ t

end Jarl.Spec
