import Verif.Spec.Suppression
/-!
# Specification: suppression comments that do nothing, and the rule that reports them (C35)
-/
namespace Jarl.Spec

/-- The text is recognised as a suppression comment, usable or not. -/
def Directive (s : Str) : Prop :=
  (∃ d, ValidComment s d) ∨ BlanketComment s ∨ UnexplainedComment s ∨ MisnamedComment s

/-- The header of an array of chunk suppressions. -/
def HeaderText (s : Str) : Prop := ∃ w1 w2, Blank w1 ∧ Blank w2 ∧ s = w1 ++ cs! "#| jarl-ignore-chunk:" ++ w2

/-- `c` is a line of an array of chunk suppressions in front of `n`. -/
def ArrayLine (n : SynNode) (c : Comment) : Prop :=
  ∃ pre h items post, n.leading = pre ++ h :: items ++ c :: post ∧ HeaderText h.text ∧ ∀ i ∈ items, IsItem i.text

/-- The comment is behind or inside `n`, but not at the end of a line of code. -/
def BehindOrInside (source : Str) (n : SynNode) (c : Comment) : Prop :=
  (c ∈ n.trailing ∧ ¬ TrailsCode source c.range) ∨ c ∈ n.dangling

/-- `BadComment root source r c`: the comment at `c` looks like a suppression but has no effect, and rule `r` says so. -/
inductive BadComment (root : SynNode) (source : Str) : Rule → Range → Prop
  /-- at the end of a line of code -/
  | trailing {n f l c} : Reach root f l n → c ∈ n.trailing → TrailsCode source c.range → Directive c.text →
      BadComment root source .misplacedSuppression c.range
  /-- no rule, in front of a node -/
  | blanket {n f l c} : Reach root f l n → c ∈ n.leading → BlanketComment c.text → ¬ HeaderText c.text →
      BadComment root source .blanketSuppression c.range
  /-- no rule, elsewhere -/
  | blanketElsewhere {n f l c} : Reach root f l n → BehindOrInside source n c → BlanketComment c.text →
      BadComment root source .blanketSuppression c.range
  /-- an array header that no item follows -/
  | emptyHeader {n f l pre c post} : Reach root f l n → n.leading = pre ++ c :: post → HeaderText c.text →
      (∀ i rest, post = i :: rest → ¬ IsItem i.text) → BadComment root source .blanketSuppression c.range
  /-- no explanation -/
  | unexplained {n f l c} : Reach root f l n → OwnLineComment source n c → UnexplainedComment c.text →
      BadComment root source .unexplainedSuppression c.range
  /-- an array item without explanation -/
  | unexplainedItem {n f l c t} : Reach root f l n → ArrayLine n c → ItemText c.text t → Unexplained t →
      BadComment root source .unexplainedSuppression c.range
  /-- no such rule -/
  | misnamed {n f l c} : Reach root f l n → OwnLineComment source n c → MisnamedComment c.text →
      BadComment root source .misnamedSuppression c.range
  /-- an array item with no such rule -/
  | misnamedItem {n f l c t} : Reach root f l n → ArrayLine n c → ItemText c.text t → Misnamed t →
      BadComment root source .misnamedSuppression c.range
  /-- a chunk suppression that is not in the array form -/
  | invalidChunk {n f l c r} : Reach root f l n → OwnLineComment source n c → ValidComment c.text (.ignoreChunk r) →
      BadComment root source .invalidChunkSuppression c.range
  /-- a file suppression that is not in front of the first expression -/
  | misplacedFile {n f l c r} : Reach root f l n → (f = false ∧ c ∈ n.leading ∨ BehindOrInside source n c) →
      ValidComment c.text (.ignoreFile r) → BadComment root source .misplacedFileSuppression c.range
  /-- a start comment with no later start or end comment of its rule and level -/
  | unmatchedStart {r level pre c} : regionEvents root source r level = pre ++ [(true, c)] →
      BadComment root source .unmatchedRangeSuppression c
  /-- an end comment that does not follow a start comment of its rule and level -/
  | unmatchedEnd {r level pre c post} : regionEvents root source r level = pre ++ (false, c) :: post →
      (¬ ∃ q a, pre = q ++ [(true, a)]) → BadComment root source .unmatchedRangeSuppression c

/-- The rules that report such comments. -/
def commentRules : List Rule :=
  [.blanketSuppression, .invalidChunkSuppression, .unexplainedSuppression, .misplacedFileSuppression,
   .misplacedSuppression, .misnamedSuppression, .unmatchedRangeSuppression]

end Jarl.Spec
