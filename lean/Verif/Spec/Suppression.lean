import Verif.Suppression
import Verif.Spec.Directive
/-!
# Specification: what suppression comments mean

Only the syntax tree (with attached comments), the comment grammar of `Spec.Directive` and byte ranges are used.
-/
namespace Jarl.Spec

/-- `n` is a node of the tree `root`; `first` says that `n` is reached from `root` through first children only,
`level` counts the braces entered on the way (not counting the root). -/
inductive Reach : SynNode → (first : Bool) → (level : Nat) → SynNode → Prop
  | root {n} : Reach n true 0 n
  | firstChild {t first level n c cs} : Reach t first level n → n.children = c :: cs →
      Reach t first (if c.braced then level + 1 else level) c
  | laterChild {t first level n d cs c} : Reach t first level n → n.children = d :: cs → c ∈ cs →
      Reach t false (if c.braced then level + 1 else level) c

/-- Something other than white space stands in front of the comment on its line. -/
def TrailsCode (source : Str) (c : Range) : Prop :=
  ∃ before line after, source = before ++ line ++ after ∧ blen (before ++ line) = c.start ∧
    (before = [] ∨ ∃ b, before = b ++ ['\n']) ∧ '\n' ∉ line ∧ ∃ x ∈ line, isWs x = false

/-- The comment is attached to `n` and is not at the end of a line of code. -/
def OwnLineComment (source : Str) (n : SynNode) (c : Comment) : Prop :=
  c ∈ n.leading ∨ (c ∈ n.trailing ∧ ¬ TrailsCode source c.range) ∨ c ∈ n.dangling

/-- A `# jarl-ignore <rule>: <reason>` comment on a node that contains the range. -/
def NodeSuppressed (root : SynNode) (source : Str) (r : Rule) (range : Range) : Prop :=
  ∃ n first level c, Reach root first level n ∧ OwnLineComment source n c ∧
    ValidComment c.text (.ignore r) ∧ n.range.start ≤ range.start ∧ range.stop ≤ n.range.stop

/-- A `# jarl-ignore-file <rule>: <reason>` comment in front of the first expression. -/
def FileSuppressed (root : SynNode) (r : Rule) : Prop :=
  ∃ n level c, Reach root true level n ∧ c ∈ n.leading ∧ ValidComment c.text (.ignoreFile r)

/-- A line that belongs to a `#| jarl-ignore-chunk:` array: an item that is not empty. -/
def IsItem (s : Str) : Prop := ∃ t, ItemText s t ∧ ((∃ r, Explained r t) ∨ Unexplained t ∨ Misnamed t)

/-- An item `#|   - <rule>: <reason>` below a `#| jarl-ignore-chunk:` header, with only items in between. -/
def ChunkSuppressed (root : SynNode) (r : Rule) : Prop :=
  ∃ n first level pre h items c post, Reach root first level n ∧
    n.leading = pre ++ h :: items ++ c :: post ∧
    (∃ w1 w2, Blank w1 ∧ Blank w2 ∧ h.text = w1 ++ cs! "#| jarl-ignore-chunk:" ++ w2) ∧
    (∀ i ∈ items, IsItem i.text) ∧ ValidItem c.text r

open Classical in
/-- The comments that are not at the end of a line of code. -/
noncomputable def notTrailing (source : Str) (cs : List Comment) : List Comment :=
  cs.filter (fun c => ¬ TrailsCode source c.range)

mutual
/-- All comments of a tree that are not at the end of a line of code, with their nesting level: those in front of a node,
behind it, inside it, then those of its children from left to right. -/
noncomputable def ownLineComments (source : Str) (level : Nat) : SynNode → List (Comment × Nat)
  | .mk _ _ leading trailing dangling children =>
    (leading ++ notTrailing source trailing ++ dangling).map (fun c => (c, level)) ++
    ownLineCommentsOf source level children
/-- The same for a list of children. -/
noncomputable def ownLineCommentsOf (source : Str) (level : Nat) : List SynNode → List (Comment × Nat)
  | [] => []
  | c :: cs => ownLineComments source (if c.braced then level + 1 else level) c ++ ownLineCommentsOf source level cs
end

open Classical in
/-- The start (`true`) and end (`false`) comments of a rule at a nesting level, in the order of the tree. -/
noncomputable def regionEvents (root : SynNode) (source : Str) (r : Rule) (level : Nat) : List (Bool × Range) :=
  (ownLineComments source 0 root).filterMap fun (c, l) =>
    if l = level ∧ ValidComment c.text (.ignoreStart r) then some (true, c.range)
    else if l = level ∧ ValidComment c.text (.ignoreEnd r) then some (false, c.range)
    else none

/-- A start comment immediately followed by an end comment, among those of the same rule and level. -/
def RegionPair (root : SynNode) (source : Str) (r : Rule) (a b : Range) : Prop :=
  ∃ level pre post, regionEvents root source r level = pre ++ (true, a) :: (false, b) :: post

/-- The range lies between the start and the end comment of a region. -/
def RegionSuppressed (root : SynNode) (source : Str) (r : Rule) (range : Range) : Prop :=
  ∃ a b, RegionPair root source r a b ∧ a.start ≤ range.start ∧ range.stop ≤ b.stop

/-- A diagnostic that some suppression comment covers. -/
def Hidden (root : SynNode) (source : Str) (d : Diagnostic) : Prop :=
  ∃ r : Rule, r.name = d.name ∧
    (FileSuppressed root r ∨ ChunkSuppressed root r ∨ RegionSuppressed root source r d.range ∨
      NodeSuppressed root source r d.range)

/-- A diagnostic that some suppression comment other than a `jarl-ignore-file` comment covers. -/
def HiddenLocal (root : SynNode) (source : Str) (d : Diagnostic) : Prop :=
  ∃ r : Rule, r.name = d.name ∧
    (ChunkSuppressed root r ∨ RegionSuppressed root source r d.range ∨ NodeSuppressed root source r d.range)

/-- Every comment of the tree is a piece of the source text. -/
def CommentsFromSource (root : SynNode) (source : Str) : Prop :=
  ∀ n first level c, Reach root first level n → (c ∈ n.leading ∨ c ∈ n.trailing ∨ c ∈ n.dangling) →
    ∃ a b, source = a ++ c.text ++ b

/-- A suppression in force: its comment, and which diagnostics it covers. -/
structure Suppression where
  comment : Range
  covers : Diagnostic → Bool

/-- The suppressions of a manager in the order they are consulted. -/
def suppressions (m : Manager) : List Suppression :=
  m.file.map (fun s => ⟨s.2, fun d => s.1.name = d.name⟩) ++
  m.chunk.map (fun s => ⟨s.2, fun d => s.1.name = d.name⟩) ++
  m.regions.map (fun s => ⟨s.comment, fun d => s.rule.name = d.name && s.range.contains d.range⟩) ++
  m.node.map (fun s => ⟨s.comment, fun d => s.rule.name = d.name && s.nodeRange.contains d.range⟩)

/-- `s` is the first suppression of `l` that covers `d`. -/
def FirstMatch (l : List Suppression) (d : Diagnostic) (s : Suppression) : Prop :=
  ∃ before after, l = before ++ s :: after ∧ s.covers d = true ∧ ∀ t ∈ before, t.covers d = false

end Jarl.Spec
