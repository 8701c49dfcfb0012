import Verif.Spec.RTogether
import Verif.RVisit
/-!
# Specification: comments

A gap between two tokens has up to two marks: a comment behind the token in front of it, and comments on lines of their own. Simplification: the text of the comments is not in the model.
-/
namespace Jarl.Spec
open Jarl

/-- Where a comment is: behind code on the same line, or on a line of its own. -/
inductive CommentKind
  | behind | ownLine
deriving DecidableEq, Repr

/-- The comments of a gap. -/
def gapComments (g : Gap) : List CommentKind :=
  (if g.trail then [.behind] else []) ++ (if g.own then [.ownLine] else [])

/-- The comments of a text, in order. -/
def comments : List Tok → List CommentKind
  | [] => []
  | t :: ts => gapComments t.gap ++ comments ts

/-- There is a comment on a line of its own directly in front of the replaced code. -/
def commentAbove (ed : Edit) : Bool := (headGap (toks ed.z.e)).own

/-- There is a comment directly behind the replaced code, on the same line. -/
def commentBehind (ed : Edit) : Bool := (headGap (afterToks ed.z.fs)).trail

/-- There is a comment inside the replaced code: between two of its tokens. -/
def commentInside (ed : Edit) : Prop := comments (toks ed.z.e).tail ≠ []

/-- The fix keeps the comments: all are there afterwards, in the same order, and those in front of the code, and those behind it, stay on their side. -/
def KeepsComments (ed : Edit) : Prop :=
  comments (joinHead (headGap (toks ed.z.e)) ed.content) = comments (toks ed.z.e) ∧ comments (edited ed) = comments (toks ed.z.prog)

/-- The code that looks for comments works for this fix: not the rule `assignment` (it never looks), not `all_equal` where the code begins with `!` (it looks only behind the `!`), and
no comment directly above or behind the code (jarl then thinks that those are the only ones). -/
def Guarded (name : Str) (ed : Edit) : Prop :=
  name ≠ cs! "assignment" ∧ (name = cs! "all_equal" → asUn ed.z.e = none) ∧ commentAbove ed = false ∧ commentBehind ed = false

/-- One pass with `--fix`: some fixes that are not skipped are carried out at once, each guarded, or of code without a comment inside. -/
def CommentPass (want : Op) (ts out : List Tok) : Prop :=
  ∃ (p : Node) (eds : List Edit), Parses ts p ∧
    (∀ ed ∈ eds, ed.skip = false ∧ ∃ r ∈ fixRules want, ∃ z, z.prog = p ∧ r.2 z = some ed ∧ (Guarded r.1 ed ∨ ¬ commentInside ed)) ∧
    Patched 0 ts (eds.map cutOf) out

/-- Any number of passes, each with the text that the one before it left. -/
inductive CommentPasses (want : Op) : List Tok → List Tok → Prop
  | none (ts) : CommentPasses want ts ts
  | more {a b c} : CommentPasses want a b → CommentPass want b c → CommentPasses want a c

end Jarl.Spec
