import Verif.Text
import Verif.Rules
/-!
# SuppressionEdit: writing suppression comments
(crates/jarl-core/src/suppression_edit.rs, crates/jarl/src/commands/check.rs:271-422)
-/
namespace Jarl

/-- suppression_edit.rs:18-28 `SuppressionInsertPoint`; the `line` field is never read by the command line
and is not modelled. -/
structure InsertPoint where
  offset : Nat
  indent : Str
  needsLeadingNewline : Bool
deriving DecidableEq, Repr

/-- The loop of suppression_edit.rs:51-59: one line per rule. -/
def commentLines (names : List Str) (explanation indent : Str) : Str :=
  match names with
  | [] => []
  | r :: rs => indent ++ cs! "# jarl-ignore " ++ r ++ cs! ": " ++ explanation ++ cs! "\n" ++
      commentLines rs explanation indent

/-- suppression_edit.rs:38-67 `format_suppression_comments`. -/
def formatSuppressionComments (names : List Str) (explanation indent : Str) (lead : Bool) : Str :=
  (if lead then cs! "\n" else []) ++ commentLines names explanation indent ++ (if lead then indent else [])

/-- suppression_edit.rs:283-296 `is_on_own_line`; `none` is the slicing panic. -/
def isOnOwnLine (source : Str) (offset : Nat) : Option Bool :=
  if offset = 0 then some true
  else match splitAtByte offset source with
    | none => none
    | some (before, _) =>
      match splitLast '\n' before with
      | some (_, linePrefix) => some (linePrefix.all isWs)
      | none => some (before.all isWs)

/-- suppression_edit.rs:360-375 `find_line_start_and_indent`. -/
def findLineStartAndIndent (source : Str) (offset : Nat) : Option (Nat × Str) :=
  match splitAtByte offset source with
  | none => none
  | some (before, after) =>
    match splitLast '\n' before with
    | some (pre, linePrefix) =>
      some (blen pre + 1, (linePrefix ++ after).takeWhile (fun c => isWs c && c ≠ '\n'))
    | none => some (0, source.takeWhile (fun c => isWs c && c ≠ '\n'))

/-- suppression_edit.rs:331-339 `compute_inline_indent`. -/
def computeInlineIndent (source : Str) (offset : Nat) : Option Str :=
  match splitAtByte offset source with
  | none => none
  | some (before, _) =>
    match splitLast '\n' before with
    | some (_, linePrefix) => some (List.replicate (blen linePrefix) ' ')
    | none => some (List.replicate (blen before) ' ')

/-- suppression_edit.rs:347-357 `compute_simple_insert_point` (also the four copies of the same code inside
`compute_suppression_insert_point`). -/
def lineStartPoint (source : Str) (offset : Nat) : Option InsertPoint :=
  match findLineStartAndIndent source offset with
  | none => none
  | some (o, indent) => some ⟨o, indent, false⟩

/-- suppression_edit.rs:210-221, 262-274: insertion in front of the expression. -/
def inlinePoint (source : Str) (offset : Nat) : Option InsertPoint :=
  match computeInlineIndent source offset with
  | none => none
  | some indent => some ⟨offset, indent, true⟩

/-- What the walk needs to know of a syntax node: is it one of the kinds of
suppression_edit.rs:300-315 `is_meaningful_expression`, one of those of 319-328
`is_control_flow_statement`, and where its trimmed text starts. -/
structure AncestorInfo where
  meaningful : Bool
  controlFlow : Bool
  start : Nat
deriving DecidableEq, Repr

/-- suppression_edit.rs:185-277: the walk from the covering node up to the root. `lastM` is
`last_meaningful`, `firstOwn` is `first_meaningful_on_own_line` (their start offsets). -/
def walkUp (source : Str) (diagStart : Nat) :
    List AncestorInfo → (lastM firstOwn : Option Nat) → Option InsertPoint
  | [], lastM, firstOwn =>
    match firstOwn with
    | some s => lineStartPoint source s
    | none => match lastM with
      | some s => inlinePoint source s
      | none => lineStartPoint source diagStart
  | n :: rest, lastM, firstOwn =>
    if n.meaningful then
      match isOnOwnLine source n.start with
      | none => none
      | some own =>
        if n.controlFlow then
          match lastM with
          | some s =>
            match isOnOwnLine source s with
            | none => none
            | some true => lineStartPoint source s
            | some false => inlinePoint source s
          | none =>
            if own then lineStartPoint source n.start
            else walkUp source diagStart rest lastM firstOwn
        else
          walkUp source diagStart rest (some n.start)
            (if own && firstOwn.isNone then some n.start else firstOwn)
    else walkUp source diagStart rest lastM firstOwn

/-- suppression_edit.rs:149-280 `compute_suppression_insert_point`. The parser and biome's
`covering_element` are external: `ancestors` is `none` when the source does not parse, and otherwise the
chain of nodes from the smallest one covering the diagnostic up to the root. `none` as a result is a slicing
panic (the Rust function itself never returns `None` for a chain that has at least one node). -/
def computeInsertPoint (source : Str) (ancestors : Option (List AncestorInfo)) (diagStart : Nat) :
    Option InsertPoint :=
  match ancestors with
  | none => lineStartPoint source diagStart
  | some l => walkUp source diagStart l none none

/-- check.rs:310: an element of `raw_edits` (insertion point and rule name). -/
structure RawEdit where
  point : InsertPoint
  rule : Str
deriving DecidableEq, Repr

/-- check.rs:346: an element of `merged_edits`. -/
structure MergedEdit where
  point : InsertPoint
  rules : List Str
deriving DecidableEq, Repr

/-- check.rs:347-361: one step of the merge loop; `acc` is `merged_edits` with its last element first. -/
def mergeStep (acc : List MergedEdit) (e : RawEdit) : List MergedEdit :=
  match acc with
  | last :: before =>
    if last.point.offset = e.point.offset then
      if e.rule ∈ last.rules then last :: before
      else { last with rules := last.rules ++ [e.rule] } :: before
    else ⟨e.point, [e.rule]⟩ :: last :: before
  | [] => [⟨e.point, [e.rule]⟩]

/-- check.rs:343-361: sort by offset (stable) and merge. -/
def mergeEdits (edits : List RawEdit) : List MergedEdit :=
  ((edits.mergeSort (fun a b => a.point.offset ≤ b.point.offset)).foldl mergeStep []).reverse

/-- Rust `String::insert_str`; `none` is the panic when the offset is no character boundary. -/
def insertStr (s : Str) (offset : Nat) (t : Str) : Option Str :=
  match splitAtByte offset s with
  | none => none
  | some (a, b) => some (a ++ t ++ b)

/-- check.rs:367-374: apply the edits one after the other. -/
def applyInsertions (reason : Str) : List MergedEdit → Str → Option Str
  | [], content => some content
  | e :: es, content =>
    match insertStr content e.point.offset
        (formatSuppressionComments e.rules reason e.point.indent e.point.needsLeadingNewline) with
    | none => none
    | some c => applyInsertions reason es c

/-- check.rs:308-374 for one file: the new content. -/
def addIgnoreToFile (content reason : Str) (edits : List RawEdit) : Option Str :=
  applyInsertions reason
    ((mergeEdits edits).mergeSort (fun a b => b.point.offset ≤ a.point.offset)) content

end Jarl
