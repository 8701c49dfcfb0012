import Verif.Lsp
/-!
# Specification of LSP positions and edits

From the Language Server Protocol (3.17, "Text Documents"): a position is a zero-based line and the number of code
units, in the negotiated encoding, between the start of the line and the position; the changes of one
`didChange` notification are applied one after the other, each one to the text produced by the previous one.
-/
namespace Jarl.Spec
open Jarl

/-- Number of code units of a character. -/
def unit : Enc → Char → Nat
  | .utf8, c => c.utf8Size
  | .utf16, c => if c.toNat < 0x10000 then 1 else 2
  | .utf32, _ => 1

/-- Number of code units of a text. -/
def units (enc : Enc) (s : Str) : Nat := (s.map (unit enc)).sum

/-- The text after the last newline. -/
def lineTail (s : Str) : Str := (s.reverse.takeWhile (· ≠ '\n')).reverse

/-- The LSP position of the place between `pre` and whatever follows it. -/
def posOf (enc : Enc) (pre : Str) : LPos := ⟨countNl pre, units enc (lineTail pre)⟩

/-- One edit: replace the text between two places. -/
structure PlacedEdit where
  pre : Str
  old : Str
  post : Str
  new : Str

/-- The change event a client sends for an edit of the document `e.pre ++ e.old ++ e.post`. -/
def PlacedEdit.event (enc : Enc) (e : PlacedEdit) : LChange :=
  ⟨some ⟨posOf enc e.pre, posOf enc (e.pre ++ e.old)⟩, e.new⟩

/-- A client's edits, one after the other: each edit is made in the text produced by the previous one. -/
inductive EditRun : Str → List PlacedEdit → Str → Prop
  | done (s) : EditRun s [] s
  | step {e : PlacedEdit} {es s} : EditRun (e.pre ++ e.new ++ e.post) es s →
      EditRun (e.pre ++ e.old ++ e.post) (e :: es) s

/-- The edits go from the end of the document to its start without overlapping: each edit is made in the text
before the previous one. -/
def EndToStart : List PlacedEdit → Prop
  | [] => True
  | [_] => True
  | e :: f :: es => (∃ gap, e.pre = f.pre ++ f.old ++ gap) ∧ EndToStart (f :: es)

end Jarl.Spec
