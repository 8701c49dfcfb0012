import Verif.Text
/-!
# Location: byte offsets to (row, column) (utils.rs:30-102)
-/
namespace Jarl

/-- utils.rs:34-36 `find_new_lines_from_content` (`match_indices('\n')`), with `base` the offset of the
text. Also models utils.rs:39-50 `find_new_lines`, applied to the text of the expression list. -/
def newLinesFrom (base : Nat) : Str → List Nat
  | [] => []
  | c :: cs => if c = '\n' then base :: newLinesFrom (base + c.utf8Size) cs
               else newLinesFrom (base + c.utf8Size) cs

def findNewLines (s : Str) : List Nat := newLinesFrom 0 s

/-- utils.rs:67-85 `find_row_col`; `none` is the `usize` underflow of `start - last_new_line - 1`
(a panic in debug builds). -/
def findRowCol (start : Nat) (newLines : List Nat) : Option (Nat × Nat) :=
  let before := newLines.filter (fun x => x ≤ start)
  let n := before.length
  let last := before.getLast?.getD 0
  if last = 0 then some (n + 1, start)
  else if start < last + 1 then none
  else some (n + 1, start - last - 1)

end Jarl
