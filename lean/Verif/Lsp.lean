import Verif.Fix
/-!
# Lsp: documents and positions of the language server (crates/jarl-lsp/src/document.rs, lint.rs)

Text is a list of characters, byte offsets are UTF-8.  `u32` truncation of line and column numbers is not
modelled (documents below 4 GiB).
-/
namespace Jarl

/-- The outcome of a Rust function returning `anyhow::Result`: a value, an `Err`, or a panic (slicing
outside the string or inside a character). -/
inductive LspRes (α : Type) where
  | ok (a : α)
  | err
  | panic
deriving DecidableEq, Repr

/-- document.rs:10-19 `PositionEncoding`. -/
inductive Enc
  | utf8
  | utf16
  | utf32
deriving DecidableEq, Repr

/-- Rust `char::len_utf16`. -/
def len16 (c : Char) : Nat := if c.toNat < 0x10000 then 1 else 2

/-- `s.chars().map(|c| c.len_utf16()).sum()`. -/
def sum16 (s : Str) : Nat := (s.map len16).sum

/-- lsp_types `Position`. -/
structure LPos where
  line : Nat
  ch : Nat
deriving DecidableEq, Repr

/-- lsp_types `Position`'s derived `Ord` (line first, then character): `a <= b`. -/
def LPos.le (a b : LPos) : Bool := a.line < b.line || (a.line == b.line && a.ch ≤ b.ch)

/-- lsp_types `Range`. -/
structure LRange where
  start : LPos
  stop : LPos
deriving DecidableEq, Repr

/-- lsp_types `TextDocumentContentChangeEvent` (`range_length` is not read). -/
structure LChange where
  range : Option LRange
  text : Str
deriving DecidableEq, Repr

/-- document.rs:82-92 `TextDocument`; `lineStarts` is the cached field `line_starts`. `language_id` is not
modelled (never read by the code modelled here). -/
structure TextDoc where
  content : Str
  version : Int
  lineStarts : List Nat
deriving DecidableEq, Repr

/-- document.rs:318-326 `compute_line_starts`, the loop; a newline byte is always the character `'\n'` in
UTF-8. `i` is the byte index. -/
def lineStartsFrom (i : Nat) : Str → List Nat
  | [] => []
  | c :: cs => if c = '\n' then (i + 1) :: lineStartsFrom (i + 1) cs
               else lineStartsFrom (i + c.utf8Size) cs

/-- document.rs:318-326 `compute_line_starts`. -/
def computeLineStarts (s : Str) : List Nat := 0 :: lineStartsFrom 0 s

/-- document.rs:96-99 `TextDocument::new`. -/
def TextDoc.new (content : Str) (version : Int) : TextDoc := ⟨content, version, computeLineStarts content⟩

/-- document.rs:216-230 (with `w = len_utf16`) and 232-243 (with `w = 1`): walk the characters of the line until `pos ≥ character`;
returns the final `(utf16_pos, byte_pos)`. -/
def walkLine (w : Char → Nat) (character : Nat) : Nat → Nat → Str → Nat × Nat
  | pos, byte, [] => (pos, byte)
  | pos, byte, c :: cs =>
    if character ≤ pos then (pos, byte) else walkLine w character (pos + w c) (byte + c.utf8Size) cs

/-- document.rs:196-202 and 268-274: the byte range of line `line`, `[start, end)` without its newline.
`none`: index out of bounds (a panic) or `usize` underflow. -/
def TextDoc.lineRange (d : TextDoc) (line : Nat) : Option (Nat × Nat) :=
  match d.lineStarts[line]? with
  | none => none
  | some a =>
    if line + 1 < d.lineStarts.length then
      match d.lineStarts[line + 1]? with
      | none => none
      | some b => if b = 0 then none else some (a, b - 1)
    else some (a, blen d.content)

/-- document.rs:205-243: the offset of `character` within the text of a line. -/
def offsetInLine (lineContent : Str) (character : Nat) : Enc → LspRes Nat
  | .utf8 => if character > blen lineContent then .err else .ok character
  | .utf16 =>
    let r := walkLine len16 character 0 0 lineContent
    if r.1 > character then .err else .ok r.2
  | .utf32 => .ok (walkLine (fun _ => 1) character 0 0 lineContent).2

/-- document.rs:188-247 `TextDocument::position_to_offset`. -/
def TextDoc.positionToOffset (d : TextDoc) (p : LPos) (enc : Enc) : LspRes Nat :=
  if p.line ≥ d.lineStarts.length then .err
  else match d.lineRange p.line with
    | none => .panic
    | some (a, b) =>
      match slice a b d.content with
      | none => .panic
      | some lineContent =>
        match offsetInLine lineContent p.ch enc with
        | .ok off => .ok (a + off)
        | .err => .err
        | .panic => .panic

/-- Rust `slice::binary_search` on a strictly increasing list: `some i` for `Ok(i)`; the number of smaller
elements for `Err(i)`. (The standard library does not fix which match is returned when there are several;
line starts are strictly increasing.) -/
def binarySearch (xs : List Nat) (x : Nat) : Nat ⊕ Nat :=
  match xs.findIdx? (· == x) with
  | some i => .inl i
  | none => .inr (xs.countP (· < x))

/-- document.rs:259-268: the line index from the result of the binary search. -/
def lineIndex : Nat ⊕ Nat → Nat
  | .inl i => i
  | .inr i => if i = 0 then 0 else i - 1

/-- document.rs:279-290 and lint.rs:303-315: the column of a byte offset in a line. -/
def columnInLine (lineContent : Str) (byteOff : Nat) : Enc → LspRes Nat
  | .utf8 => .ok byteOff
  | .utf16 =>
    match splitAtByte (min byteOff (blen lineContent)) lineContent with
    | none => .panic
    | some (pre, _) => .ok (sum16 pre)
  | .utf32 =>
    match splitAtByte (min byteOff (blen lineContent)) lineContent with
    | none => .panic
    | some (pre, _) => .ok pre.length

/-- document.rs:249-293 `TextDocument::offset_to_position`. -/
def TextDoc.offsetToPosition (d : TextDoc) (offset : Nat) (enc : Enc) : LspRes LPos :=
  if offset > blen d.content then .err
  else
    let line := lineIndex (binarySearch d.lineStarts offset)
    match d.lineRange line with
    | none => .panic
    | some (a, b) =>
      match slice a b d.content with
      | none => .panic
      | some lineContent =>
        if offset < a then .panic
        else match columnInLine lineContent (offset - a) enc with
          | .ok c => .ok ⟨line, c⟩
          | .err => .err
          | .panic => .panic

/-- document.rs:130-143: resolve the positions of every change against the document as it is before the
notification. -/
def TextDoc.resolveChanges (d : TextDoc) (enc : Enc) : List LChange → LspRes (List (Nat × Nat × Str))
  | [] => .ok []
  | c :: cs =>
    match c.range with
    | none => .err
    | some r =>
      match d.positionToOffset r.start enc with
      | .err => .err
      | .panic => .panic
      | .ok a =>
        match d.positionToOffset r.stop enc with
        | .err => .err
        | .panic => .panic
        | .ok b =>
          match d.resolveChanges enc cs with
          | .ok rest => .ok ((a, b, c.text) :: rest)
          | .err => .err
          | .panic => .panic

/-- document.rs:146: `sort_by(|a, b| b.0.cmp(&a.0))`, a stable sort by decreasing start offset. -/
def insertDesc (x : Nat × Nat × Str) : List (Nat × Nat × Str) → List (Nat × Nat × Str)
  | [] => [x]
  | y :: ys => if y.1 ≤ x.1 then x :: y :: ys else y :: insertDesc x ys

/-- document.rs:146, see `insertDesc` (insertion sort, stable). -/
def sortDesc : List (Nat × Nat × Str) → List (Nat × Nat × Str)
  | [] => []
  | x :: xs => insertDesc x (sortDesc xs)

/-- document.rs:149-180, the loop applying resolved changes. Returns the content when the loop stops and how
it stopped: the content is mutated in place, so an `Err` leaves the changes already applied. -/
def applyResolved (content : Str) : List (Nat × Nat × Str) → Str × LspRes Unit
  | [] => (content, .ok ())
  | (a, b, t) :: rest =>
    if a > blen content ∨ b > blen content then (content, .err)
    else if a > b then (content, .err)
    else match replaceRange content a b t with
      | none => (content, .panic)
      | some content' => applyResolved content' rest

/-- document.rs:118-185 `TextDocument::apply_changes`: the document after the call and the result. -/
def TextDoc.applyChanges (d : TextDoc) (changes : List LChange) (newVersion : Int) (enc : Enc) :
    TextDoc × LspRes Unit :=
  match d.resolveChanges enc changes with
  | .err => (d, .err)
  | .panic => (d, .panic)
  | .ok rs =>
    match applyResolved d.content (sortDesc rs) with
    | (content, .ok ()) => (⟨content, newVersion, computeLineStarts content⟩, .ok ())
    | (content, .err) => ({ d with content := content }, .err)
    | (content, .panic) => ({ d with content := content }, .panic)

/-- lint.rs:303-315, 326-336: the column of the target in the text from the start of its line on
(`line_content.find('\n')` cuts it at the end of the line). -/
def columnOnLine (fromLineStart : Str) (byteOff : Nat) (enc : Enc) : LspRes Nat :=
  columnInLine (fromLineStart.takeWhile (· ≠ '\n')) byteOff enc

/-- lint.rs:286-338, the scan over `char_indices`: `i` is the byte index of the rest, `line` and `ls` the
line number and line start seen so far. -/
def scanPos (content : Str) (target : Nat) (enc : Enc) : Nat → Nat → Nat → Str → LspRes LPos
  | _, line, ls, [] =>
    match splitAtByte ls content with
    | none => .panic
    | some (_, lc) =>
      .ok ⟨line, match enc with
        | .utf8 => target - ls
        | .utf16 => sum16 lc
        | .utf32 => lc.length⟩
  | i, line, ls, c :: cs =>
    if i ≥ target then
      match splitAtByte ls content with
      | none => .panic
      | some (_, lc) =>
        match columnOnLine lc (target - ls) enc with
        | .ok col => .ok ⟨line, col⟩
        | .err => .err
        | .panic => .panic
    else if c = '\n' then scanPos content target enc (i + 1) (line + 1) (i + 1) cs
    else scanPos content target enc (i + c.utf8Size) line ls cs

/-- lint.rs:273-339 `byte_offset_to_lsp_position`. -/
def byteOffsetToLspPosition (byteOffset : Nat) (content : Str) (enc : Enc) : LspRes LPos :=
  if byteOffset > blen content then .err else scanPos content byteOffset enc 0 0 0 content

/-- server.rs:672-678 `Server::offset_to_position` (used by the two jarl-ignore code actions). -/
def serverOffsetToPosition (content : Str) (offset : Nat) : Option LPos :=
  match splitAtByte (min offset (blen content)) content with
  | none => none
  | some (before, _) =>
    let lineStart := match splitLast '\n' before with
      | some (a, _) => blen a + 1
      | none => 0
    some ⟨countNl before, offset - lineStart⟩

/-- server.rs:687-689 `ranges_overlap`. -/
def rangesOverlap (a b : LRange) : Bool := a.start.le b.stop && b.start.le a.stop

end Jarl
