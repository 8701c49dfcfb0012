import Verif.RVisit
import Verif.Fix
/-!
# RText: the text of R code and the byte ranges of fixes

The parser's tree is lossless: every token has the text in front of it (blanks, line breaks, comments: "trivia"), and the text of the file is the
texts of the tokens one after the other (biome_rowan, a dependency; used through `text_trimmed_range()`, `text_trimmed()` in every rule). Here a file
is the list of its tokens with these texts (`Src`), and a fix of `RRules` becomes a `Fix` of fix.rs: a byte range and a text.
-/
namespace Jarl

/-- The text of an operator. -/
def Op.text : Op → Str
  | .eq => cs! "=" | .assign => cs! "<-" | .superAssign => cs! "<<-" | .rassign => cs! "->" | .superRassign => cs! "->>" | .tilde => cs! "~"
  | .or => cs! "|" | .or2 => cs! "||" | .and => cs! "&" | .and2 => cs! "&&" | .bang => cs! "!" | .lt => cs! "<" | .gt => cs! ">" | .le => cs! "<="
  | .ge => cs! ">=" | .eq2 => cs! "==" | .ne => cs! "!=" | .plus => cs! "+" | .minus => cs! "-" | .mul => cs! "*" | .div => cs! "/"
  | .special s => '%' :: s ++ ['%'] | .pipe => cs! "|>" | .colon => cs! ":" | .pow => cs! "^"

/-- The text of a token. Simplification: `**` (another way to write `^`) is left out; `pkg::name` is written without blanks. -/
def TK.text : TK → Str
  | .atom (.ns pkg internal) s => pkg ++ (if internal then cs! ":::" else cs! "::") ++ s
  | .atom _ s => s
  | .op o => o.text
  | .open .par => cs! "(" | .open .brk => cs! "[" | .open .brk2 => cs! "[["
  | .close .par => cs! ")" | .close .brk => cs! "]" | .close .brk2 => cs! "]]"
  | .lbrace => cs! "{" | .rbrace => cs! "}" | .comma => cs! "," | .semi => cs! ";"
  | .fn true => cs! "\\" | .fn false => cs! "function"
  | .if => cs! "if" | .else => cs! "else" | .while => cs! "while" | .for => cs! "for" | .in => cs! "in" | .repeat => cs! "repeat"
  | .ext true => cs! "@" | .ext false => cs! "$"

/-- A token with the text between it and the token in front of it. -/
structure Piece where
  gap : Str
  k : TK
deriving DecidableEq, Repr

/-- The text of pieces. -/
def piecesText : List Piece → Str
  | [] => []
  | p :: ps => p.gap ++ p.k.text ++ piecesText ps

/-- What the text in front of a token is, for the model of the rules: is there a line break, is there a comment behind the token before it, are there comments on lines of
their own. -/
def gapOf (s : Str) : Gap :=
  match splitOn '\n' s with
  | a :: b :: rest => .line (a.contains '#') ((b :: rest).any (·.contains '#'))
  | _ => .none

/-- The tokens of pieces. -/
def piecesToks (ps : List Piece) : List Tok := ps.map (fun p => ⟨gapOf p.gap, p.k⟩)

/-- A file of R code. -/
structure Src where
  pieces : List Piece
  /-- what is behind the last token -/
  tail : Str
deriving DecidableEq, Repr

/-- The text of the file. -/
def Src.text (s : Src) : Str := piecesText s.pieces ++ s.tail

/-- The tokens of the file. -/
def Src.toks (s : Src) : List Tok := piecesToks s.pieces

/-- `text_trimmed_range()` of the tokens from number `i` to number `j` (excluded): from the beginning of the first token, without the text in front of it, to the end of the
last. -/
def trimmedRange (ps : List Piece) (i j : Nat) : Nat × Nat :=
  (blen (piecesText (ps.take i)) + blen (((ps.drop i).head?.map (·.gap)).getD []), blen (piecesText (ps.take j)))

/-- The byte range and the text of a fix: `Fix { content, start: range.start(), end: range.end(), to_skip }`, as in every rule (e.g. any_is_na.rs 44-52). `content` is the text that the
rule builds with `format!`. -/
def textFix (src : Src) (ed : Edit) (content : Str) : Fix :=
  let i := (beforeToks ed.z.fs).length
  let r := trimmedRange src.pieces i (i + (toks ed.z.e).length)
  ⟨content, r.1, r.2, ed.skip⟩

end Jarl
