import Verif.RText
import Verif.Spec.RTogether
import Verif.Spec.Fix
import Verif.Diagnostic
/-!
# Specification: reading the text of R code

How R cuts a text into tokens (after `token()` in R's gram.y): blanks, line breaks and comments are skipped, then the longest token is taken. Left out (the text does not
read at all then): raw strings `r"(…)"`, `?`, `:=`, `**`, blanks around `::`. Not checked: that numbers have the right form, and that escapes in strings exist.
-/
namespace Jarl.Spec
open Jarl

/-- Blanks within a line. -/
def isBlank (c : Char) : Bool := c = ' ' || c = '\t' || c = '\r' || c = '\x0c'

/-- The blanks, line breaks and comments at the beginning, and the rest. `inC`: inside a comment. -/
def gapRun : Bool → Str → Str × Str
  | _, [] => ([], [])
  | true, c :: s => let (g, r) := gapRun (c ≠ '\n') s; (c :: g, r)
  | false, c :: s =>
    if isBlank c || c = '\n' then let (g, r) := gapRun false s; (c :: g, r)
    else if c = '#' then let (g, r) := gapRun true s; (c :: g, r)
    else ([], c :: s)

/-- Characters of names and numbers. Outside of ASCII all count, but white space. -/
def isWordChar (c : Char) : Bool := c.isAlphanum || c = '.' || c = '_' || (127 < c.toNat && !isWs c)

/-- Quotes of strings and names. -/
def isQuote (c : Char) : Bool := c = '"' || c = '\'' || c = '`'

/-- The text up to the closing quote, included, and the rest; `\` escapes the character behind it. -/
def quoted (q : Char) : Str → Option (Str × Str)
  | [] => none
  | ['\\'] => none
  | '\\' :: c :: s => (quoted q s).map fun (a, r) => ('\\' :: c :: a, r)
  | c :: s => if c = q then some ([c], s) else (quoted q s).map fun (a, r) => (c :: a, r)

/-- The text up to the closing `%`, not included, on the same line, and the rest. -/
def percent : Str → Option (Str × Str)
  | [] => none
  | c :: s => if c = '%' then some ([], s) else if c = '\n' then none else (percent s).map fun (a, r) => (c :: a, r)

/-- The character in front of an exponent: `e`, in hexadecimal numbers `p`. -/
def isExp (hex : Bool) (c : Char) : Bool := if hex then c = 'p' || c = 'P' else c = 'e' || c = 'E'

/-- The characters of a number, and the rest: a sign may follow the exponent character. -/
def numRun (hex : Bool) : Str → Str × Str
  | [] => ([], [])
  | c :: s =>
    if isWordChar c then
      match s with
      | d :: s' =>
        if isExp hex c ∧ (d = '+' ∨ d = '-') then let (w, r) := numRun hex s'; (c :: d :: w, r)
        else let (w, r) := numRun hex (d :: s'); (c :: w, r)
      | [] => ([c], [])
    else ([], c :: s)

/-- Words that are not names. -/
def keyword (w : Str) : Option TK :=
  if w = cs! "if" then some .if else if w = cs! "else" then some .else else if w = cs! "while" then some .while else if w = cs! "for" then some .for
  else if w = cs! "in" then some .in else if w = cs! "repeat" then some .repeat else if w = cs! "function" then some (.fn false) else none

/-- What kind of atom a word is. -/
def wordKind (w : Str) : AKind :=
  if w = cs! "TRUE" then .true else if w = cs! "FALSE" then .false else if w = cs! "NULL" then .null else if w = cs! "NaN" then .nan else if w = cs! "Inf" then .inf
  else if w = cs! "NA" ∨ w = cs! "NA_integer_" ∨ w = cs! "NA_real_" ∨ w = cs! "NA_character_" ∨ w = cs! "NA_complex_" then .na
  else if w = cs! "..." then .dots else if w = cs! "break" then .break else if w = cs! "next" then .next else if w = cs! "return" then .return else .id

/-- A name behind `pkg::`. -/
def nsName (pkg : Str) (internal : Bool) : Str → Option (TK × Str)
  | [] => none
  | c :: s =>
    if isQuote c then (quoted c s).map fun (a, r) => (.atom (.ns pkg internal) (c :: a), r)
    else
      let w := (c :: s).takeWhile isWordChar
      if w = [] ∨ c.isDigit ∨ keyword w ≠ none then none else some (.atom (.ns pkg internal) w, (c :: s).dropWhile isWordChar)

/-- A number begins here. -/
def startsNumber : Str → Bool
  | c :: s => c.isDigit || c = '.' && (match s with | d :: _ => d.isDigit | [] => false)
  | [] => false

/-- A number. -/
def number (s : Str) : Option (TK × Str) :=
  let hex := startsWith (cs! "0x") s || startsWith (cs! "0X") s
  let (w, r) := numRun hex s
  match w.getLast? with
  | none => none
  | some c =>
    if !isWordChar c || isExp hex c then none
    else some (.atom (if c = 'L' then .int else if c = 'i' then .complex else .double) w, r)

/-- A word: a keyword, a name, `pkg::name` or `pkg:::name`, a constant. -/
def word (s : Str) : Option (TK × Str) :=
  let w := s.takeWhile isWordChar
  let r := s.dropWhile isWordChar
  match keyword w with
  | some k => some (k, r)
  | none =>
    if w.head? = some '_' then none
    else match r with
      | '"' :: _ | '\'' :: _ => if w = cs! "r" ∨ w = cs! "R" then none else some (.atom (wordKind w) w, r)
      | ':' :: ':' :: ':' :: r' => if wordKind w = .id then nsName w true r' else none
      | ':' :: ':' :: r' => if wordKind w = .id then nsName w false r' else none
      | _ => some (.atom (wordKind w) w, r)

/-- Operators and brackets (without `]`), the longest first; `none`: not modelled. -/
def symbols : List (Str × Option TK) :=
  [(cs! "<<-", some (.op .superAssign)), (cs! "->>", some (.op .superRassign)),
   (cs! "<-", some (.op .assign)), (cs! "<=", some (.op .le)), (cs! "->", some (.op .rassign)), (cs! ">=", some (.op .ge)), (cs! "==", some (.op .eq2)),
   (cs! "!=", some (.op .ne)), (cs! "||", some (.op .or2)), (cs! "|>", some (.op .pipe)), (cs! "&&", some (.op .and2)), (cs! "[[", some (.open .brk2)),
   (cs! ":=", none), (cs! "::", none), (cs! "**", none),
   (cs! "<", some (.op .lt)), (cs! ">", some (.op .gt)), (cs! "=", some (.op .eq)), (cs! "!", some (.op .bang)), (cs! "|", some (.op .or)), (cs! "&", some (.op .and)),
   (cs! "-", some (.op .minus)), (cs! "+", some (.op .plus)), (cs! "*", some (.op .mul)), (cs! "/", some (.op .div)), (cs! "^", some (.op .pow)), (cs! "~", some (.op .tilde)),
   (cs! ":", some (.op .colon)), (cs! "(", some (.open .par)), (cs! "[", some (.open .brk)), (cs! ")", some (.close .par)), (cs! "{", some .lbrace), (cs! "}", some .rbrace),
   (cs! ",", some .comma), (cs! ";", some .semi), (cs! "\\", some (.fn true)), (cs! "@", some (.ext true)), (cs! "$", some (.ext false))]

/-- The first of the symbols that the text begins with. -/
def symbol : List (Str × Option TK) → Str → Option (TK × Str)
  | [], _ => none
  | (t, k) :: l, s => match stripPrefix t s with
    | some r => k.map fun k => (k, r)
    | none => symbol l s

/-- An open bracket: `none` is `{`. -/
abbrev Stack := List (Option Br)

/-- The token at the beginning of the text, and the rest. Whether `]]` is one token depends on the open bracket. -/
def munch (st : Stack) : Str → Option (TK × Str)
  | [] => none
  | c :: s =>
    if isWordChar c then (if startsNumber (c :: s) then number (c :: s) else word (c :: s))
    else if isQuote c then (quoted c s).map fun (a, r) => (.atom (if c = '`' then .id else .str) (c :: a), r)
    else if c = '%' then (percent s).map fun (a, r) => (.op (.special a), r)
    else if c = ']' then
      if st.head? = some (some .brk2) then (match s with | ']' :: r => some (.close .brk2, r) | _ => none) else some (.close .brk, s)
    else symbol symbols (c :: s)

/-- The open brackets behind a token; `none` if a bracket is closed that is not open. -/
def bracket (st : Stack) : TK → Option Stack
  | .open b => some (some b :: st)
  | .lbrace => some (none :: st)
  | .close b => match st with
    | x :: st => if x = some b then some st else none
    | [] => none
  | .rbrace => match st with
    | x :: st => if x = none then some st else none
    | [] => none
  | _ => some st

/-- The tokens of a text. -/
def lexN : Nat → Stack → Str → Option Src
  | 0, _, _ => none
  | n + 1, st, s =>
    let (g, r) := gapRun false s
    if r = [] then some ⟨[], g⟩
    else match munch st r with
      | none => none
      | some (k, r') => match bracket st k with
        | none => none
        | some st' => (lexN n st' r').map fun src => ⟨⟨g, k⟩ :: src.pieces, src.tail⟩

/-- R cuts the text into these tokens. Every token has a character, so this many steps are enough. -/
def lex (s : Str) : Option Src := lexN (s.length + 1) [] s

/-- R reads the text as the program `p`; `src` are its tokens with the text between them. -/
def ReadsAs (text : Str) (src : Src) (p : Node) : Prop := lex text = some src ∧ Parses src.toks p

/-- The pieces `ps` are a text of the tokens `ts`, with nothing in front of the first and behind the last. -/
def Spells (content : Str) (ts : List Tok) (ps : List Piece) : Prop :=
  lex content = some ⟨ps, []⟩ ∧ piecesToks ps = ts ∧ (∃ p rest, ps = p :: rest ∧ p.gap = [])

/-- There is a blank or a line break behind `else`, `in`, `repeat` and `<`, and in front of `else` and `in`. -/
def Airy : Option TK → List Piece → Prop
  | _, [] => True
  | prev, p :: ps => (p.gap = [] → prev ≠ some .else ∧ prev ≠ some .in ∧ prev ≠ some .repeat ∧ prev ≠ some (.op .lt) ∧ p.k ≠ .else ∧ p.k ≠ .in) ∧ Airy (some p.k) ps

/-- Fixes of the rules for the program `p`, without comments inside the code that is replaced, with their texts; there are blanks in these texts where they are needed. -/
def FixTexts (rules : List (Str × (Zip → Option Edit))) (p : Node) (eds : List (Edit × Str)) : Prop :=
  ∀ e ∈ eds, (∃ r ∈ rules, ∃ z, z.prog = p ∧ r.2 z = some e.1 ∧ innerComments (toks e.1.z.e) = false) ∧ ∃ cs, Spells e.2 e.1.content cs ∧ Airy none cs

/-- The diagnostics of a file carry fixes of these rules, at different places or apart (`Apart`). -/
def ReportsFixes (rules : List (Str × (Zip → Option Edit))) (text : Str) (ds : List Diagnostic) : Prop :=
  ∀ src p, ReadsAs text src p → ∃ eds isReal, FixTexts rules p eds ∧ Apart 0 (eds.map fun e => textFix src e.1 e.2) ∧
    (eds.map fun e => textFix src e.1 e.2) = (ds.map (·.fix)).filter isReal ∧ (∀ f ∈ ds.map (·.fix), isReal f = false → IsPlaceholder f) ∧
    ∀ e ∈ eds, SameExtraBytes text (textFix src e.1 e.2)

/-- One pass over the text of a file: some fixes of the rules are carried out at once. -/
def TextPass (rules : List (Str × (Zip → Option Edit))) (a b : Str) : Prop :=
  ∃ src p eds, ReadsAs a src p ∧ FixTexts rules p eds ∧ Rewritten 0 a (eds.map fun e => textFix src e.1 e.2) b

/-- Any number of passes, each with the text that the one before it left. -/
inductive TextPasses (rules : List (Str × (Zip → Option Edit))) : Str → Str → Prop
  | none (a) : TextPasses rules a a
  | more {a b c} : TextPasses rules a b → TextPass rules b c → TextPasses rules a c

/-- Fixes of the rules for what they look at in the program `p`, that keep its structure, with their texts; there are blanks in these texts where they are needed. -/
def GoodTexts (rules : List (Str × (Zip → Option Edit))) (p : Node) (eds : List (Edit × Str)) : Prop :=
  ∀ e ∈ eds, (∃ r ∈ rules, ∃ z, LookedAt p z ∧ r.2 z = some e.1 ∧ GoodFix p e.1) ∧ ∃ cs, Spells e.2 e.1.content cs ∧ Airy none cs

/-- The diagnostics of a file carry such fixes, at different places or apart (`Apart`). -/
def ReportsGoodFixes (rules : List (Str × (Zip → Option Edit))) (text : Str) (ds : List Diagnostic) : Prop :=
  ∀ src p, ReadsAs text src p → ∃ eds isReal, GoodTexts rules p eds ∧ Apart 0 (eds.map fun e => textFix src e.1 e.2) ∧
    (eds.map fun e => textFix src e.1 e.2) = (ds.map (·.fix)).filter isReal ∧ (∀ f ∈ ds.map (·.fix), isReal f = false → IsPlaceholder f) ∧
    ∀ e ∈ eds, SameExtraBytes text (textFix src e.1 e.2)

/-- Any number of passes over the text, which carry out `n` fixes in all. -/
inductive TextFixesDone (rules : List (Str × (Zip → Option Edit))) : Nat → Str → Str → Prop
  | none (a) : TextFixesDone rules 0 a a
  | more {n a b c src p eds} : TextFixesDone rules n a b → ReadsAs b src p → GoodTexts rules p eds → Rewritten 0 b (eds.map fun e => textFix src e.1 e.2) c →
      TextFixesDone rules (n + eds.length) a c

end Jarl.Spec
