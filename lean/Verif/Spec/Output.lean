import Verif.Output
import Verif.Spec.Cli
/-!
# Specification for what is printed (C58-C62): the readers of the report

Nothing here depends on how jarl prints. There is a reader of JSON (RFC 8259, with non-negative integers as the only
numbers), the reader of workflow commands of the GitHub runner, and the obvious reader of `path [row:column] rule text`.
-/
namespace Jarl.Spec
open Jarl

/-! ## JSON -/

/-- RFC 8259 section 2: insignificant white space. -/
def jsonWs (c : Char) : Bool := c = ' ' || c = '\t' || c = '\n' || c = '\r'

/-- Skip white space. -/
def skip (s : Str) : Str := s.dropWhile jsonWs

/-- The value of a hexadecimal digit. -/
def hexVal (c : Char) : Option Nat :=
  if '0' ≤ c ∧ c ≤ '9' then some (c.toNat - '0'.toNat)
  else if 'a' ≤ c ∧ c ≤ 'f' then some (c.toNat - 'a'.toNat + 10)
  else if 'A' ≤ c ∧ c ≤ 'F' then some (c.toNat - 'A'.toNat + 10)
  else none

/-- RFC 8259 section 7: the rest of a string behind its opening quote, and what follows. (`\u` escapes of surrogate pairs
are not read.) -/
def readStr : Str → Option (Str × Str)
  | '"' :: r => some ([], r)
  | '\\' :: 'u' :: a :: b :: c :: d :: r => do
    let n := ((← hexVal a) * 16 + (← hexVal b)) * 256 + ((← hexVal c) * 16 + (← hexVal d))
    if 0xD800 ≤ n ∧ n < 0xE000 then none
    else
      let (s, r') ← readStr r
      return (Char.ofNat n :: s, r')
  | '\\' :: e :: r => do
    let c ← if e = '"' ∨ e = '\\' ∨ e = '/' then some e
      else if e = 'b' then some (Char.ofNat 8) else if e = 'f' then some (Char.ofNat 12)
      else if e = 'n' then some '\n' else if e = 'r' then some '\r' else if e = 't' then some '\t' else none
    let (s, r') ← readStr r
    return (c :: s, r')
  | c :: r =>
    if c.toNat < 32 ∨ c = '\\' then none
    else do
      let (s, r') ← readStr r
      return (c :: s, r')
  | [] => none

/-- RFC 8259 section 6, without sign, fraction and exponent. -/
def readNum (s : Str) : Option (Nat × Str) :=
  let ds := s.takeWhile Char.isDigit
  let r := s.dropWhile Char.isDigit
  if ds = [] ∨ (ds.head? = some '0' ∧ ds.length ≠ 1) ∨ r.head? ∈ [some '.', some 'e', some 'E'] then none
  else some (ds.foldl (fun n c => n * 10 + (c.toNat - '0'.toNat)) 0, r)

mutual
/-- RFC 8259 section 3: a value, and what follows. The first argument bounds the depth of the recursion. -/
def readVal : Nat → Str → Option (Json × Str)
  | 0, _ => none
  | f + 1, s => match skip s with
    | '"' :: r => (readStr r).map (fun (x, r') => (.str x, r'))
    | '[' :: r => match skip r with
      | ']' :: r' => some (.arr [], r')
      | r' => (readElems f r').map (fun (l, r'') => (.arr l, r''))
    | '{' :: r => match skip r with
      | '}' :: r' => some (.obj [], r')
      | r' => (readFields f r').map (fun (l, r'') => (.obj l, r''))
    | 'n' :: 'u' :: 'l' :: 'l' :: r => some (.null, r)
    | 't' :: 'r' :: 'u' :: 'e' :: r => some (.bool true, r)
    | 'f' :: 'a' :: 'l' :: 's' :: 'e' :: r => some (.bool false, r)
    | s' => (readNum s').map (fun (n, r) => (.num n, r))

/-- The elements of an array up to its bracket. -/
def readElems : Nat → Str → Option (List Json × Str)
  | 0, _ => none
  | f + 1, s => match readVal f s with
    | none => none
    | some (x, r) => match skip r with
      | ']' :: r' => some ([x], r')
      | ',' :: r' => (readElems f r').map (fun (l, r'') => (x :: l, r''))
      | _ => none

/-- The members of an object up to its brace. -/
def readFields : Nat → Str → Option (List (Str × Json) × Str)
  | 0, _ => none
  | f + 1, s => match skip s with
    | '"' :: r => match readStr r with
      | none => none
      | some (k, r) => match skip r with
        | ':' :: r => match readVal f r with
          | none => none
          | some (x, r) => match skip r with
            | '}' :: r' => some ([(k, x)], r')
            | ',' :: r' => (readFields f r').map (fun (l, r'') => ((k, x) :: l, r''))
            | _ => none
        | _ => none
    | _ => none
end

/-- Read a text as one JSON value. -/
def readJson (s : Str) : Option Json :=
  match readVal (s.length + 1) s with
  | some (j, r) => if skip r = [] then some j else none
  | none => none

/-- The member of an object. -/
def field (k : Str) : Json → Option Json
  | .obj l => l.lookup k
  | _ => none

def asStr : Json → Option Str
  | .str s => some s
  | _ => none

def asNum : Json → Option Nat
  | .num n => some n
  | _ => none

def asBool : Json → Option Bool
  | .bool b => some b
  | _ => none

def asArr : Json → Option (List Json)
  | .arr l => some l
  | _ => none

/-- A value that may be `null`. -/
def orNull (f : Json → Option α) : Json → Option (Option α)
  | .null => some none
  | j => (f j).map some

/-- The diagnostic a JSON object describes: `message.name`, `message.body`, `message.suggestion` (may be `null`),
`filename`, `range` (two numbers), `location.row`, `location.column` (may be `null`), `fix.content`, `fix.start`, `fix.end`,
`fix.to_skip`. -/
def readDiag (j : Json) : Option Diagnostic := do
  let m ← field (cs! "message") j
  let name ← asStr (← field (cs! "name") m)
  let body ← asStr (← field (cs! "body") m)
  let suggestion ← orNull asStr (← field (cs! "suggestion") m)
  let file ← asStr (← field (cs! "filename") j)
  let range ← asArr (← field (cs! "range") j)
  let a ← asNum (← range[0]?)
  let b ← asNum (← range[1]?)
  let loc ← orNull (fun l => do
    let row ← asNum (← field (cs! "row") l)
    let col ← asNum (← field (cs! "column") l)
    return (row, col)) (← field (cs! "location") j)
  let f ← field (cs! "fix") j
  let content ← asStr (← field (cs! "content") f)
  let start ← asNum (← field (cs! "start") f)
  let stop ← asNum (← field (cs! "end") f)
  let toSkip ← asBool (← field (cs! "to_skip") f)
  return ⟨name, body, suggestion, file, ⟨a, b⟩, loc, ⟨content, start, stop, toSkip⟩⟩

/-- The file and the message of an error. -/
def readErr (j : Json) : Option (Str × Str) := do
  let file ← asStr (← field (cs! "file") j)
  let error ← asStr (← field (cs! "error") j)
  return (file, error)

/-- Read a whole report: diagnostics and errors. -/
def readReport (s : Str) : Option (List Diagnostic × List (Str × Str)) := do
  let j ← readJson s
  let ds ← (← asArr (← field (cs! "diagnostics") j)).mapM readDiag
  let es ← (← asArr (← field (cs! "errors") j)).mapM readErr
  return (ds, es)

/-! ## Lines -/

/-- Cut a text at the first occurrence of two characters. -/
def cut2 (x y : Char) : Str → Option (Str × Str)
  | [] => none
  | [_] => none
  | c :: d :: r => if c = x ∧ d = y then some ([], r) else (cut2 x y (d :: r)).map (fun (a, b) => (c :: a, b))

/-- A decimal number. -/
def readNat (s : Str) : Option Nat :=
  if s = [] ∨ s.any (fun c => !c.isDigit) then none
  else some (s.foldl (fun n c => n * 10 + (c.toNat - '0'.toNat)) 0)

/-- What a line of the concise format says. -/
structure Shown where
  path : Str
  row : Nat
  col : Nat
  rule : Str
  text : Str
deriving DecidableEq, Repr

/-- Read `path [row:column] rule text`. -/
def readConcise (l : Str) : Option Shown := do
  let (path, r) ← cut2 ' ' '[' l
  let (row, r) ← splitFirst ':' r
  let (col, r) ← cut2 ']' ' ' r
  let (rule, text) ← splitFirst ' ' r
  return ⟨path, ← readNat row, ← readNat col, rule, text⟩

/-! ## GitHub -/

/-- Replace a code of three characters by a character, from left to right. -/
def decode (a b c new : Char) : Str → Str
  | x :: y :: z :: r =>
    if x = a ∧ y = b ∧ z = c then new :: decode a b c new r else x :: decode a b c new (y :: z :: r)
  | s => s

/-- The runner's `UnescapeData`. -/
def unescapeData (s : Str) : Str := decode '%' '2' '5' '%' (decode '%' '0' 'A' '\n' (decode '%' '0' 'D' '\r' s))

/-- The runner's `UnescapeProperty`. -/
def unescapeProperty (s : Str) : Str :=
  decode '%' '2' '5' '%' (decode '%' '2' 'C' ',' (decode '%' '3' 'A' ':' (decode '%' '0' 'A' '\n' (decode '%' '0' 'D' '\r' s))))

/-- A workflow command: `::name key=value,key=value::data`. -/
structure Command where
  name : Str
  props : List (Str × Str)
  data : Str
deriving DecidableEq, Repr

/-- The GitHub runner (actions/runner, `ActionCommand.TryParseV2`): a line that starts with `::`; up to the next `::` the
name and, behind a blank, the properties, which are separated by commas; then the data. -/
def readCommand (l : Str) : Option Command := do
  let r ← stripPrefix (cs! "::") (trimStart l)
  let (info, data) ← cut2 ':' ':' r
  let (name, props) := (splitFirst ' ' info).getD (info, [])
  let pairs := ((splitOn ',' (trim props)).filter (fun p => p ≠ [])).filterMap (splitFirst '=')
  return ⟨name, pairs.map (fun (k, v) => (k, unescapeProperty v)), unescapeData data⟩

/-- Cut into lines, at `\n` and at `\r`. -/
def lines (s : Str) : List Str := (splitOn '\n' s).flatMap (splitOn '\r')

/-- The commands in a log. -/
def commands (log : Str) : List Command := (lines log).filterMap readCommand

/-- The annotation for a diagnostic at a row and column. -/
def annotation (d : Diagnostic) (row col : Nat) (text : Str) : Command where
  name := cs! "warning"
  props := [(cs! "title", cs! "Jarl (" ++ d.name ++ cs! ")"), (cs! "file", d.filename),
    (cs! "line", Nat.toDigits 10 row), (cs! "col", Nat.toDigits 10 col)]
  data := d.filename ++ cs! ":" ++ Nat.toDigits 10 row ++ cs! ":" ++ Nat.toDigits 10 col ++ cs! " [" ++ d.name ++ cs! "] " ++ text

/-! ## The contents -/

/-- `p` occurs in `s`. -/
def Occurs (p s : Str) : Prop := ∃ a b, s = a ++ p ++ b

/-- The explanation of a diagnostic: what is wrong and, if there is one, the suggestion. -/
def explanation (d : Diagnostic) : Str := d.body ++ (match d.suggestion with | some s => ' ' :: s | none => [])

/-- The text stays on its line. -/
def StaysOnLine (s : Str) : Prop := '\n' ∉ s ∧ '\r' ∉ s

/-- The diagnostic belongs to a rule of jarl. -/
def OfRule (d : Diagnostic) : Prop := ∃ r : Rule, d.name = r.name

/-- A path that is left alone by the runner. -/
def PlainPath (p : Str) : Prop := StaysOnLine p ∧ ',' ∉ p ∧ '%' ∉ p ∧ ¬ Occurs (cs! "::") p

/-- A text without one of the codes `%0D`, `%0A`, `%25`. -/
def NoEscapes (s : Str) : Prop := ¬ Occurs (cs! "%0D") s ∧ ¬ Occurs (cs! "%0A") s ∧ ¬ Occurs (cs! "%25") s

/-- The path shown for a file, in the working directory `cwd`, names this file. -/
def SameFile (cwd p file : Str) : Prop := p = file ∨ file = cwd ++ '/' :: p

/-- `l` shows the diagnostic `d`. -/
def ShowsLine (cwd : Str) (l : Str) (d : Diagnostic) : Prop :=
  ∃ p row col, SameFile cwd p d.filename ∧ d.location = some (row, col) ∧
    readConcise l = some ⟨p, row, col + 1, d.name, explanation d⟩

/-- What a line of the concise report can hold. -/
def Concise (cwd : Str) (d : Diagnostic) : Prop :=
  d.location ≠ none ∧ OfRule d ∧ '\n' ∉ explanation d ∧ '\n' ∉ d.filename ∧ ¬ Occurs (cs! " [") d.filename ∧ d.filename ≠ cwd

/-- What an annotation can hold. -/
def GithubSafe (d : Diagnostic) : Prop :=
  d.location ≠ none ∧ OfRule d ∧ PlainPath d.filename ∧ StaysOnLine (explanation d) ∧ NoEscapes (explanation d)

/-! ## The sections behind the diagnostics -/

/-- The diagnostic holds a replacement, and its rule has fixes of this kind. -/
def fixable (kind : FixStatus) (d : Diagnostic) : Bool :=
  !d.fix.toSkip && decide (d.fix.content ≠ []) && Rule.all.any (fun r => decide (r.name = d.name ∧ r.fixStatus = kind))

/-- How many there are. -/
def howMany (kind : FixStatus) (ds : List Diagnostic) : Nat := (ds.filter (fixable kind)).length

/-- The sentence on `n` errors. -/
def foundSentence (n : Nat) : Str :=
  if n = 1 then cs! "Found 1 error." else cs! "Found " ++ Nat.toDigits 10 n ++ cs! " errors."

/-- The sentence on `s` safe and `u` unsafe fixes; none if there is no fix. -/
def fixSentence : Nat → Nat → List Str
  | 0, 0 => []
  | 0, 1 => [cs! "1 fix is available with the `--fix --unsafe-fixes` option."]
  | 0, u => [Nat.toDigits 10 u ++ cs! " fixes are available with the `--fix --unsafe-fixes` option."]
  | s, 0 => [Nat.toDigits 10 s ++ cs! " fixable with the `--fix` option."]
  | s, 1 => [Nat.toDigits 10 s ++
      cs! " fixable with the `--fix` option (1 hidden fix can be enabled with the `--unsafe-fixes` option)."]
  | s, u => [Nat.toDigits 10 s ++ cs! " fixable with the `--fix` option (" ++ Nat.toDigits 10 u ++
      cs! " hidden fixes can be enabled with the `--unsafe-fixes` option)."]

/-- The title of the summary: it starts with `── Summary ──` and goes on with `─`. -/
def IsHeader (title l : Str) : Prop := ∃ n, l = cs! "── " ++ title ++ cs! " ──" ++ List.replicate n '─'

/-- A name is given in one of the lists of rules on the command line or in one of a jarl.toml. -/
def NamedIn (args : OutArgs) (items : List ResolvedItem) (name : Str) : Prop :=
  (∃ l, (l = args.select ∨ l = args.extendSelect ∨ l = args.ignore) ∧ ∃ s ∈ splitOn ',' l, trim s = name) ∨
  (∃ i ∈ items, ∃ l, (i.linter.select = some l ∨ i.linter.extendSelect = some l ∨ i.linter.ignore = some l) ∧ name ∈ l)

/-- A section: nothing if it has no entries; else an empty line, its title, and the lines of the entries. -/
def IsSection (title : Str) (entries lines : List Str) : Prop :=
  (entries = [] → lines = []) ∧
  (entries ≠ [] → ∃ header, IsHeader title header ∧ lines = [] :: header :: entries.flatMap (splitOn '\n'))

/-- The number of reports of `unused_function` that are not shown: all of them, if the rule is not named and there are more
than the threshold. -/
def NotShown (args : OutArgs) (items : List ResolvedItem) (rs : FileResults) (n : Nat) : Prop :=
  ∃ t, Threshold items t ∧ n = countOf (cs! "unused_function") (found rs) ∧ t < n ∧ ¬ NamedExplicitly args.toCheckArgs items

/-- The first line of the warning about hidden reports. -/
def hiddenSentence (n : Nat) : Str :=
  Nat.toDigits 10 n ++ cs! " `unused_function` diagnostics hidden (likely false positives)."

/-- The warning about a deprecated rule. -/
def deprecatedSentence (r : Rule) (since repl : Str) : Str :=
  cs! "Rule `" ++ r.name ++ cs! "` is deprecated since v" ++ since ++ cs! ". Use `" ++ repl ++ cs! "` instead."

/-- The warnings there should be: for `--assignment`, for hidden reports, for every jarl.toml with the old way to write
`assignment`, for every deprecated rule that is named. -/
def WarningsAre (args : OutArgs) (items : List ResolvedItem) (rs : FileResults) (ws : List Str) : Prop :=
  ∃ a h o d, ws = a ++ h ++ o ++ d ∧
    a = (if args.assignment then [cs! "`--assignment` is deprecated. Use `[lint.assignment]` in jarl.toml instead."] else []) ∧
    (∀ n, NotShown args items rs n → ∃ w, h = [w] ∧ (splitOn '\n' w).head? = some (hiddenSentence n)) ∧
    ((¬ ∃ n, NotShown args items rs n) → h = []) ∧
    o = List.replicate (args.oldSyntax.count true)
      (cs! "Argument `assignment` in `[lint]` is deprecated. Use `[lint.assignment]` with `operator` instead.") ∧
    d.Nodup ∧
    ∀ w, w ∈ d ↔ ∃ r repl, r.deprecation = some repl ∧ NamedIn args items r.name ∧ w = deprecatedSentence r r.deprecatedSince repl

/-- The notes there should be. -/
def NotesAre (args : OutArgs) (ns : List Str) : Prop :=
  ns = (args.timing.map (fun t => cs! "Checked files in: " ++ t)).toList ++
    (args.parentConfig.map (fun p => cs! "Used '" ++ p ++ cs! "'")).toList

/-! ## Statistics -/

/-- Read a line `  12 [*] name` of the table: name, number, star. -/
def readStat (l : Str) : Option (Str × Nat × Bool) := do
  let (n, r) ← cut2 ' ' '[' (trimStart l)
  let (s, name) ← cut2 ']' ' ' r
  let star ← if s = cs! "*" then some true else if s = cs! " " then some false else none
  return (name, ← readNat n, star)

/-- The diagnostics to be reported: all that were found, without those of `unused_function` if these are not shown. -/
def AllShown (args : OutArgs) (items : List ResolvedItem) (rs : FileResults) (ds : List Diagnostic) : Prop :=
  (∀ n, NotShown args items rs n → ds.Perm ((found rs).filter (fun d => d.name ≠ cs! "unused_function"))) ∧
  ((¬ ∃ n, NotShown args items rs n) → ds.Perm (found rs))

/-- The lines of a table say, for every rule with diagnostics, once, how many there are and whether one of them has a safe
fix; the largest numbers come first, and they add up. -/
def TableOf (ds : List Diagnostic) (ls : List Str) : Prop :=
  ∃ es : List (Str × Nat × Bool), ls.map readStat = es.map some ∧ (es.map (·.1)).Nodup ∧
    (∀ k, k ∈ es.map (·.1) ↔ ∃ d ∈ ds, d.name = k) ∧
    (∀ e ∈ es, e.2.1 = countOf e.1 ds ∧ (e.2.2 = true ↔ ∃ d ∈ ds, d.name = e.1 ∧ fixable .safe d = true)) ∧
    es.Pairwise (fun a b => b.2.1 ≤ a.2.1) ∧ (es.map (·.2.1)).sum = ds.length

end Jarl.Spec
