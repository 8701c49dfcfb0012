import Verif.Text
/-!
# Sprintf: reading the format string of `sprintf` (lints/base/sprintf/sprintf.rs)
-/
namespace Jarl

/-- `SPRINTF_TYPE_CHARS` (sprintf.rs 151-153). -/
def typeChars : Str := ['d', 'i', 'o', 'x', 'X', 'f', 'e', 'E', 'g', 'G', 'a', 'A', 's']

/-- The flags (sprintf.rs 231-240). -/
def isFlag (c : Char) : Bool := c = '-' || c = '+' || c = ' ' || c = '#' || c = '0'

/-- `parse::<usize>()` on a text of ASCII digits: the number, if there is one and it is below 2^64. -/
def parseUsize (ds : Str) : Option Nat :=
  let v := ds.foldl (fun n c => 10 * n + (c.toNat - '0'.toNat)) 0
  if ds = [] ∨ 2 ^ 64 ≤ v then none else some v

/-- The position, `1$` (sprintf.rs 214-228): the position and what is left. If the number is too large or missing, the `$` is left. -/
def readPosition (s : Str) : Option Nat × Str :=
  match s.dropWhile Char.isDigit with
  | '$' :: r => match parseUsize (s.takeWhile Char.isDigit) with
    | some v => (some v, r)
    | none => (none, '$' :: r)
  | _ => (none, s)

/-- `*` or digits (sprintf.rs 243-250): how many arguments it takes, and what is left. -/
def readWidth : Str → Nat × Str
  | '*' :: r => (1, r)
  | s => (0, s.dropWhile Char.isDigit)

/-- The precision (sprintf.rs 253-263). -/
def readPrecision : Str → Nat × Str
  | '.' :: r => readWidth r
  | s => (0, s)

/-- What follows a `%`: another `%`, nothing valid, or a conversion with its position and the number of arguments it takes. -/
inductive FmtItem
  | percent
  | bad
  | conv (pos : Option Nat) (args : Nat)
deriving DecidableEq, Repr

/-- What follows a `%` (sprintf.rs 192-273), and what is left. -/
def readItem (s : Str) : FmtItem × Str :=
  match s.dropWhile isWs with
  | [] => (.bad, [])
  | '%' :: r => (.percent, r)
  | t =>
    let (p, t) := readPosition t
    let (w, t) := readWidth (t.dropWhile isFlag)
    let (q, t) := readPrecision t
    match t with
    | c :: r => if c ∈ typeChars then (.conv p (1 + w + q), r) else (.bad, c :: r)
    | [] => (.bad, [])

/-- `SprintfParseResult` (sprintf.rs 157-172). Simplification: of the invalid positions only the number is kept. -/
structure Fmt where
  convs : Nat := 0
  args : List Nat := []
  invalid : Nat := 0
  positional : Bool := false
  maxPos : Nat := 0
  out : Str := []
deriving DecidableEq, Repr

/-- One more item. -/
def Fmt.add (m : Fmt) : FmtItem → Fmt
  | .percent => { m with out := m.out ++ ['%'] }
  | .bad => { m with invalid := m.invalid + 1 }
  | .conv p n => { m with convs := m.convs + 1, args := m.args ++ [n], positional := m.positional || p.isSome, maxPos := max m.maxPos (p.getD 0) }

/-- The loop (sprintf.rs 188-278); the first argument bounds the number of rounds. A position before something invalid counts in the code: it does not here (the result is
then only asked whether something is invalid). -/
def readFormat : Nat → Str → Fmt → Fmt
  | 0, _, m => m
  | _, [], m => m
  | n + 1, '%' :: s, m => let (i, r) := readItem s; readFormat n r (m.add i)
  | n + 1, c :: s, m => readFormat n s { m with out := m.out ++ [c] }

/-- `parse_sprintf_format` (sprintf.rs 179-288). -/
def parseFormat (s : Str) : Fmt := readFormat s.length s {}

/-- The number of arguments the format asks for (sprintf.rs 124-128). -/
def Fmt.expected (m : Fmt) : Nat := if m.positional then m.maxPos else m.args.sum

/-- What is reported about a format with this number of arguments: it is invalid; it is a constant (and which); the numbers differ. sprintf.rs 75-147. -/
inductive FmtReport
  | invalid
  | useless (text : Str)
  | mismatch (expected given : Nat)
deriving DecidableEq, Repr

/-- sprintf.rs 75-147. -/
def checkFormat (s : Str) (given : Nat) : Option FmtReport :=
  let m := parseFormat s
  if m.invalid ≠ 0 then some .invalid
  else if m.convs = 0 then some (.useless m.out)
  else if m.expected ≠ given then some (.mismatch m.expected given)
  else none

end Jarl
