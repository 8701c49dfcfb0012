import Verif.Text
/-!
# Json: the text `serde_json::to_writer_pretty` writes

`serde_json` is a dependency, not part of the repository; it is modelled because `JsonEmitter`
(crates/jarl/src/output_format.rs:232) calls it and nothing else decides what a reader of `--output-format json` gets.
The model follows its `PrettyFormatter` (two blanks per level) and its escaping of strings.
-/
namespace Jarl

/-- The values jarl serialises. Numbers are `usize`/`u32`. -/
inductive Json
  | null
  | bool (b : Bool)
  | num (n : Nat)
  | str (s : Str)
  | arr (l : List Json)
  | obj (l : List (Str × Json))

/-- The decimal digits of a number: Rust's `Display` for unsigned integers. -/
def digits (n : Nat) : Str := Nat.toDigits 10 n

/-- A lower-case hexadecimal digit. -/
def hexDigit (n : Nat) : Char := Nat.digitChar n

/-- serde_json `format_escaped_str_contents`, one character (output_format.rs:232). -/
def escChar (c : Char) : Str :=
  if c = '"' then ['\\', '"']
  else if c = '\\' then ['\\', '\\']
  else if c = Char.ofNat 8 then ['\\', 'b']
  else if c = '\t' then ['\\', 't']
  else if c = '\n' then ['\\', 'n']
  else if c = Char.ofNat 12 then ['\\', 'f']
  else if c = '\r' then ['\\', 'r']
  else if c.toNat < 32 then ['\\', 'u', '0', '0', hexDigit (c.toNat / 16), hexDigit (c.toNat % 16)]
  else [c]

/-- serde_json `serialize_str` (output_format.rs:232). -/
def jsonStr (s : Str) : Str := ['"'] ++ s.flatMap escChar ++ ['"']

/-- serde_json `PrettyFormatter`: the start of a line at a level. -/
def jsonLine (level : Nat) : Str := '\n' :: List.replicate (2 * level) ' '

mutual
/-- serde_json `to_writer_pretty` (output_format.rs:232), at a level of nesting. -/
def Json.pretty (level : Nat) : Json → Str
  | .null => cs! "null"
  | .bool b => if b then cs! "true" else cs! "false"
  | .num n => digits n
  | .str s => jsonStr s
  | .arr [] => cs! "[]"
  | .arr (x :: xs) =>
    ['['] ++ jsonLine (level + 1) ++ x.pretty (level + 1) ++ prettyElems (level + 1) xs ++ jsonLine level ++ [']']
  | .obj [] => cs! "{}"
  | .obj ((k, x) :: xs) =>
    ['{'] ++ jsonLine (level + 1) ++ jsonStr k ++ cs! ": " ++ x.pretty (level + 1) ++ prettyFields (level + 1) xs ++
      jsonLine level ++ ['}']

/-- the elements of an array behind the first one -/
def prettyElems (level : Nat) : List Json → Str
  | [] => []
  | x :: xs => [','] ++ jsonLine level ++ x.pretty level ++ prettyElems level xs

/-- the fields of an object behind the first one -/
def prettyFields (level : Nat) : List (Str × Json) → Str
  | [] => []
  | (k, x) :: xs => [','] ++ jsonLine level ++ jsonStr k ++ cs! ": " ++ x.pretty level ++ prettyFields level xs
end

end Jarl
