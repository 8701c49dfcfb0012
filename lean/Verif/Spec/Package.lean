import Verif.Package
/-!
# Specification: functions of a package
-/
namespace Jarl.Spec
open Jarl

/-- What is assumed of `char::is_alphanumeric`: on ASCII it is the usual notion, and white space is not alphanumeric. -/
structure Alnum (alnum : Char → Bool) : Prop where
  ascii : ∀ c : Char, c.val < 128 → alnum c = c.isAlphanum
  ws : ∀ c, isWs c = true → alnum c = false

/-- A character of a name. -/
def NameChar (alnum : Char → Bool) (c : Char) : Prop := alnum c = true ∨ c = '.' ∨ c = '_'

/-- The right-hand side is a function: the keyword `function` or a lambda. -/
inductive FunctionStart (alnum : Char → Bool) : Str → Prop
  | keyword (rest) (h : ∀ c ∈ rest.head?, ¬ NameChar alnum c) : FunctionStart alnum (cs! "function" ++ rest)
  | lambda (rest) : FunctionStart alnum ('\\' :: rest)

/-- The line `l` is `name <- function…` (or `=`, or a lambda), not indented. -/
inductive DefLine (alnum : Char → Bool) : Str → Str → Prop
  | mk (name w1 op w2 rhs : Str) (hne : name ≠ []) (hn : ∀ c ∈ name, NameChar alnum c)
      (h1 : ∀ c ∈ w1, isWs c = true) (hop : op = ['<', '-'] ∨ op = ['=']) (h2 : ∀ c ∈ w2, isWs c = true)
      (hr : FunctionStart alnum rhs) : DefLine alnum (name ++ w1 ++ op ++ w2 ++ rhs) name

/-- `l` is the line of `content` between `pre` and `post` (without its newline). -/
structure IsLine (content pre l post : Str) : Prop where
  eq : content = pre ++ l ++ post
  one : '\n' ∉ l
  before : pre = [] ∨ pre.getLast? = some '\n'
  after : post = [] ∨ post.head? = some '\n'

/-- In `content`, the line between `pre` and `post` defines the function `name`. -/
def Defines (alnum : Char → Bool) (content pre name : Str) : Prop :=
  ∃ l post, IsLine content pre l post ∧ DefLine alnum l name

/-- `l` lists the elements of a set, in some order. -/
def Enumerates {α} (l : List α) (P : α → Prop) : Prop := l.Nodup ∧ ∀ x, x ∈ l ↔ P x

/-- `le` is a total order. -/
structure TotalOrder {α} (le : α → α → Bool) : Prop where
  total : ∀ a b, le a b = true ∨ le b a = true
  trans : ∀ a b c, le a b = true → le b c = true → le a c = true
  antisymm : ∀ a b, le a b = true → le b a = true → a = b

/-- The extension of `q` is `e`: the last component of the path is `….e`, where something comes before the last dot. -/
def HasExt (e : Str) (q : DPath) : Prop := ∃ d stem, q = d ++ [stem ++ '.' :: e] ∧ stem ≠ [] ∧ '.' ∉ e

/-- `q` is an R file. -/
def RFile (q : DPath) : Prop := HasExt (cs! "R") q ∨ HasExt (cs! "r") q

/-- `q` is a C or C++ file. -/
def CFile (q : DPath) : Prop := HasExt (cs! "c") q ∨ HasExt (cs! "cpp") q ∨ HasExt (cs! "h") q ∨ HasExt (cs! "hpp") q

/-- `p` is an R file directly in the R directory of a package. -/
def PackageFile (fs : PkgFs) (p : DPath) : Prop :=
  RFile p ∧ ∃ root file, p = root ++ [cs! "R", file] ∧ fs.description root = true

/-- What is assumed of the files: a directory is listed without repetition, what is listed lies below it, files are given once,
and no package lies inside the R directory of another package. -/
structure PkgWorld (fs : PkgFs) (paths : List DPath) : Prop where
  paths_nodup : paths.Nodup
  below_nodup : ∀ d, (fs.below d).Nodup
  below_under : ∀ d q, q ∈ fs.below d → d <+: q ∧ d ≠ q
  apart : ∀ p ∈ paths, ∀ q ∈ paths, PackageFile fs p → PackageFile fs q → p.dropLast <+: q.dropLast →
    p.dropLast = q.dropLast

/-- `q` is an R file directly in the directory `d`, with text `content`. -/
structure RFileIn (fs : PkgFs) (paths : List DPath) (d q : DPath) (content : Str) : Prop where
  parent : q.dropLast = d
  ext : RFile q
  read : fs.read q = some content
  found : q ∈ paths ∨ q ∈ fs.below d

/-- The definition in file `q` at offset `s` comes before that in `p` at `t`: files in alphabetical order. -/
def Before (le : DPath → DPath → Bool) (q : DPath) (s : Nat) (p : DPath) (t : Nat) : Prop :=
  (q = p ∧ s < t) ∨ (q ≠ p ∧ le q p = true)

/-- The file `q` of directory `d` defines `name` in the line behind `pre`. -/
def DefinedIn (alnum : Char → Bool) (fs : PkgFs) (paths : List DPath) (d q : DPath) (pre name : Str) : Prop :=
  ∃ content, RFileIn fs paths d q content ∧ Defines alnum content pre name

/-- The first definition of `name` in directory `d`. -/
def FirstIn (alnum : Char → Bool) (le : DPath → DPath → Bool) (fs : PkgFs) (paths : List DPath) (d : DPath) (name : Str)
    (q : DPath) (pre : Str) : Prop :=
  DefinedIn alnum fs paths d q pre name ∧
  ∀ q' pre', DefinedIn alnum fs paths d q' pre' name → ¬ Before le q' (blen pre') q (blen pre)

/-! ## Uses -/

/-- A character of an ASCII identifier. -/
def SymChar (c : Char) : Prop := c.isAlphanum = true ∨ c = '.' ∨ c = '_'

/-- An ASCII identifier: letters, digits, dots and underscores, not starting with a digit. -/
def AsciiName (name : Str) : Prop := (∃ c cs, name = c :: cs ∧ c.isDigit = false) ∧ ∀ c ∈ name, SymChar c

/-- No identifier extends over the end of `pre` (digits directly before a word do not belong to it). -/
def LeftOk (pre : Str) : Prop := ∃ a ds, pre = a ++ ds ∧ (∀ c ∈ ds, c.isDigit = true) ∧ ∀ c ∈ a.getLast?, ¬ SymChar c

/-- `name` occurs in `line` as a whole word, behind `pre`. -/
structure WordAt (line pre name post : Str) : Prop where
  eq : line = pre ++ name ++ post
  left : LeftOk pre
  right : ∀ c ∈ post.head?, ¬ SymChar c

/-- The line is not a comment (roxygen comments `#'` count as code). -/
def CodeLine (l : Str) : Prop := ∀ w r, l = w ++ '#' :: r → (∀ c ∈ w, isWs c = true) → r.head? = some '\''

/-- `name` occurs as a word in a code line `l` of `content`, behind `pre`. -/
def WordIn (content l pre name : Str) : Prop :=
  ∃ a b post, IsLine content a l b ∧ CodeLine l ∧ WordAt l pre name post

/-- In `content`, `name` only occurs as the name of its definitions. -/
def OnlyDefined (alnum : Char → Bool) (content name : Str) : Prop :=
  ∀ l pre, WordIn content l pre name → pre = [] ∧ DefLine alnum l name

/-- `name` occurs in `content`. -/
def Mentioned (content name : Str) : Prop := ∃ l pre, WordIn content l pre name

end Jarl.Spec
