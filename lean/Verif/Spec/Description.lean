import Verif.Text
/-!
# Specification for C26: the fields of a DESCRIPTION file
-/
namespace Jarl.Spec

/-- A field as written in a DESCRIPTION file: `key: head` followed by indented continuation lines. -/
structure DcfField where
  key : Str
  head : Str
  conts : List Str

/-- No line terminator inside. -/
def OneLine (s : Str) : Prop := '\n' ∉ s ∧ '\r' ∉ s

structure DcfField.WF (f : DcfField) : Prop where
  key_line : OneLine f.key
  key_start : ∃ c k, f.key = c :: k ∧ isWs c = false
  key_colon : ':' ∉ f.key
  head_line : OneLine f.head
  conts_line : ∀ l ∈ f.conts, OneLine l
  conts_indented : ∀ l ∈ f.conts, ∃ c r, l = c :: r ∧ isWs c = true

/-- The lines of a field. -/
def DcfField.lines (f : DcfField) : List Str := (f.key ++ ':' :: f.head) :: f.conts

/-- The two line ends. -/
def LineEnd (eol : Str) : Prop := eol = ['\n'] ∨ eol = ['\r', '\n']

/-- The text of a DESCRIPTION file with this line end. -/
def renderDcf (eol : Str) (fs : List DcfField) : Str :=
  (fs.flatMap DcfField.lines).flatMap (fun l => l ++ eol)

/-- The unfolded value: the trimmed lines separated by spaces. -/
def DcfField.value (f : DcfField) : Str :=
  trim ((f.head :: f.conts).flatMap (fun l => trim l ++ [' ']))

/-- `dep` is an R requirement for version `v`: `R ... (>= v) ...`. -/
def RRequirement (dep v : Str) : Prop :=
  ∃ a w b, dep = a ++ '(' :: '>' :: '=' :: (w ++ ')' :: b) ∧ '(' ∉ a ∧ ')' ∉ a ∧ ')' ∉ w ∧ '>' ∉ w ∧
    v = trim w ∧ v ≠ []

/-- The entries `deps` are R requirements for the versions `vs`, one by one. -/
inductive Requirements : List Str → List Str → Prop
  | nil : Requirements [] []
  | cons {dep v deps vs} : RRequirement dep v → Requirements deps vs → Requirements (dep :: deps) (v :: vs)

/-- The entries of a Depends value that concern R itself. -/
def rEntries (value : Str) : List Str :=
  ((splitOn ',' value).map trim).filter (fun e => startsWith (cs! "R ") e)

end Jarl.Spec
