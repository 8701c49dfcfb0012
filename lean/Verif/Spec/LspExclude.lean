import Verif.LspExclude
/-!
# Specification of the file patterns of the language server
-/
namespace Jarl.Spec
open Jarl

/-- The usual meaning of a `*` pattern: `*` stands for any text, every other character for itself. -/
inductive Glob : Str → Str → Prop
  | nil : Glob [] []
  | lit {c p s} : c ≠ '*' → Glob p s → Glob (c :: p) (c :: s)
  | star {p s} (g : Str) : Glob p s → Glob ('*' :: p) (g ++ s)

def sep (c : Char) : Prop := c = '/' ∨ c = '\\'

/-- `name` is the file name of `path`: what follows the last separator. -/
def FileName (path name : Str) : Prop :=
  (∀ c ∈ name, ¬ sep c) ∧ (path = name ∨ ∃ dir c, sep c ∧ path = dir ++ c :: name)

/-- `d` is a component of `path`: a piece between two separators (or ends) that contains no separator. -/
def PathComponent (path d : Str) : Prop :=
  (∀ c ∈ d, ¬ sep c) ∧ ∃ a b, path = a ++ d ++ b ∧ (a = [] ∨ ∃ a' c, sep c ∧ a = a' ++ [c]) ∧
    (b = [] ∨ ∃ c b', sep c ∧ b = c :: b')

/-- The documented meaning of a pattern without inner slash: `dir/` is any file below a directory of
that name, a pattern with `*` is matched with the file name, any other pattern is the file name. -/
inductive PatternMatches : Str → Str → Prop
  | dir {path d} : '/' ∉ d → PathComponent path d → PatternMatches path (d ++ ['/'])
  | glob {path pat name} : '*' ∈ pat → '/' ∉ pat → FileName path name → Glob pat name → PatternMatches path pat
  | name {path name} : '*' ∉ name → '/' ∉ name → FileName path name → PatternMatches path name

end Jarl.Spec
