import Verif.Spec.Package
/-!
# Specification: what a NAMESPACE file exports, as jarl reads it
-/
namespace Jarl.Spec
open Jarl

/-- `t` is `s` without the characters in `P` at both ends. -/
def Stripped (P : Char → Prop) (s t : Str) : Prop :=
  ∃ a b, s = a ++ t ++ b ∧ (∀ c ∈ a, P c) ∧ (∀ c ∈ b, P c) ∧ (∀ c ∈ t.head?, ¬ P c) ∧ (∀ c ∈ t.getLast?, ¬ P c)

/-- `t` is `s` without surrounding white space, then without surrounding double quotes, then without surrounding single quotes. -/
def Unquoted (s t : Str) : Prop :=
  ∃ u v, Stripped (fun c => isWs c = true) s u ∧ Stripped (· = '"') u v ∧ Stripped (· = '\'') v t

/-- The line contains the call `kw(inner)`: the first occurrence of `kw(` counts, which must not be the end of a longer word, and
the last closing parenthesis of the line. -/
def NsCall (line kw inner : Str) : Prop :=
  ∃ before after, line = before ++ (kw ++ ['(']) ++ (inner ++ ')' :: after) ∧ ')' ∉ after ∧
    (∀ c ∈ before.getLast?, ¬ (c.isAlphanum = true ∨ c = '_')) ∧
    ∀ g r, line = g ++ (kw ++ ['(']) ++ r → before.length ≤ g.length

/-- The directives, in the order in which they are looked for. -/
def NsKeywords : List Str := [cs! "export", cs! "exportPattern", cs! "S3method", cs! "exportMethods", cs! "exportClasses"]

/-- The call that counts for a line. -/
def NsDirective (line kw inner : Str) : Prop :=
  ∃ a b, NsKeywords = a ++ kw :: b ∧ NsCall line kw inner ∧ ∀ kw' ∈ a, ∀ i, ¬ NsCall line kw' i

/-- `item` is one of the comma-separated parts of `inner`. -/
def ListItem (inner item : Str) : Prop :=
  ∃ a b, inner = a ++ item ++ b ∧ ',' ∉ item ∧ (a = [] ∨ a.getLast? = some ',') ∧ (b = [] ∨ b.head? = some ',')

/-- `g` is what follows the last `::` of `s` (all of `s` if there is none). -/
def AfterColons (s g : Str) : Prop :=
  (∃ x, s = x ++ [':', ':'] ++ g ∧ ∀ y z, s = y ++ [':', ':'] ++ z → g.length ≤ z.length) ∨
  (s = g ∧ ∀ y z, s ≠ y ++ [':', ':'] ++ z)

/-- The line exports the function `name`. `re` compiles regular expressions. -/
inductive LineExports (re : Str → Option (Str → Bool)) (line name : Str) : Prop
  | names (kw inner item : Str) (hkw : kw = cs! "export" ∨ kw = cs! "exportMethods" ∨ kw = cs! "exportClasses")
      (hd : NsDirective line kw inner) (hi : ListItem inner item) (hq : Unquoted item name)
  | pattern (inner p : Str) (m : Str → Bool) (hd : NsDirective line (cs! "exportPattern") inner) (hq : Unquoted inner p)
      (hre : re p = some m) (hm : m name = true)
  | method (g c gq cq gen : Str) (hg : ',' ∉ g) (hc : ',' ∉ c) (hd : NsDirective line (cs! "S3method") (g ++ ',' :: c))
      (hgq : Unquoted g gq) (hcq : Unquoted c cq) (hgen : AfterColons gq gen) (hn : name = gen ++ '.' :: cq)
  | method3 (g c f rest : Str) (hg : ',' ∉ g) (hc : ',' ∉ c) (hf : ',' ∉ f) (hrest : rest = [] ∨ rest.head? = some ',')
      (hd : NsDirective line (cs! "S3method") (g ++ ',' :: (c ++ ',' :: (f ++ rest)))) (hq : Unquoted f name)

/-- The line is a comment. -/
def NsComment (line : Str) : Prop := ∃ w r, line = w ++ '#' :: r ∧ ∀ c ∈ w, isWs c = true

/-- The NAMESPACE file exports `name`. -/
def NsExports (re : Str → Option (Str → Bool)) (content name : Str) : Prop :=
  ∃ pre l post, IsLine content pre l post ∧ ¬ NsComment l ∧ LineExports re l name

end Jarl.Spec
