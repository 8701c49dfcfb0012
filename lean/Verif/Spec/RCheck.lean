import Verif.RCheck
import Verif.Spec.RText
import Verif.Spec.RVisit
import Verif.Spec.RFound
import Verif.Spec.RReports
import Verif.Spec.Check
import Verif.Spec.Suppression
/-!
# Specification: what is reported about the code of a file
-/
namespace Jarl.Spec
open Jarl

/-- The lint rules are the modelled ones: whenever R reads the text as a program, checking it is running the rules on that program. -/
def RunsRules (W : Wording) (L : Lints) : Prop :=
  ∀ inp text src p, ReadsAs text src p → L.expressions inp text = checkExpressions W inp src p

/-- The range is where the code `code` is in the text, which is the code behind the tokens `start`: without what is in front of its first token, up to the end of its last. -/
def TokensAt (text : Str) (src : Src) (start code : List Tok) (r : Range) : Prop :=
  ∃ before q inside after, src.pieces = before ++ (q :: inside) ++ after ∧ piecesToks before = start ∧ piecesToks (q :: inside) = code ∧
    text = (piecesText before ++ q.gap) ++ (q.k.text ++ piecesText inside) ++ (piecesText after ++ src.tail) ∧
    r = ⟨blen (piecesText before ++ q.gap), blen (piecesText before ++ q.gap) + blen (q.k.text ++ piecesText inside)⟩

/-- The range is where the code of the place is. -/
def RangeOf (text : Str) (src : Src) (z : Zip) (r : Range) : Prop := TokensAt text src (beforeToks z.fs) (toks z.e) r

/-- The rules about expressions: not those about comments, about the functions of a package, or about unreachable code. -/
def CodeRule (r : Rule) : Prop :=
  r ∉ [Rule.blanketSuppression, .invalidChunkSuppression, .unexplainedSuppression, .misplacedFileSuppression, .misplacedSuppression, .misnamedSuppression, .unmatchedRangeSuppression,
    .outdatedSuppression, .duplicatedFunctionDefinition, .unusedFunction, .unreachableCode]

/-- A suppression comment hides the diagnostics of the rule with this range (C08). -/
def HiddenAt (root : SynNode) (text : Str) (r : Rule) (rg : Range) : Prop :=
  FileSuppressed root r ∨ ChunkSuppressed root r ∨ RegionSuppressed root text r rg ∨ NodeSuppressed root text r rg

/-- What the rules without fix are about, as documented (for download_file, duplicated_arguments and if_always_true see C55). -/
inductive About (o : ROpts) : Str → Zip → Prop
  | browser {z f g args g2} : z.e = .call f g .par args g2 → fnName f = cs! "browser" → About o (cs! "browser") z
  | undesirable_function {z f g args g2} : z.e = .call f g .par args g2 → fnName f ∈ o.undesirable → About o (cs! "undesirable_function") z
  | internal_function {z g pkg n} : z.e = .atom g (.ns pkg true) n → About o (cs! "internal_function") z
  | empty_assignment {z l g op b b2} : z.e = .bin l g op (.braces b .snil b2) → op = .eq ∨ op = .assign → About o (cs! "empty_assignment") z
  | empty_right {z b b2 g r} : z.e = .bin (.braces b .snil b2) g .rassign r → About o (cs! "empty_assignment") z
  | vector_logic {z l g op r} : z.e = .bin l g op r → op = .and ∨ op = .or → Directly IfCond z.fs ∨ Directly WhileCond z.fs →
      (∀ x, x = l ∨ x = r → isAtom .str x = false ∧ ∀ f ∈ [cs! "as.raw", cs! "as.octmode", cs! "as.hexmode"], calls f x = false) → About o (cs! "vector_logic") z
  | implicit_assignment {z} : ArrowAssign z.e → ¬ (InArg z.fs ∧ ∃ n ∈ o.implicitSkipped, InCallOf n z) → InIf z.fs ∨ InWhile z.fs ∨ InFor z.fs ∨ InArg z.fs →
      About o (cs! "implicit_assignment") z
  | for_loop_dup_index {z g g2 gv v gi q g3 b f} : z.e = .forE g g2 gv v gi q g3 b → f ∈ z.fs → ForSeq v f ∨ ForBody v f → About o (cs! "for_loop_dup_index") z

/-- The rules of `About`. -/
def aboutRules : List Str :=
  [cs! "browser", cs! "undesirable_function", cs! "internal_function", cs! "empty_assignment", cs! "vector_logic", cs! "implicit_assignment", cs! "for_loop_dup_index"]

/-- The range of a report: the code, but for a loop only from the variable to the end of what it runs over. -/
def RangeAbout (text : Str) (src : Src) (n : Str) (z : Zip) (rg : Range) : Prop :=
  if n = cs! "for_loop_dup_index" then
    ∃ g g2 gv v gi q g3 b, z.e = .forE g g2 gv v gi q g3 b ∧
      TokensAt text src (beforeToks z.fs ++ [⟨g, .for⟩, ⟨g2, .open .par⟩]) (⟨gv, .atom .id v⟩ :: ⟨gi, .in⟩ :: toks q) rg
  else RangeOf text src z rg

/-- The range of a report of the other rules: the code, but for repeat only `while (..)`. -/
def RangeFound (text : Str) (src : Src) (n : Str) (z : Zip) (rg : Range) : Prop :=
  if n = cs! "repeat" then
    ∃ g g2 c g3 b, z.e = .whileE g g2 c g3 b ∧ TokensAt text src (beforeToks z.fs) (⟨g, .while⟩ :: ⟨g2, .open .par⟩ :: toks c ++ [⟨g3, .close .par⟩]) rg
  else RangeOf text src z rg

/-- How a failure of a rule looks from outside: an error for the file, or a crash. -/
def failSeen : RuleFail → CheckErr
  | .error => .lint
  | .panic => .panic

end Jarl.Spec
