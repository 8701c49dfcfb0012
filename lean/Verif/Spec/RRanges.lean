import Verif.Spec.RCheck
/-!
# Specification: the ranges of the reports of all rules (C80)
-/
namespace Jarl.Spec
open Jarl

/-- A loop from the variable to the end of what it runs over. -/
def LoopRange (text : Str) (src : Src) (z : Zip) (rg : Range) : Prop :=
  ∃ g g2 gv v gi q g3 b, z.e = .forE g g2 gv v gi q g3 b ∧
    TokensAt text src (beforeToks z.fs ++ [⟨g, .for⟩, ⟨g2, .open .par⟩]) (⟨gv, .atom .id v⟩ :: ⟨gi, .in⟩ :: toks q) rg

/-- The range of a report of the rules without fix: the code; for a loop only from the variable to the end of what it runs over; for if_always_true the condition. -/
def RangeSaid (text : Str) (src : Src) (n : Str) (z : Zip) (rg : Range) : Prop :=
  if n = cs! "for_loop_index" ∨ n = cs! "for_loop_dup_index" then LoopRange text src z rg
  else if n = cs! "if_always_true" then
    ∃ g g2 c g3 t, z.e = .ifE g g2 c g3 t ∧ TokensAt text src (beforeToks z.fs ++ [⟨g, .if⟩, ⟨g2, .open .par⟩]) (toks c) rg
  else RangeOf text src z rg

/-- The range of a report with a fix: the code that is replaced; for repeat only `while (..)`; for assignment the target with the operator (`x =`, `-> x`). -/
def RangeFixed (text : Str) (src : Src) (n : Str) (z : Zip) (rg : Range) : Prop :=
  if n = cs! "repeat" then
    ∃ g g2 c g3 b, z.e = .whileE g g2 c g3 b ∧ TokensAt text src (beforeToks z.fs) (⟨g, .while⟩ :: ⟨g2, .open .par⟩ :: toks c ++ [⟨g3, .close .par⟩]) rg
  else if n = cs! "assignment" then
    ∃ l g o r, z.e = .bin l g o r ∧ if o = .rassign then TokensAt text src (beforeToks z.fs ++ toks l) (⟨g, .op o⟩ :: toks r) rg
      else TokensAt text src (beforeToks z.fs) (toks l ++ [⟨g, .op o⟩]) rg
  else RangeOf text src z rg

/-- The configuration lets fixes of the rule through. -/
def FixAllowed (cfg : Config) (r : Rule) : Prop :=
  r.fixStatus ≠ .none ∧ r.name ∉ cfg.unfixable ∧ ∀ l, cfg.fixable = some l → r.name ∈ l

end Jarl.Spec
