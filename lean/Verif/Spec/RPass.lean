import Verif.Spec.RRanges
import Verif.Spec.RComments
/-!
# Specification: one pass of `--fix` with the modelled rules (C80)
-/
namespace Jarl.Spec
open Jarl

/-- An enabled rule whose fixes the configuration lets through proposes this for code that it looks at; it is not skipped. -/
def Offers (cfg : Config) (p : Node) (r : Rule) (ed : Edit) : Prop :=
  r ∈ cfg.rulesToApply ∧ FixAllowed cfg r ∧ ∃ q ∈ fixRules cfg.assignment.op, q.1 = r.name ∧ ∃ z, LookedAt p z ∧ q.2 z = some ed ∧ ed.skip = false

/-- What is assumed about the fixes of this text: they are of rules that keep the structure (C51), comments inside the code are seen by the rule, and their texts say what they should, with blanks
where they are needed. -/
structure FixesReady (W : Wording) (cfg : Config) (src : Src) (p : Node) : Prop where
  keeping : ∀ r ∈ cfg.rulesToApply, FixAllowed cfg r → ∀ q ∈ fixRules cfg.assignment.op, q.1 = r.name → q ∈ keepingRules
  guarded : ∀ r ed, Offers cfg p r ed → Guarded r.name ed ∨ ¬ commentInside ed
  worded : ∀ r ed, Offers cfg p r ed → ∃ cs, Spells (W.content src r.name ed) ed.content cs ∧ Airy none cs

/-- The fixes of the diagnostics, without the placeholders. -/
def realFixes (ds : List Diagnostic) : List Fix := (ds.map (·.fix)).filter (fun f => decide (f ≠ Fix.empty))

end Jarl.Spec
