import Verif.Spec.RAround
import Verif.Spec.RText
import Verif.LintFix
/-!
# Specification: many fixes in larger code

What code computes after several passes, each with several fixes at once, in the code and elsewhere.
-/
namespace Jarl.Spec
open Jarl

/-- The code at the path. -/
def CodeAt (pl : List Nat) (p e : Node) : Prop := ∃ fs, p = plug fs e ∧ path fs = pl

/-- A fix of one of the rules, under their conditions: on the code, and on what it computes. -/
def ValueFix (rules : List (Str × (Zip → Option Edit) × (Zip → Prop) × (Env → Node → Prop))) (E : Env) (p : Node) (ed : Edit) : Prop :=
  ∃ q ∈ rules, ∃ z, z.prog = p ∧ q.2.1 z = some ed ∧ innerComments (toks ed.z.e) = false ∧ piped ed.z.fs = false ∧ q.2.2.1 ed.z ∧ q.2.2.2 E (core ed.z.e)

/-- The fix is in the code at the path, or is that code, with only described code in between. -/
def FixInside (pl : List Nat) (ed : Edit) : Prop := ∃ inner outer, ed.z.fs = inner ++ outer ∧ path outer = pl ∧ describedPath false inner = true

/-- The fix is neither in the code at the path nor around it. -/
def FixElsewhere (pl : List Nat) (ed : Edit) : Prop := ¬ pl <+: path ed.z.fs ∧ ¬ path ed.z.fs <+: pl

/-- Any number of passes: in each, fixes are carried out at once. Those in the code at the path are of the rules, under their conditions; the fixes elsewhere are any that keep the structure. -/
inductive ValuePasses (rules : List (Str × (Zip → Option Edit) × (Zip → Prop) × (Env → Node → Prop))) (E : Env) (pl : List Nat) : List Tok → List Tok → Prop
  | none (ts) : ValuePasses rules E pl ts ts
  | more {a b c p} {eds : List Edit} : ValuePasses rules E pl a b → Parses b p →
      (∀ ed ∈ eds, GoodFix p ed ∧ ((ValueFix rules E p ed ∧ FixInside pl ed) ∨ FixElsewhere pl ed)) → Patched 0 b (eds.map cutOf) c → ValuePasses rules E pl a c

/-! ## Files -/

/-- The texts that fixing the file goes through, whichever writes fail: `a` at first, then what the fixes for the text before make of it. -/
inductive FixReached (L : Lints) (pkg : PackageAnalysis) (cfg : Config) (path : Str) (a : Str) : Str → Prop
  | here : FixReached L pkg cfg path a a
  | next {b c ds skipped} : FixReached L pkg cfg path a b → getChecks L pkg cfg path b = .ok ds → applyFixes (ds.map (·.fix)) b = some (skipped, c) → FixReached L pkg cfg path a c

/-- The diagnostics of a text carry such fixes, at different places or apart (`Apart`). -/
def ReportsValueFixes (rules : List (Str × (Zip → Option Edit) × (Zip → Prop) × (Env → Node → Prop))) (E : Env) (pl : List Nat) (text : Str) (ds : List Diagnostic) : Prop :=
  ∀ src p, ReadsAs text src p → ∃ (eds : List (Edit × Str)) (isReal : Fix → Bool),
    (∀ e ∈ eds, (GoodFix p e.1 ∧ ∃ cs, Spells e.2 e.1.content cs ∧ Airy none cs) ∧ ((ValueFix rules E p e.1 ∧ FixInside pl e.1) ∨ FixElsewhere pl e.1)) ∧
    Apart 0 (eds.map fun e => textFix src e.1 e.2) ∧
    (eds.map fun e => textFix src e.1 e.2) = (ds.map (·.fix)).filter isReal ∧ (∀ f ∈ ds.map (·.fix), isReal f = false → IsPlaceholder f) ∧
    ∀ e ∈ eds, SameExtraBytes text (textFix src e.1 e.2)

end Jarl.Spec
