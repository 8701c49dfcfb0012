import Verif.Spec.RLaws
import Verif.Spec.RVisit
/-!
# Specification: which code the rules have to find

The code that a rule documents (`Law`) is to be found however it is laid out: `bare` is the code without line breaks, comments and semicolons. Unlike `core` it keeps parentheses, pipes and
the direction of arrows.
-/
namespace Jarl.Spec
open Jarl

/-- The code without line breaks, comments and semicolons. -/
def bare : Node → Node
  | .atom _ k s => .atom .none k s
  | .paren _ e _ => .paren .none (bare e) .none
  | .braces _ ss _ => .braces .none (bare ss) .none
  | .un _ o e => .un .none o (bare e)
  | .bin l _ o r => .bin (bare l) .none o (bare r)
  | .ext l _ a _ k s => .ext (bare l) .none a .none k s
  | .call f _ b args _ => .call (bare f) .none b (bare args) .none
  | .func _ la _ params _ body => .func .none la .none (bare params) .none (bare body)
  | .ifE _ _ c _ t => .ifE .none .none (bare c) .none (bare t)
  | .ifElse _ _ c _ t _ e => .ifElse .none .none (bare c) .none (bare t) .none (bare e)
  | .whileE _ _ c _ b => .whileE .none .none (bare c) .none (bare b)
  | .forE _ _ _ v _ seq _ b => .forE .none .none .none v .none (bare seq) .none (bare b)
  | .repE _ b => .repE .none (bare b)
  | .hole => .hole
  | .named _ k s _ e => .named .none k s .none (bare e)
  | .comma a _ rest => .comma (bare a) .none (bare rest)
  | .snil => .snil
  | .scons e _ rest => .scons (bare e) [] (bare rest)

/-! ## Conditions

What is left alone although the documentation does not say so; `C63_false_…` shows examples. -/

/-- No parameter is given by position behind one that is given by name. -/
def InOrder (params : List Str) (as : List Node) : Prop :=
  params.Pairwise (fun x y => (∃ a ∈ as, nameOf a = some x) → ∃ a ∈ as, nameOf a = some y)

/-- The arguments of the call are in order. -/
def ordered (params : List Str) (z : Zip) : Prop := InOrder params (argsOf z.e)

/-- The arguments of a function like `ifelse` are in order. -/
def ifelseOrdered (z : Zip) : Prop :=
  ordered [cs! "test", cs! "yes", cs! "no"] z ∧ ordered [cs! "condition", cs! "true", cs! "false"] z

/-- Not both sides are such. -/
def notBoth (P : Node → Prop) (z : Zip) : Prop := ∀ l g o r, z.e = .bin l g o r → ¬ (P (bare l) ∧ P (bare r))

/-- The condition of `if` or `while`. -/
def CondOf : List Frame → Prop
  | .ifC .. :: _ | .ieC .. :: _ | .whileC .. :: _ => True
  | _ => False

/-- Behind one `!` that is not itself behind another operator with one side. -/
def OneBang : List Frame → Prop
  | .un _ .bang :: .un _ _ :: _ => False
  | .un _ .bang :: _ => True
  | _ => False

/-- `all.equal(…)` is a condition, `!all.equal(…)` is not behind another operator with one side. -/
def equalCondition (z : Zip) : Prop :=
  (∀ f g args g2, z.e = .call f g .par args g2 → Fn (cs! "all.equal") (bare f) → CondOf z.fs) ∧ ∀ g o x f fs, z.e = .un g o x → z.fs = f :: fs → ∀ g' o', f ≠ .un g' o'

/-- A comparison is a condition. -/
def comparedCondition (z : Zip) : Prop := ∀ l g o r, z.e = .bin l g o r → CondOf z.fs

/-- On one line, without semicolons. -/
def flat (n : Node) : Prop := (∀ t ∈ toks n, t.k ≠ .semi) ∧ ∀ t ∈ (toks n).tail, t.gap = .none

/-- One statement on one line, in braces or not. -/
def flatBranch (n : Node) : Prop := flat n ∨ ∃ g s semis g2, n = .braces g (.scons s semis .snil) g2 ∧ flat s

/-- What is asked about in the condition, `is.null(…)` or `!is.null(…)`. -/
def asked : Node → List Node
  | .un _ _ c => argsOf c
  | c => argsOf c

/-- What `is.null` is asked about is on one line and not in braces, and so is the branch that repeats it. -/
def flatNull (z : Zip) : Prop :=
  ∀ g g2 c g3 t g4 e, z.e = .ifElse g g2 c g3 t g4 e →
    (∀ a ∈ asked c, flat a ∧ ∀ g ss g2, argValue a ≠ some (.braces g ss g2)) ∧ flatBranch (match c with | .un .. => t | _ => e)

/-- The sides are on one line each. -/
def flatSides (z : Zip) : Prop := ∀ l g o r, z.e = .bin l g o r → flat l ∧ flat r

/-- What is sorted, and the arguments of `order`, are on one line each. -/
def flatSort (z : Zip) : Prop := ∀ x g v g2, z.e = .call x g .brk v g2 → flat x ∧ ∀ a ∈ argsOf v, flat a

/-- A call of this function. -/
def CallOf (name : Str) (v : Node) : Prop := ∃ f args, Fn name f ∧ v = .call f .none .par args .none

/-- Not both sides are calls, and the arguments of the call are on one line each. -/
def flatCall (z : Zip) : Prop :=
  notBoth (fun v => ∃ f args, v = .call f .none .par args .none) z ∧ ∀ l g o r, z.e = .bin l g o r → (∀ a ∈ argsOf l, flat a) ∧ ∀ a ∈ argsOf r, flat a

/-- The two values that are compared are in order, and not both are calls of this function. -/
def oneSide (name : Str) (z : Zip) : Prop :=
  (((argsOf z.e).length = 2 → ordered [cs! "object", cs! "expected"] z)) ∧ ∀ a b, Expect ((argsOf z.e).map bare) a b → ¬ (CallOf name a ∧ CallOf name b)

/-- The two values that are compared are in order. -/
def twoOrdered (z : Zip) : Prop := (argsOf z.e).length = 2 → ordered [cs! "object", cs! "expected"] z

/-- The classes of R that are not S3 classes. -/
def basicClasses : List Str :=
  [cs! "NULL", cs! "symbol", cs! "pairlist", cs! "closure", cs! "environment", cs! "promise", cs! "language", cs! "special",
   cs! "builtin", cs! "char", cs! "logical", cs! "integer", cs! "double", cs! "complex", cs! "character", cs! "...", cs! "any",
   cs! "expression", cs! "list", cs! "externalptr", cs! "bytecode", cs! "weakref", cs! "raw", cs! "S4", cs! "object",
   cs! "numeric", cs! "name", cs! "matrix", cs! "array", cs! "function"]

/-- The class is not one of those of R. -/
def s3Class (z : Zip) : Prop :=
  twoOrdered z ∧ ∀ a s, Expect ((argsOf z.e).map bare) a (.atom .none .str s) → s.filter (fun c => c ≠ '"' ∧ c ≠ '\'') ∉ basicClasses

/-- Not the right side of a pipe; the arguments of `grepl` are in order. -/
def matchOrdered (z : Zip) : Prop := piped z.fs = false ∧ ∀ a ∈ argsOf z.e, ∀ v, argValue a = some v → InOrder [cs! "pattern", cs! "x"] (argsOf v)

/-- Not `!!x`. -/
def onceNegated (z : Zip) : Prop := ∀ a ∈ argsOf z.e, ∀ g g' x, argValue a ≠ some (.un g .bang (.un g' .bang x))

/-- Not behind `!`, and not `!-x`. -/
def notNegated (z : Zip) : Prop := ¬ OneBang z.fs ∧ ∀ a ∈ argsOf z.e, ∀ g o g' o' x, a ≠ .un g o (.un g' o' x)

/-- No argument has this name. -/
def nobodyNamed (name : Str) (z : Zip) : Prop := ∀ a ∈ argsOf z.e, nameOf a ≠ some name

/-- Not the function of a call, in front of `$` or `@`, or a side of a formula. -/
def plainUse (z : Zip) : Prop :=
  ∀ f fs, z.fs = f :: fs → (∀ g a g2, f ≠ .callF g .par a g2) ∧ (∀ g b g2 k s, f ≠ .ext g b g2 k s) ∧ (∀ g r, f ≠ .binL g .tilde r) ∧ ∀ l g, f ≠ .binR l g .tilde

/-- Not the right side of a pipe. -/
def notPiped (z : Zip) : Prop := piped z.fs = false

/-- One of the missing values. -/
def NaValue (n : Node) : Prop := ∃ t ∈ naTexts, Text t n

/-- The rules, each with the condition under which it finds the code it documents. -/
def foundRules : List (Str × (Zip → Prop)) :=
  [(cs! "all_equal", equalCondition), (cs! "any_duplicated", always), (cs! "any_is_na", notBoth (Const .na)), (cs! "class_equals", comparedCondition), (cs! "coalesce", flatNull),
   (cs! "equals_na", notBoth NaValue), (cs! "equals_nan", notBoth (Const .nan)), (cs! "equals_null", notBoth (Const .null)), (cs! "expect_length", oneSide (cs! "length")),
   (cs! "expect_match", matchOrdered), (cs! "expect_named", oneSide (cs! "names")), (cs! "expect_no_match", matchOrdered), (cs! "expect_not", onceNegated),
   (cs! "expect_null", twoOrdered), (cs! "expect_s3_class", s3Class), (cs! "expect_true_false", twoOrdered), (cs! "expect_type", oneSide (cs! "typeof")),
   (cs! "fixed_regex", always), (cs! "grepv", always), (cs! "is_numeric", flatSides), (cs! "length_levels", always), (cs! "length_test", always), (cs! "lengths", nobodyNamed (cs! "X")),
   (cs! "list2df", ordered [cs! "what", cs! "args"]), (cs! "matrix_apply", ordered [cs! "X", cs! "MARGIN", cs! "FUN"]), (cs! "numeric_leading_zero", always),
   (cs! "outer_negation", notNegated), (cs! "redundant_equals", always), (cs! "redundant_ifelse", ifelseOrdered), (cs! "repeat", always), (cs! "sample_int", nobodyNamed (cs! "n")),
   (cs! "seq", always), (cs! "seq2", always), (cs! "sort", flatSort), (cs! "sprintf", notPiped), (cs! "string_boundary", flatCall), (cs! "system_file", always),
   (cs! "true_false_symbol", plainUse), (cs! "unnecessary_nesting", always), (cs! "which_grepl", always)]

/-- The rule, when only it is enabled, proposes to replace the code at this place. -/
def FoundBy (want : Op) (p : Node) (name : Str) (z : Zip) : Prop := ∃ ed ∈ proposed (fun n => n = name) want p, ed.z = z

end Jarl.Spec
