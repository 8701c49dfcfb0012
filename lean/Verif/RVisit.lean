import Verif.RRules
/-!
# RVisit: which rules look at which part of the code

`check_expression` walks through the tree and calls, for each kind of expression, the rules for it. Here the walk is the list of the things looked at, in order
(`visit`), and the calls are, for each of them, the list of rules (`rulesAt`).
-/
namespace Jarl

/-- Something the rules look at: an expression, or the variable of a `for` loop (which is no expression of its own in `Node`: here the loop is given). -/
inductive Look
  | node (z : Zip)
  | loopVar (z : Zip)
deriving DecidableEq, Repr

/-- `as_r_namespace_expression` (expression.rs 46-48). -/
def isNs : Node → Bool
  | .atom _ (.ns ..) _ => true
  | _ => false

mutual
/-- `check_expression` (analyze/expression.rs 23-132) on the node at the place `fs`: what is looked at. An argument without a value (`hole`) has nothing to look at (50-54, 99-103);
lists of arguments and statements are walked through in order (41-45, 50-54). -/
def visit (fs : List Frame) : Node → List Look
  | .atom g k s => [.node ⟨fs, .atom g k s⟩]
  | .paren g e g2 => .node ⟨fs, .paren g e g2⟩ :: visit (.paren g g2 :: fs) e
  | .braces g ss g2 => .node ⟨fs, .braces g ss g2⟩ :: visit (.braces g g2 :: fs) ss
  | .un g o e => .node ⟨fs, .un g o e⟩ :: visit (.un g o :: fs) e
  | .bin l g o r => .node ⟨fs, .bin l g o r⟩ :: (visit (.binL g o r :: fs) l ++ visit (.binR l g o :: fs) r)
  | .ext l g b g2 k s => [.node ⟨fs, .ext l g b g2 k s⟩]
  | .call f g b args g2 => .node ⟨fs, .call f g b args g2⟩ ::
      ((if b = .par ∧ isNs f = true then [.node ⟨.callF g b args g2 :: fs, f⟩] else []) ++ visit (.callA f g b g2 :: fs) args)
  | .func g la g2 ps g3 b => .node ⟨fs, .func g la g2 ps g3 b⟩ :: (visitParams (.funcP g la g2 g3 b :: fs) ps ++ visit (.funcB g la g2 ps g3 :: fs) b)
  | .ifE g g2 c g3 t => .node ⟨fs, .ifE g g2 c g3 t⟩ :: (visit (.ifC g g2 g3 t :: fs) c ++ visit (.ifT g g2 c g3 :: fs) t)
  | .ifElse g g2 c g3 t g4 e => .node ⟨fs, .ifElse g g2 c g3 t g4 e⟩ ::
      (visit (.ieC g g2 g3 t g4 e :: fs) c ++ (visit (.ieT g g2 c g3 g4 e :: fs) t ++ visit (.ieE g g2 c g3 t g4 :: fs) e))
  | .whileE g g2 c g3 b => .node ⟨fs, .whileE g g2 c g3 b⟩ :: (visit (.whileC g g2 g3 b :: fs) c ++ visit (.whileB g g2 c g3 :: fs) b)
  | .forE g g2 gv v gi s g3 b => .node ⟨fs, .forE g g2 gv v gi s g3 b⟩ :: .loopVar ⟨fs, .forE g g2 gv v gi s g3 b⟩ ::
      (visit (.forS g g2 gv v gi g3 b :: fs) s ++ visit (.forB g g2 gv v gi s g3 :: fs) b)
  | .repE g b => .node ⟨fs, .repE g b⟩ :: visit (.repE g :: fs) b
  | .hole => []
  | .named g k s g2 e => visit (.named g k s g2 :: fs) e
  | .comma a g rest => visit (.commaA g rest :: fs) a ++ visit (.commaR a g :: fs) rest
  | .snil => []
  | .scons e semis rest => visit (.sconsE semis rest :: fs) e ++ visit (.sconsR e semis :: fs) rest

/-- The parameters of a function: only the default values are looked at (expression.rs 65-74). -/
def visitParams (fs : List Frame) : Node → List Look
  | .comma a g rest => visitParams (.commaA g rest :: fs) a ++ visitParams (.commaR a g :: fs) rest
  | .named g k s g2 e => visit (.named g k s g2 :: fs) e
  | _ => []
end

/-- The program: `for expr in expressions { check_expression(…) }` (check.rs 157-159). -/
def visits (p : Node) : List Look := visit [] p

/-- The rules called for a call, in order (analyze/call.rs 38-133). -/
def callRules : List Str :=
  [cs! "all_equal", cs! "any_duplicated", cs! "any_is_na", cs! "browser", cs! "class_equals", cs! "download_file", cs! "duplicated_arguments",
   cs! "expect_length", cs! "expect_match", cs! "expect_named", cs! "expect_no_match", cs! "expect_not", cs! "expect_null", cs! "expect_s3_class",
   cs! "expect_type", cs! "expect_true_false", cs! "fixed_regex", cs! "grepv", cs! "length_levels", cs! "length_test", cs! "lengths", cs! "list2df",
   cs! "matrix_apply", cs! "outer_negation", cs! "redundant_ifelse", cs! "sample_int", cs! "seq2", cs! "sprintf", cs! "system_file",
   cs! "undesirable_function", cs! "which_grepl"]

/-- The rules called for a binary operation (analyze/binary_expression.rs 19-63). -/
def binaryRules : List Str :=
  [cs! "any_is_na", cs! "assignment", cs! "class_equals", cs! "vector_logic", cs! "empty_assignment", cs! "equals_na", cs! "equals_nan",
   cs! "equals_null", cs! "implicit_assignment", cs! "is_numeric", cs! "redundant_equals", cs! "seq", cs! "string_boundary"]

/-- The rules called for what is looked at (analyze/expression.rs 27-129 and analyze/*.rs). A name is a value, an identifier or `pkg::name`. -/
def rulesAt : Look → List Str
  | .loopVar _ => [cs! "true_false_symbol"]
  | .node z => match z.e with
    | .atom _ .id _ => [cs! "true_false_symbol"]
    | .atom _ (.ns ..) _ => [cs! "internal_function"]
    | .atom _ .int _ | .atom _ .double _ | .atom _ .complex _ | .atom _ .str _ => [cs! "numeric_leading_zero"]
    | .bin .. => binaryRules
    | .call _ _ .par _ _ => callRules
    | .call _ _ .brk _ _ => [cs! "sort"]
    | .un .. => [cs! "comparison_negation"]
    | .func .. => [cs! "unreachable_code"]
    | .ifE .. | .ifElse .. => [cs! "coalesce", cs! "if_always_true", cs! "unnecessary_nesting"]
    | .whileE .. => [cs! "repeat"]
    | .forE .. => [cs! "for_loop_index", cs! "for_loop_dup_index"]
    | _ => []

/-- What is reported: for everything looked at, the rules for it that are enabled are called, in order (`is_rule_enabled`, `report_diagnostic`: checker.rs 37-49). `rule` says what a
rule reports; this is before the suppressions and before the rules for the whole document. -/
def reported {D : Type} (enabled : Str → Bool) (rule : Str → Look → List D) (p : Node) : List D :=
  (visits p).flatMap (fun v => ((rulesAt v).filter enabled).flatMap (fun n => rule n v))

/-! ## The rules with fixes -/

/-- The rules with fixes, each with the name under which it is enabled. `want` is the operator that the configuration asks for. -/
def fixRules (want : Op) : List (Str × (Zip → Option Edit)) :=
  keepingRules ++ roomRules ++
  [(cs! "assignment", assignment want), (cs! "coalesce", coalesce), (cs! "expect_not", expectNot), (cs! "repeat", repeatRule),
   (cs! "unnecessary_nesting", unnecessaryNesting)]

/-- The fixes of a rule at what it looks at. Simplification: true_false_symbol's fix for a loop variable is left out (all fixes of that rule are dropped later: rule_set.rs 612, check.rs
179-184). -/
def fixesOf (want : Op) (n : Str) : Look → List Edit
  | .node z => ((fixRules want).filter (fun q => q.1 = n)).filterMap (fun q => q.2 z)
  | .loopVar _ => []

/-- All fixes that are proposed for a program. -/
def proposed (enabled : Str → Bool) (want : Op) (p : Node) : List Edit := reported enabled (fixesOf want) p

end Jarl
