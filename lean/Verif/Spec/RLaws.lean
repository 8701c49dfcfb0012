import Verif.Spec.RFix
import Verif.Spec.Sprintf
/-!
# Specification: what each rule may put in place of what

`Law rule old new`: according to the documentation of the rule, the code `old` can be replaced by `new`. Code is written without layout here (`core`).
-/
namespace Jarl.Spec
open Jarl

/-- One more argument in front. -/
def consArg (a : Node) : Node → Node
  | .hole => a
  | as => .comma a .none as

/-- The code without layout: no line breaks, comments, semicolons or parentheses (the tree itself shows what belongs together). A pipe `x |> f(y)` is the call `f(x, y)`,
`x -> y` is `y <- x`. -/
def core : Node → Node
  | .atom _ k s => .atom .none k s
  | .paren _ e _ => core e
  | .braces _ ss _ => .braces .none (core ss) .none
  | .un _ o e => .un .none o (core e)
  | .bin l _ .pipe (.call f _ .par args _) => .call (core f) .none .par (consArg (core l) (core args)) .none
  | .bin l _ .rassign r => .bin (core r) .none .assign (core l)
  | .bin l _ .superRassign r => .bin (core r) .none .superAssign (core l)
  | .bin l _ o r => .bin (core l) .none o (core r)
  | .ext l _ a _ k s => .ext (core l) .none a .none k s
  | .call f _ b args _ => .call (core f) .none b (core args) .none
  | .func _ la _ params _ body => .func .none la .none (core params) .none (core body)
  | .ifE _ _ c _ t => .ifE .none .none (core c) .none (core t)
  | .ifElse _ _ c _ t _ e => .ifElse .none .none (core c) .none (core t) .none (core e)
  | .whileE _ _ c _ b => .whileE .none .none (core c) .none (core b)
  | .forE _ _ _ v _ seq _ b => .forE .none .none .none v .none (core seq) .none (core b)
  | .repE _ b => .repE .none (core b)
  | .hole => .hole
  | .named _ k s _ e => .named .none k s .none (core e)
  | .comma a _ rest => .comma (core a) .none (core rest)
  | .snil => .snil
  | .scons e _ rest => .scons (core e) [] (core rest)

/-- A name. -/
def sym (s : Str) : Node := .atom .none .id s

/-- A list of arguments. -/
def mkArgs : List Node → Node
  | [] => .hole
  | [a] => a
  | a :: as => .comma a .none (mkArgs as)

/-- A call. -/
def callOf (f : Node) (as : List Node) : Node := .call f .none .par (mkArgs as) .none

/-- A call of a function by its name. -/
def fn (f : Str) (as : List Node) : Node := callOf (sym f) as

/-- The function with this name, with or without `pkg::`. -/
def Fn (name : Str) (f : Node) : Prop := f = sym name ∨ ∃ pkg i, f = .atom .none (.ns pkg i) name

/-- The function `new` from the same package as `f`. -/
def sibling (f : Node) (new : Str) : Node :=
  match f with
  | .atom _ (.ns pkg _) _ => .atom .none (.ns pkg false) new
  | _ => sym new

/-- The token with this text; not `pkg::s`. -/
def Text (s : Str) (n : Node) : Prop := ∃ k, n = .atom .none k s ∧ ∀ pkg i, k ≠ .ns pkg i

/-- The constant of this kind. -/
def Const (k : AKind) (n : Node) : Prop := ∃ s, n = .atom .none k s

/-- The name of an argument. -/
def nameOf : Node → Option Str
  | .named _ _ s _ _ => some s
  | _ => none

/-- The value of an argument. -/
def valueOf : Node → Option Node
  | .hole => none
  | .named _ _ _ _ .hole => none
  | .named _ _ _ _ e => some e
  | .comma .. | .snil | .scons .. => none
  | e => some e

/-- What R passes for the parameter `x` of a function with these parameters: the argument with that name, or else the arguments without name are given in order to the
parameters that are not named. (Names are not abbreviated here.) -/
def matchArg (params : List Str) (as : List Node) (x : Str) : Option Node :=
  match as.find? (fun a => nameOf a = some x) with
  | some a => valueOf a
  | none =>
    let free := params.filter (fun q => !as.any (fun a => nameOf a = some q))
    match free.findIdx? (· = x) with
    | some i => (as.filter (fun a => (nameOf a).isNone))[i]?.bind valueOf
    | none => none

/-- Comparisons. -/
def cmpOps : List Op := [.lt, .gt, .le, .ge, .eq2, .ne]

/-- The parameters of the functions like `ifelse`. -/
def ifelseParams (f : Str) : Option (Str × Str × Str) :=
  if f = cs! "ifelse" ∨ f = cs! "fifelse" then some (cs! "test", cs! "yes", cs! "no")
  else if f = cs! "if_else" then some (cs! "condition", cs! "true", cs! "false")
  else none

/-- The opposite of a comparison. -/
inductive Opposite : Op → Op → Prop
  | lt : Opposite .lt .ge
  | ge : Opposite .ge .lt
  | gt : Opposite .gt .le
  | le : Opposite .le .gt
  | eq : Opposite .eq2 .ne
  | ne : Opposite .ne .eq2

/-- `expect_equal` and `expect_identical`. -/
def ExpectEqual (f : Node) : Prop := Fn (cs! "expect_equal") f ∨ Fn (cs! "expect_identical") f

/-- The values of the two parameters of `expect_equal(object, expected)`, in either order. -/
def Expect (as : List Node) (a b : Node) : Prop :=
  let v := matchArg [cs! "object", cs! "expected"] as
  (v (cs! "object") = some a ∧ v (cs! "expected") = some b) ∨ (v (cs! "object") = some b ∧ v (cs! "expected") = some a)

/-- The single argument of a function with one parameter. -/
def Single (param : Str) (as : List Node) (x : Node) : Prop := as.length = 1 ∧ (∀ a ∈ as, isArg a = true) ∧ matchArg [param] as param = some x

/-- In braces or not. -/
def Braced (b b' : Node) : Prop := b' = b ∨ b' = .braces .none (.scons b [] .snil) .none

/-- No characters are written with their codes (`"\\x25s"` is `"%s"`). -/
def NoCodes (s : Str) : Prop := ∀ a c b, s = a ++ '\\' :: c :: b → c ∉ ['x', 'u', 'U', '0', '1', '2', '3', '4', '5', '6', '7']

/-- Characters with a meaning in regular expressions. -/
def metaChars : Str := ['.', '*', '+', '?', '[', '{', '(', ')', '|', '^', '$', '\\']

/-- What fits in a `%op%`. -/
def special (l : Node) (s : Str) (r : Node) : Node := .bin l .none (.special s) r

/-- A comparison or its negation. -/
def notIf (b : Bool) (e : Node) : Node := if b then .un .none .bang e else e

/-- The functions for sums and means of rows and columns. -/
def marginFn : List ((Str × Str) × Str) :=
  [((cs! "mean", cs! "1"), cs! "rowMeans"), ((cs! "mean", cs! "2"), cs! "colMeans"), ((cs! "sum", cs! "1"), cs! "rowSums"), ((cs! "sum", cs! "2"), cs! "colSums"),
   ((cs! "mean", cs! "1L"), cs! "rowMeans"), ((cs! "mean", cs! "2L"), cs! "colMeans"), ((cs! "sum", cs! "1L"), cs! "rowSums"), ((cs! "sum", cs! "2L"), cs! "colSums")]

/-- The types of the functions `is.<type>`, as strings. -/
def isType (f ty : Str) : Prop :=
  ∃ t ∈ [cs! "logical", cs! "integer", cs! "double", cs! "complex", cs! "character", cs! "raw", cs! "list", cs! "symbol", cs! "expression", cs! "language",
    cs! "environment", cs! "pairlist", cs! "null"],
    f = cs! "is." ++ t ∧ ty = ['"'] ++ (if t = cs! "null" then cs! "NULL" else t) ++ ['"']

/-- `1` or `1L`. -/
def One (n : Node) : Prop := Text (cs! "1") n ∨ Text (cs! "1L") n

/-- From `1` to the number of characters of the string. -/
def StartOf (one stop s : Node) : Prop :=
  (∃ q ∈ [(AKind.int, cs! "1"), (.int, cs! "1L"), (.int, cs! "1l"), (.double, cs! "1"), (.double, cs! "1.0"), (.double, cs! "1.")], one = .atom .none q.1 q.2) ∧
  ∃ body, s = .atom .none .str (['"'] ++ body ++ ['"']) ∧ '\\' ∉ body ∧ Text (Nat.toDigits 10 body.length) stop

/-- From `nchar(x) - nchar(s) + 1` to `nchar(x)`. -/
def EndOf (x start stop s : Node) : Prop :=
  ∃ g g' g'' k, Fn (cs! "nchar") g ∧ Fn (cs! "nchar") g' ∧ Fn (cs! "nchar") g'' ∧ stop = callOf g [x] ∧
    start = .bin (.bin (callOf g' [x]) .none .minus (callOf g'' [s])) .none .plus (.atom .none k (cs! "1"))

/-- The missing values by type. -/
def naTexts : List Str := [cs! "NA", cs! "NA_character_", cs! "NA_integer_", cs! "NA_real_", cs! "NA_logical_", cs! "NA_complex_"]

/-- The documented rewritings, by the name of the rule. -/
inductive Law : Str → Node → Node → Prop
  | any_is_na {f g as} : Fn (cs! "any") f → Fn (cs! "is.na") g → Law (cs! "any_is_na") (callOf f [callOf g as]) (fn (cs! "anyNA") as)
  | any_is_na_in {n x} : Const .na n → Law (cs! "any_is_na") (special n (cs! "in") x) (fn (cs! "anyNA") [x])
  | any_duplicated {f g as} : Fn (cs! "any") f → Fn (cs! "duplicated") g →
      Law (cs! "any_duplicated") (callOf f [callOf g as]) (.bin (fn (cs! "anyDuplicated") as) .none .gt (.atom .none .double (cs! "0")))
  | which_grepl {f g as} : Fn (cs! "which") f → Fn (cs! "grepl") g → Law (cs! "which_grepl") (callOf f [callOf g as]) (fn (cs! "grep") as)
  | length_levels {f g as} : Fn (cs! "length") f → Fn (cs! "levels") g → Law (cs! "length_levels") (callOf f [callOf g as]) (fn (cs! "nlevels") as)
  | length_test {f l o r} : Fn (cs! "length") f → o ∈ cmpOps → Law (cs! "length_test") (callOf f [.bin l .none o r]) (.bin (fn (cs! "length") [l]) .none o r)
  | outer_negation_any {f x} : Text (cs! "any") f → Law (cs! "outer_negation") (callOf f [.un .none .bang x]) (.un .none .bang (fn (cs! "all") [x]))
  | outer_negation_all {f x} : Text (cs! "all") f → Law (cs! "outer_negation") (callOf f [.un .none .bang x]) (.un .none .bang (fn (cs! "any") [x]))
  | redundant_ifelse {name f as p1 p2 p3 c t e b} : Fn name f → ifelseParams name = some (p1, p2, p3) → as.length = 3 → (∀ a ∈ as, isArg a = true) →
      matchArg [p1, p2, p3] as p1 = some c → matchArg [p1, p2, p3] as p2 = some t → matchArg [p1, p2, p3] as p3 = some e →
      Const (if b then .false else .true) t → Const (if b then .true else .false) e → Law (cs! "redundant_ifelse") (callOf f as) (notIf b c)
  | all_equal_false {f g as} : Fn (cs! "isFALSE") f → Fn (cs! "all.equal") g →
      Law (cs! "all_equal") (callOf f [callOf g as]) (.un .none .bang (fn (cs! "isTRUE") [fn (cs! "all.equal") as]))
  | all_equal_true {f as b} : Fn (cs! "all.equal") f → Law (cs! "all_equal") (notIf b (callOf f as)) (notIf b (fn (cs! "isTRUE") [callOf f as]))
  | class_identical {f g x s a b} : Fn (cs! "identical") f → isArg a = true → isArg b = true → Fn (cs! "class") g → x ≠ .hole → Const .str s →
      (valueOf a = some (callOf g [x]) ∧ valueOf b = some s) ∨ (valueOf a = some s ∧ valueOf b = some (callOf g [x])) →
      Law (cs! "class_equals") (callOf f [a, b]) (fn (cs! "inherits") [x, s])
  | class_equals {g x s l r o} : Fn (cs! "class") g → x ≠ .hole → Const .str s → (l = callOf g [x] ∧ r = s) ∨ (l = s ∧ r = callOf g [x]) →
      o = .eq2 ∨ o = .ne ∨ o = .special (cs! "in") → Law (cs! "class_equals") (.bin l .none o r) (notIf (o = .ne) (fn (cs! "inherits") [x, s]))
  | lengths {f as x len} : Fn (cs! "sapply") f → as.length = 2 → (∀ a ∈ as, isArg a = true) → matchArg [cs! "X", cs! "FUN"] as (cs! "FUN") = some len → Text (cs! "length") len →
      matchArg [cs! "X", cs! "FUN"] as (cs! "X") = some x → Law (cs! "lengths") (callOf f as) (fn (cs! "lengths") [x])
  | lengths_vapply {f as x len} : Fn (cs! "vapply") f → as.length = 3 → matchArg [cs! "X", cs! "FUN", cs! "FUN.VALUE"] as (cs! "FUN") = some len → Text (cs! "length") len →
      matchArg [cs! "X", cs! "FUN", cs! "FUN.VALUE"] as (cs! "X") = some x → (∀ a ∈ as, isArg a = true) → Law (cs! "lengths") (callOf f as) (fn (cs! "lengths") [x])
  | lengths_map {f x len} : Fn (cs! "map_dbl") f ∨ Fn (cs! "map_int") f → Text (cs! "length") len → isArg x = true → valueOf x = some x → Law (cs! "lengths") (callOf f [x, len]) (fn (cs! "lengths") [x])
  | sample_int {f one n as} : Fn (cs! "sample") f → One one → as ≠ [] → (∀ a ∈ as, isArg a = true) →
      Law (cs! "sample_int") (callOf f (.bin one .none .colon n :: as)) (fn (cs! "sample.int") (n :: as))
  | grepv {f as k g} : Fn (cs! "grep") f → (∀ a ∈ as, isArg a = true) → .named .none g (cs! "value") .none (.atom .none .true k) ∈ as →
      Law (cs! "grepv") (callOf f as) (fn (cs! "grepv") (as.filter (fun a => nameOf a ≠ some (cs! "value"))))
  | grepv_position {f a b c d k} : Fn (cs! "grep") f → (∀ e ∈ [a, b, c, d], nameOf e = none ∧ isArg e = true) → Law (cs! "grepv") (callOf f [a, b, c, d, .atom .none .true k]) (fn (cs! "grepv") [a, b, c, d])
  | system_file {f g as ps} : Fn (cs! "system.file") f → as.filter (fun a => (nameOf a).isNone) = [callOf g ps] → Text (cs! "file.path") g →
      as.filter (fun a => (nameOf a).isSome) ≠ [] → ps ≠ [] → (∀ a ∈ ps, nameOf a = none ∧ a ≠ .hole ∧ isArg a = true) → (∀ a ∈ as, isArg a = true) →
      Law (cs! "system_file") (callOf f as) (fn (cs! "system.file") (ps ++ as.filter (fun a => (nameOf a).isSome)))
  | list2df {f as what x} : Fn (cs! "do.call") f → as.length = 2 → (∀ a ∈ as, isArg a = true) → matchArg [cs! "what", cs! "args"] as (cs! "what") = some what →
      Text (cs! "cbind.data.frame") what ∨ Text (cs! "\"cbind.data.frame\"") what ∨ Text (cs! "'cbind.data.frame'") what →
      matchArg [cs! "what", cs! "args"] as (cs! "args") = some x → Law (cs! "list2df") (callOf f as) (fn (cs! "list2DF") [x])
  | matrix_apply {f as x m mt fu ft new} : Fn (cs! "apply") f → (∀ a ∈ as, isArg a = true) →
      (as.filter (fun a => nameOf a ≠ some (cs! "na.rm"))).length = 3 → (as.filter (fun a => nameOf a = some (cs! "na.rm"))).length ≤ 1 →
      matchArg [cs! "X", cs! "MARGIN", cs! "FUN"] as (cs! "X") = some x →
      matchArg [cs! "X", cs! "MARGIN", cs! "FUN"] as (cs! "MARGIN") = some m → Text mt m →
      matchArg [cs! "X", cs! "MARGIN", cs! "FUN"] as (cs! "FUN") = some fu → Text ft fu →
      ((ft, mt), new) ∈ marginFn →
      Law (cs! "matrix_apply") (callOf f as) (fn new (x :: as.filter (fun a => nameOf a = some (cs! "na.rm"))))
  | seq_length {one g as} : One one → Fn (cs! "length") g → Law (cs! "seq") (.bin one .none .colon (callOf g as)) (fn (cs! "seq_along") as)
  | seq_len {one name g as} : One one → Fn name g → name ∈ [cs! "nrow", cs! "ncol", cs! "NROW", cs! "NCOL"] →
      Law (cs! "seq") (.bin one .none .colon (callOf g as)) (fn (cs! "seq_len") [fn name as])
  | seq2_length {f g as} : Fn (cs! "seq") f → Fn (cs! "length") g → Law (cs! "seq2") (callOf f [callOf g as]) (fn (cs! "seq_along") as)
  | seq2_len {name f g as} : Fn (cs! "seq") f → Fn name g → name ∈ [cs! "nrow", cs! "ncol", cs! "NROW", cs! "NCOL"] →
      Law (cs! "seq2") (callOf f [callOf g as]) (fn (cs! "seq_len") [fn name as])
  | fixed_regex {name params f as s} : Fn name f →
      (name ∈ [cs! "grep", cs! "regexpr", cs! "gregexpr", cs! "regexec", cs! "grepl"] ∧ params = [cs! "pattern", cs! "x"]) ∨
        (name ∈ [cs! "sub", cs! "gsub"] ∧ params = [cs! "pattern", cs! "replacement", cs! "x"]) →
      (as.filter (fun a => (nameOf a).isNone)).length ≤ params.length → (∀ a ∈ as, nameOf a ≠ some (cs! "fixed") ∧ nameOf a ≠ some (cs! "ignore.case")) →
      matchArg params as (cs! "pattern") = some (.atom .none .str s) → (∀ c ∈ s, c ∉ metaChars) → (∀ a ∈ as, isArg a = true) →
      Law (cs! "fixed_regex") (callOf f as) (fn name (as ++ [.named .none .id (cs! "fixed") .none (.atom .none .true (cs! "TRUE"))]))
  | expect_named {f g as ns x y} : ExpectEqual f → as.length = 2 → (∀ a ∈ as, isArg a = true) → matchArg [cs! "object", cs! "expected"] as (cs! "object") = some (callOf g ns) → Fn (cs! "names") g →
      Single (cs! "x") ns x → matchArg [cs! "object", cs! "expected"] as (cs! "expected") = some y → Law (cs! "expect_named") (callOf f as) (callOf (sibling f (cs! "expect_named")) [x, y])
  | expect_true_false {f as x y} {b : Bool} : ExpectEqual f → as.length = 2 → (∀ a ∈ as, isArg a = true) → Expect as x y → Text (if b then cs! "TRUE" else cs! "FALSE") y →
      Law (cs! "expect_true_false") (callOf f as) (callOf (sibling f (if b then cs! "expect_true" else cs! "expect_false")) [x])
  | expect_not {f as x} {b : Bool} : Fn (if b then cs! "expect_true" else cs! "expect_false") f → Single (cs! "object") as (.un .none .bang x) →
      Law (cs! "expect_not") (callOf f as) (callOf (sibling f (if b then cs! "expect_false" else cs! "expect_true")) [x])
  | expect_null {f as x y} : ExpectEqual f → as.length = 2 → (∀ a ∈ as, isArg a = true) → Expect as x y → Const .null y →
      Law (cs! "expect_null") (callOf f as) (callOf (sibling f (cs! "expect_null")) [x])
  | expect_null_true {f g as ns x} : Fn (cs! "expect_true") f → Single (cs! "object") as (callOf g ns) → Fn (cs! "is.null") g → Single (cs! "x") ns x →
      Law (cs! "expect_null") (callOf f as) (callOf (sibling f (cs! "expect_null")) [x])
  | expect_length {f g as ns x y} : ExpectEqual f → as.length = 2 → (∀ a ∈ as, isArg a = true) → Expect as (callOf g ns) y → Fn (cs! "length") g → Single (cs! "x") ns x →
      Law (cs! "expect_length") (callOf f as) (callOf (sibling f (cs! "expect_length")) [x, y])
  | expect_type {f g as ns x y} : ExpectEqual f → as.length = 2 → (∀ a ∈ as, isArg a = true) → Expect as (callOf g ns) y → Fn (cs! "typeof") g → Single (cs! "x") ns x →
      Law (cs! "expect_type") (callOf f as) (callOf (sibling f (cs! "expect_type")) [x, y])
  | expect_type_true {f g as ns x name ty} : Fn (cs! "expect_true") f → Single (cs! "object") as (callOf g ns) → Fn name g → isType name ty → Single (cs! "x") ns x →
      Law (cs! "expect_type") (callOf f as) (callOf (sibling f (cs! "expect_type")) [x, .atom .none .str ty])
  | expect_s3_class {f g as ns x y} : ExpectEqual f → as.length = 2 → (∀ a ∈ as, isArg a = true) → Expect as (callOf g ns) y → Fn (cs! "class") g → Const .str y → Single (cs! "x") ns x →
      Law (cs! "expect_s3_class") (callOf f as) (callOf (sibling f (cs! "expect_s3_class")) [x, y])
  | expect_match {f g as ns x p rest} {b : Bool} : Fn (if b then cs! "expect_true" else cs! "expect_false") f → Single (cs! "object") as (callOf g ns) → Fn (cs! "grepl") g →
      matchArg [cs! "pattern", cs! "x"] ns (cs! "pattern") = some p → matchArg [cs! "pattern", cs! "x"] ns (cs! "x") = some x →
      rest = ns.filter (fun a => (nameOf a).isSome ∧ nameOf a ≠ some (cs! "pattern") ∧ nameOf a ≠ some (cs! "x")) → rest.length + 2 = ns.length → (∀ a ∈ ns, isArg a = true) →
      Law (if b then cs! "expect_match" else cs! "expect_no_match") (callOf f as)
        (callOf (sibling f (if b then cs! "expect_match" else cs! "expect_no_match")) (x :: p :: rest))
  | equals_na {l r x s o} : (l = x ∧ r = s) ∨ (l = s ∧ r = x ∧ o ≠ .special (cs! "in")) → (∃ t ∈ naTexts, Text t s) → o = .eq2 ∨ o = .ne ∨ o = .special (cs! "in") →
      Law (cs! "equals_na") (.bin l .none o r) (notIf (o = .ne) (fn (cs! "is.na") [x]))
  | equals_nan {l r x s o} : (l = x ∧ r = s) ∨ (l = s ∧ r = x ∧ o ≠ .special (cs! "in")) → Const .nan s → o = .eq2 ∨ o = .ne ∨ o = .special (cs! "in") →
      Law (cs! "equals_nan") (.bin l .none o r) (notIf (o = .ne) (fn (cs! "is.nan") [x]))
  | equals_null {l r x s o} : (l = x ∧ r = s) ∨ (l = s ∧ r = x ∧ o ≠ .special (cs! "in")) → Const .null s → o = .eq2 ∨ o = .ne ∨ o = .special (cs! "in") →
      Law (cs! "equals_null") (.bin l .none o r) (notIf (o = .ne) (fn (cs! "is.null") [x]))
  | is_numeric {f g as} : (Text (cs! "is.numeric") f ∧ Text (cs! "is.integer") g) ∨ (Text (cs! "is.integer") f ∧ Text (cs! "is.numeric") g) →
      Law (cs! "is_numeric") (.bin (callOf f as) .none .or2 (callOf g as)) (fn (cs! "is.numeric") as)
  | redundant_equals {l r x c o b} : (l = x ∧ r = c) ∨ (l = c ∧ r = x) → Const (if b then .true else .false) c → o = .eq2 ∨ o = .ne →
      Law (cs! "redundant_equals") (.bin l .none o r) (notIf (b ≠ (o = .eq2 : Bool)) x)
  | comparison_negation {l r o o'} : Opposite o o' → Law (cs! "comparison_negation") (.un .none .bang (.bin l .none o r)) (.bin l .none o' r)
  | sort {x g as opts} : Fn (cs! "order") g → (∀ a ∈ as, isArg a = true) → as.filter (fun a => (nameOf a).isNone) = [x] → (opts.Perm (as.filter (fun a => (nameOf a).isSome))) →
      Law (cs! "sort") (.call x .none .brk (callOf g as) .none) (fn (cs! "sort") (x :: opts))
  | string_start {l r f x one stop s o} : Fn (cs! "substr") f ∨ Fn (cs! "substring") f → valueOf x = some x → StartOf one stop s →
      (l = callOf f [x, one, stop] ∧ r = s) ∨ (l = s ∧ r = callOf f [x, one, stop]) → o = .eq2 ∨ o = .ne →
      Law (cs! "string_boundary") (.bin l .none o r) (notIf (o = .ne) (fn (cs! "startsWith") [x, s]))
  | string_end {l r f x start stop s o} : Fn (cs! "substr") f ∨ Fn (cs! "substring") f → valueOf x = some x → EndOf x start stop s →
      (l = callOf f [x, start, stop] ∧ r = s) ∨ (l = s ∧ r = callOf f [x, start, stop]) → o = .eq2 ∨ o = .ne →
      Law (cs! "string_boundary") (.bin l .none o r) (notIf (o = .ne) (fn (cs! "endsWith") [x, s]))
  | assignment {l r o} : o = .assign ∨ o = .eq → Law (cs! "assignment <-") (.bin l .none o r) (.bin l .none .assign r)
  | assignment_eq {l r o} : o = .assign ∨ o = .eq → Law (cs! "assignment =") (.bin l .none o r) (.bin l .none .eq r)
  | numeric_leading_zero {k s} : k = .double ∨ k = .complex → Law (cs! "numeric_leading_zero") (.atom .none k ('.' :: s)) (.atom .none k ('0' :: '.' :: s))
  | true_symbol : Law (cs! "true_false_symbol") (sym (cs! "T")) (.atom .none .true (cs! "TRUE"))
  | false_symbol : Law (cs! "true_false_symbol") (sym (cs! "F")) (.atom .none .false (cs! "FALSE"))
  | repeat {c b b'} : Const .true c → Braced b b' → Law (cs! "repeat") (.whileE .none .none c .none b) (.repE .none b')
  | coalesce {f a x y t e} : Fn (cs! "is.null") f → isArg a = true → valueOf a = some x → Braced y t → Braced x e →
      Law (cs! "coalesce") (.ifElse .none .none (callOf f [a]) .none t .none e) (special x (cs! "||") y)
  | coalesce_not {f a x y t e} : Fn (cs! "is.null") f → isArg a = true → valueOf a = some x → Braced x t → Braced y e →
      Law (cs! "coalesce") (.ifElse .none .none (.un .none .bang (callOf f [a])) .none t .none e) (special x (cs! "||") y)
  | sprintf {f as ps} : Fn (cs! "sprintf") f → Single (cs! "fmt") as (.atom .none .str (render ps)) → Ok ps → convs ps = [] → NoCodes (render ps) →
      Law (cs! "sprintf") (callOf f as) (.atom .none .str (plainText ps))
  | unnecessary_nesting {a b t} :
      Law (cs! "unnecessary_nesting") (.ifE .none .none a .none (.braces .none (.scons (.ifE .none .none b .none t) [] .snil) .none))
        (.ifE .none .none (.bin a .none .and2 b) .none t)

/-- The new expression `e'` is in the place of the old one, in the program after the fix. By `C50` there is at most one such expression. -/
def Placed (ed : Edit) (e' : Node) : Prop :=
  isExpr e' = true ∧ toks e' = joinHead (headGap (toks ed.z.e)) ed.content ∧ Parses (edited ed) (plug ed.z.fs e')

/-- The right side of a pipe: the call there has one more argument. -/
def piped : List Frame → Bool
  | .binR _ _ .pipe :: _ => true
  | _ => false

/-- Under the condition, what the rule puts in is what its documentation says. -/
def Lawful (name : Str) (r : Zip → Option Edit) (cond : Zip → Prop) : Prop :=
  ∀ ts p z ed e', Parses ts p → z.prog = p → r z = some ed → innerComments (toks ed.z.e) = false → piped ed.z.fs = false → cond ed.z → Placed ed e' →
    Law name (core ed.z.e) (core e')

/-! ## Conditions

What the rules do not check themselves; `C52_false_…` shows what goes wrong without. -/

/-- No condition. -/
def always (_ : Zip) : Prop := True

/-- The arguments of a call. -/
def argsOf : Node → List Node
  | .call _ _ _ args _ => items args
  | _ => []

/-- A call with one argument. -/
def oneArg (e : Node) : Prop := (argsOf e).length = 1

/-- None of the arguments has a name. -/
def noNames (e : Node) : Prop := ∀ a ∈ argsOf e, argName a = none

/-- `f(…)` with one argument, or pipes with nothing in the parentheses: `… |> f()`, `x |> g() |> f()`. -/
def onlyNested (z : Zip) : Prop :=
  match z.e with
  | .bin (.bin _ _ _ (.call _ _ _ a _)) _ _ (.call _ _ _ b _) => a = .hole ∧ b = .hole
  | .bin _ _ _ (.call _ _ _ b _) => b = .hole
  | e => oneArg e

/-- One argument, without name. -/
def onlyPlain (z : Zip) : Prop := oneArg z.e ∧ noNames z.e

/-- The argument is a negation. -/
def onlyNegation (z : Zip) : Prop := ∀ a ∈ argsOf z.e, ∃ g x, a = .un g .bang x

/-- Calls have one argument. -/
def callsOne (v : Node) : Prop := ∀ f g args g2, v = .call f g .par args g2 → oneArg v

/-- `identical` with two arguments; if they are calls, then with one argument. -/
def onlyTwo (z : Zip) : Prop := (argsOf z.e).length = 2 ∧ ∀ a ∈ argsOf z.e, ∀ v, argValue a = some v → callsOne v

/-- Calls on both sides have one argument. -/
def sidesOne (z : Zip) : Prop := ∀ l g o r, z.e = .bin l g o r → callsOne l ∧ callsOne r

/-- No arguments but `X`, `FUN` and for `vapply` also `FUN.VALUE`; for purrr's functions without names. -/
def onlyFun (z : Zip) : Prop :=
  ∀ f g args g2, z.e = .call f g .par args g2 →
    (fnName f = cs! "sapply" → (items args).length = 2) ∧ (fnName f = cs! "vapply" → (items args).length = 3) ∧
    (fnName f = cs! "map_dbl" ∨ fnName f = cs! "map_int" → (items args).length = 2 ∧ noNames z.e) ∧
    ∀ a ∈ items args, a ≠ .hole ∧ (argName a = none ∨ argName a = some (cs! "FUN") ∨ argName a = some (cs! "FUN.VALUE"))

/-- The first argument has no name, there are others, and none is called `n`. -/
def firstPlain (z : Zip) : Prop := ∃ a as, argsOf z.e = a :: as ∧ argName a = none ∧ as ≠ [] ∧ ∀ b ∈ as, argName b ≠ some (cs! "n")

/-- `value = TRUE` by name, or as the fifth of five arguments without names. -/
def valueTrue (z : Zip) : Prop :=
  (∃ g k s g2 h t, .named g k s g2 (.atom h .true t) ∈ argsOf z.e ∧ s = cs! "value") ∨
  (noNames z.e ∧ ∃ a b c d h t, argsOf z.e = [a, b, c, d, .atom h .true t])

/-- All arguments but one have names, there are such arguments, and the other is a call whose arguments have no names. -/
def oneUnnamed (z : Zip) : Prop :=
  ∃ a, unnamedArgs (argsOf z.e) = [a] ∧ namedArgs (argsOf z.e) ≠ [] ∧ noNames a ∧ .hole ∉ argsOf a

/-- Neither `fixed` nor `ignore.case` is given. -/
def noOptions (z : Zip) : Prop :=
  (∀ a ∈ argsOf z.e, argName a ≠ some (cs! "fixed") ∧ argName a ≠ some (cs! "ignore.case")) ∧
  ∀ f g args g2, z.e = .call f g .par args g2 → (unnamedArgs (items args)).length ≤ if fnName f = cs! "sub" ∨ fnName f = cs! "gsub" then 3 else 2

/-- At most two arguments; if they are calls, then with one argument. -/
def atMostTwo (z : Zip) : Prop := (argsOf z.e).length ≤ 2 ∧ ∀ a ∈ argsOf z.e, ∀ v, argValue a = some v → callsOne v

/-- At most two arguments. -/
def twoArgs (z : Zip) : Prop := (argsOf z.e).length ≤ 2

/-- One argument for `expect_true`, two for `expect_equal`; if they are calls, then with one argument. -/
def expectArgs (z : Zip) : Prop :=
  (∀ f g args g2, z.e = .call f g .par args g2 → (items args).length ≤ if fnName f = cs! "expect_true" then 1 else 2) ∧
  ∀ a ∈ argsOf z.e, ∀ v, argValue a = some v → callsOne v

/-- Not `NULL %in% x`. -/
def notNullIn (z : Zip) : Prop := ∀ l g o r, z.e = .bin l g o r → o = .special (cs! "in") → isAtom .null l = false

/-- The options of `order` are among those of `sort`, each given once. -/
def sortOptions (z : Zip) : Prop :=
  ∀ f g b g2 g' oargs g2', z.e = .call f g .brk (.call b g2 .par oargs g2') g' →
    ((namedArgs (items oargs)).map argName).Nodup ∧ ∀ a ∈ namedArgs (items oargs), argName a ∈ [some (cs! "na.last"), some (cs! "decreasing"), some (cs! "method")]

/-- Without the parentheses it is still an argument, not an assignment with `=`. -/
def notEq (z : Zip) : Prop := ∀ a ∈ argsOf z.e, ∀ g g1 b g2, argValue a = some (.un g .bang (.paren g1 b g2)) → argBp ≤ lp b

/-- The names of the arguments of a call in the argument are different. -/
def innerNames (z : Zip) : Prop := ∀ a ∈ argsOf z.e, ∀ v, argValue a = some v → ((namedArgs (argsOf v)).map argName).Nodup

/-- A call in an argument has one argument. -/
def innerPlain (z : Zip) : Prop := ∀ a ∈ argsOf z.e, ∀ v, argValue a = some v → callsOne v

/-- The sides are such that they can stand beside `<-`. -/
def plainSides (z : Zip) : Prop :=
  ∀ l g o r, z.e = .bin l g o r → (o = .eq → lbp .assign < rp l ∧ rbp .assign ≤ lp r) ∧ (o = .rassign → lbp .assign < rp r)

/-- The call `substr` has three arguments without names, and the places given are those of the start or the end of the string. -/
def boundaryPlaces (z : Zip) : Prop :=
  ∀ l g o r, z.e = .bin l g o r → ∀ c s, (c = l ∧ s = r ∨ c = r ∧ s = l) → (∃ f g args g2, c = .call f g .par args g2) →
    ∃ x start stop, argsOf c = [x, start, stop] ∧ noNames c ∧ (StartOf (core start) (core stop) (core s) ∨ EndOf (core x) (core start) (core stop) (core s))

/-- One line, or not inside parentheses or brackets. -/
def statementLines (z : Zip) : Prop := modeAt z.fs ≠ .free ∨ oneLine (toks z.e)

/-- One argument; if it is a string, then there is no blank behind a `%` and no character is written with its code. -/
def plainFormat (z : Zip) : Prop := oneArg z.e ∧ ∀ a ∈ argsOf z.e, ∀ g s, argValue a = some (.atom g .str s) → NoBlank s ∧ NoCodes s

/-- `is.null` has one argument, and both sides can stand beside `%||%`. -/
def tightSides (z : Zip) : Prop :=
  ∀ g g2 c g3 t g4 e, z.e = .ifElse g g2 c g3 t g4 e →
    (∀ x y, (x, y) = (match c with | .un .. => (t, e) | _ => (e, t)) → lbp (.special (cs! "||")) < rp (singleStatement x) ∧ rbp (.special (cs! "||")) ≤ lp (singleStatement y)) ∧
    callsOne c ∧ ∀ g a, c = .un g .bang a → callsOne a

end Jarl.Spec
