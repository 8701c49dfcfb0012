import Verif.RSyntax
import Verif.Sprintf
/-!
# RRules: the lint rules that rewrite R code

For each rule the fix it proposes: the node to replace and the tokens to put there. The Rust code builds text with `format!`; here
the text is a list of tokens. Simplifications, for all rules: comparing the text of two nodes is comparing their tokens (blanks do not count);
the tokens of the pieces put together by `format!` are the tokens of the whole (no two tokens grow together); a comment behind the last token of a
piece copied with `to_string()` belongs to the next token here, so it is not copied (the theorems about fixes ask for replaced code without comments
inside).
Where a rule reports without proposing a fix (`Fix::empty()`), the model says `none`.
-/
namespace Jarl

/-- A proposed fix. `Fix` in diagnostic.rs; `skip` is `to_skip`. -/
structure Edit where
  z : Zip
  content : List Tok
  skip : Bool
deriving DecidableEq, Repr

/-- The tokens with another gap in front. -/
def setHead (g : Gap) : List Tok → List Tok
  | [] => []
  | t :: ts => { t with gap := g } :: ts

/-- `text_trimmed()`, `to_trimmed_string()`: the text of a node without what is in front of it. -/
def trimmed (e : Node) : List Tok := setHead .none (toks e)

/-- A token of fresh text. -/
def tk (k : TK) : Tok := ⟨.none, k⟩

/-- `name(content)`, with `format!("name({})", …)`. -/
def callText (name : Str) (content : List Tok) : List Tok := tk (.atom .id name) :: tk (.open .par) :: content ++ [tk (.close .par)]

/-- `.join(", ")`. -/
def joinComma : List (List Tok) → List Tok
  | [] => []
  | [a] => a
  | a :: as => a ++ tk .comma :: joinComma as

/-- There is a comment in the gap. -/
def Gap.comment (g : Gap) : Bool := g.trail || g.own

/-- There is a comment inside the tokens, not counting what is in front of the first. -/
def innerComments : List Tok → Bool
  | [] => false
  | _ :: ts => ts.any (·.gap.comment)

/-- `node_contains_comments` (utils.rs 397-408): there are comments in the node, but none on its own line directly in front and
none directly behind. Simplification: a comment behind the last token of the program is not in the model. -/
def containsComments (z : Zip) : Bool :=
  let lead := match toks z.e with | [] => false | t :: _ => t.gap.own
  let trail := match afterToks z.fs with | [] => false | t :: _ => t.gap.trail
  (innerComments (toks z.e) || lead || trail) && !trail && !lead

/-- The usual fix: replace the node, unless there are comments. -/
def fixAt (z : Zip) (content : List Tok) : Edit := ⟨z, content, containsComments z⟩

/-! ## Looking at nodes -/

/-- `as_r_call`: callee and arguments. -/
def asCall : Node → Option (Node × Node)
  | .call f _ .par args _ => some (f, args)
  | _ => none

/-- `RSubset`: object and arguments. -/
def asSubset : Node → Option (Node × Node)
  | .call f _ .brk args _ => some (f, args)
  | _ => none

/-- `as_r_binary_expression`. -/
def asBin : Node → Option (Node × Op × Node)
  | .bin l _ o r => some (l, o, r)
  | _ => none

/-- `as_r_unary_expression`. -/
def asUn : Node → Option (Op × Node)
  | .un _ o e => some (o, e)
  | _ => none

/-- `as_r_parenthesized_expression`. -/
def asParen : Node → Option Node
  | .paren _ e _ => some e
  | _ => none

/-- The kind of an atom. -/
def isAtom (k : AKind) : Node → Bool
  | .atom _ k' _ => k' = k
  | _ => false

/-- `to_trimmed_text() == s`, for a text that is one token. `pkg::name` is one token here, but its text is not a name. -/
def textIs (s : Str) : Node → Bool
  | .atom _ (.ns ..) _ => false
  | .atom _ _ s' => s' = s
  | _ => false

/-- `text_trimmed() == text_trimmed()`. -/
def sameText (a b : Node) : Bool := trimmed a = trimmed b

/-- `get_function_name` (utils.rs 216-261). -/
def fnName : Node → Str
  | .atom _ .id s => s
  | .atom _ (.ns ..) s => s
  | .atom _ .return _ => cs! "return"
  | .ext (.atom _ .id a) _ slot _ .id b => a ++ (if slot then cs! "@" else cs! "$") ++ b
  | _ => []

/-- A call of the function with this name. -/
def calls (name : Str) (e : Node) : Bool :=
  match asCall e with
  | some (f, _) => fnName f = name
  | none => false

/-- `get_function_namespace_prefix` (utils.rs 263-281) with the new name behind it: `pkg::name`, whether it was `::` or `:::`. -/
def prefixed (f : Node) (name : Str) : Tok :=
  match f with
  | .atom _ (.ns pkg _) _ => tk (.atom (.ns pkg false) name)
  | _ => tk (.atom .id name)

/-- `{prefix}name(content)`. -/
def prefixedText (f : Node) (name : Str) (content : List Tok) : List Tok :=
  prefixed f name :: tk (.open .par) :: content ++ [tk (.close .par)]

/-- The arguments, separated at the commas. -/
def argList : Node → List Node
  | .comma a _ rest => a :: argList rest
  | n => [n]

/-- `arguments()?.items()`: `f()` has none. -/
def items (args : Node) : List Node := if args = .hole then [] else argList args

/-- `name_clause()` of an argument. -/
def argName : Node → Option Str
  | .named _ _ s _ _ => some s
  | _ => none

/-- `value()` of an argument. -/
def argValue : Node → Option Node
  | .named _ _ _ _ .hole => none
  | .named _ _ _ _ e => some e
  | .hole => none
  | e => some e

/-- `get_unnamed_args` (utils.rs 104-111). -/
def unnamedArgs (as : List Node) : List Node := as.filter (fun a => (argName a).isNone)

/-- `get_named_args` (utils.rs 114-121). -/
def namedArgs (as : List Node) : List Node := as.filter (fun a => (argName a).isSome)

/-- `get_arg_by_name` (utils.rs 124-138). -/
def argByName (as : List Node) (name : Str) : Option Node := as.find? (fun a => argName a = some name)

/-- `get_arg_by_name_then_position` (utils.rs 157-166); `pos` counts from 0 here. -/
def argBy (as : List Node) (name : Str) (pos : Nat) : Option Node :=
  match argByName as name with
  | some a => some a
  | none => (unnamedArgs as)[pos]?

/-- The value of an argument found by name or position: `argBy`, then `value()`. -/
def valueBy (as : List Node) (name : Str) (pos : Nat) : Option Node := (argBy as name pos).bind argValue

/-- `drop_arg_by_name_or_position` (utils.rs 176-214); `pos` counts from 0 here. -/
def dropArg (as : List Node) (name : Str) (pos : Nat) : Option (List Node) :=
  if as.any (fun a => argName a = some name) then some (as.filter (fun a => argName a ≠ some name))
  else if pos < as.length then some (as.eraseIdx pos)
  else none

/-- `outer(inner(content))`, `inner(content) |> outer()`, `content |> inner() |> outer()`: the text of the content and the node that is the
whole. `get_nested_functions_content` (utils.rs 290-375). -/
def nested (z : Zip) (outer inner : Str) : Option (List Tok × Zip) := do
  let (f, args) ← asCall z.e
  guard (fnName f = outer)
  let direct := do
    let a ← (unnamedArgs (items args)).head?
    let v ← argValue a
    let (f2, args2) ← asCall v
    guard (fnName f2 = inner)
    some (toks args2, z)
  let piped := do
    let p ← z.up
    let (l, o, _) ← asBin p.e
    guard (o = .pipe)
    let caseA := do
      let (f2, args2) ← asCall l
      guard (fnName f2 = inner)
      some (toks args2, p)
    let caseB := do
      let (c, o2, r) ← asBin l
      guard (o2 = .pipe)
      let (f2, args2) ← asCall r
      guard (fnName f2 = inner)
      guard ((unnamedArgs (items args2)).isEmpty)
      some (trimmed c, p)
    caseA <|> caseB
  direct <|> piped

/-! ## Rules on calls -/

/-- `any(is.na(x))` → `anyNA(x)`. any_is_na.rs 32-51. -/
def anyIsNa (z : Zip) : Option Edit := do
  let (c, t) ← nested z (cs! "any") (cs! "is.na")
  some (fixAt t (callText (cs! "anyNA") c))

/-- `any(duplicated(x))` → `anyDuplicated(x) > 0`. any_duplicated.rs 50-65. -/
def anyDuplicated (z : Zip) : Option Edit := do
  let (c, t) ← nested z (cs! "any") (cs! "duplicated")
  some (fixAt t (callText (cs! "anyDuplicated") c ++ [tk (.op .gt), tk (.atom .double (cs! "0"))]))

/-- `which(grepl(p, x))` → `grep(p, x)`. which_grepl.rs 46-61. -/
def whichGrepl (z : Zip) : Option Edit := do
  let (c, t) ← nested z (cs! "which") (cs! "grepl")
  some (fixAt t (callText (cs! "grep") c))

/-- `length(levels(x))` → `nlevels(x)`. length_levels.rs 41-56. -/
def lengthLevels (z : Zip) : Option Edit := do
  let (c, t) ← nested z (cs! "length") (cs! "levels")
  some (fixAt t (callText (cs! "nlevels") c))

/-- The comparison operators. -/
def isComparison (o : Op) : Bool := o = .eq2 || o = .gt || o = .ge || o = .lt || o = .le || o = .ne

/-- `length(x == y)` → `length(x) == y`. length_test.rs 41-100. -/
def lengthTest (z : Zip) : Option Edit := do
  let (f, args) ← asCall z.e
  guard (fnName f = cs! "length")
  let a ← (items args).head?
  let v ← argValue a
  let (l, o, r) ← asBin v
  guard (isComparison o)
  some (fixAt z (callText (cs! "length") (trimmed l) ++ tk (.op o) :: trimmed r))

/-- `parent_is_bang_unary` (utils_ast.rs 73-88). -/
def underBang (fs : List Frame) : Bool :=
  match fs with
  | .un _ .bang :: .un _ _ :: _ => false
  | .un _ .bang :: _ => true
  | _ => false

/-- `any(!x)` → `!all(x)` and the reverse. outer_negation.rs 33-114. The test for the operator is missing in the code as well. -/
def outerNegation (z : Zip) : Option Edit := do
  guard (!underBang z.fs)
  let (f, args) ← asCall z.e
  let new ← (if textIs (cs! "any") f then some (cs! "all") else if textIs (cs! "all") f then some (cs! "any") else none)
  let a ← (items args)[0]?
  guard ((items args)[1]?.isNone)
  let v ← argValue a
  let (_, e) ← asUn v
  guard ((asUn e).isNone)
  some (fixAt z (tk (.op .bang) :: callText new (trimmed e)))

/-- `ifelse(c, TRUE, FALSE)` → `c`, `ifelse(c, FALSE, TRUE)` → `!(c)`. redundant_ifelse.rs 40-136. -/
def redundantIfelse (z : Zip) : Option Edit := do
  let (f, args) ← asCall z.e
  let (n1, n2, n3) ← (if fnName f = cs! "ifelse" ∨ fnName f = cs! "fifelse" then some (cs! "test", cs! "yes", cs! "no")
    else if fnName f = cs! "if_else" then some (cs! "condition", cs! "true", cs! "false") else none)
  guard ((items args).length = 3)
  let c ← valueBy (items args) n1 0
  let t ← valueBy (items args) n2 1
  let e ← valueBy (items args) n3 2
  if isAtom .true t && isAtom .false e then some (fixAt z (toks c))
  else if isAtom .false t && isAtom .true e then
    some (fixAt z (tk (.op .bang) :: tk (.open .par) :: toks c ++ [tk (.close .par)]))
  else none

/-- `isFALSE(all.equal(a, b))` → `!isTRUE(all.equal(a, b))`. all_equal.rs 55-76. -/
def allEqualFalse (z : Zip) : Option Edit := do
  let (c, t) ← nested z (cs! "isFALSE") (cs! "all.equal")
  some (fixAt t (tk (.op .bang) :: callText (cs! "isTRUE") (callText (cs! "all.equal") c)))

/-- `if (all.equal(a, b))` → `if (isTRUE(all.equal(a, b)))`, also for `while` and `!`. all_equal.rs 78-116. -/
def allEqualTrue (z : Zip) : Option Edit := do
  guard ((nested z (cs! "isFALSE") (cs! "all.equal")).isNone)
  let (f, _) ← asCall z.e
  guard (fnName f = cs! "all.equal")
  let text := callText (cs! "isTRUE") (trimmed z.e)
  match z.fs with
  | .ifC .. :: _ | .ieC .. :: _ | .whileC .. :: _ => some (fixAt z text)
  | .un g o :: fs =>
    guard (underBang z.fs)
    some ⟨⟨fs, .un g o z.e⟩, tk (.op .bang) :: text, containsComments z⟩
  | _ => none

/-- `identical(class(x), "a")` → `inherits(x, "a")`; the pieces. class_equals.rs 187-248. -/
def classAndString (l r : Node) : Option (List Tok × List Tok) :=
  let content (c s : Node) := do
    let (f, args) ← asCall c
    guard (fnName f = cs! "class")
    guard (isAtom .str s)
    let a ← (items args)[0]?
    some (trimmed a, trimmed s)
  content l r <|> content r l

/-- class_equals.rs 129-169. -/
def classIdentical (z : Zip) : Option Edit := do
  let (f, args) ← asCall z.e
  guard (fnName f = cs! "identical")
  let a ← (items args)[0]?
  let b ← (items args)[1]?
  let va ← argValue a
  let vb ← argValue b
  let (c, s) ← classAndString va vb
  some (fixAt z (callText (cs! "inherits") (c ++ tk .comma :: s)))

/-- `sapply(x, length)` → `lengths(x)`. lengths.rs 48-85. -/
def lengths (z : Zip) : Option Edit := do
  let (f, args) ← asCall z.e
  guard (fnName f ∈ [cs! "sapply", cs! "vapply", cs! "map_dbl", cs! "map_int"])
  let fn ← argBy (items args) (cs! "FUN") 1
  let v ← argValue fn
  guard (textIs (cs! "length") v)
  let x ← argBy (items args) (cs! "x") 0
  some (fixAt z (callText (cs! "lengths") (trimmed x)))

/-- `sample(1:n, m)` → `sample.int(n, m)`. sample_int.rs 49-109. -/
def sampleInt (z : Zip) : Option Edit := do
  let (f, args) ← asCall z.e
  guard (fnName f = cs! "sample")
  let n ← valueBy (items args) (cs! "n") 0
  let (l, o, r) ← asBin n
  guard (textIs (cs! "1") l || textIs (cs! "1L") l)
  guard (o = .colon)
  let content := match dropArg (items args) (cs! "n") 0 with
    | some as => trimmed r ++ tk .comma :: joinComma (as.map trimmed)
    | none => trimmed r
  some (fixAt z (callText (cs! "sample.int") content))

/-- `grep(p, x, value = TRUE)` → `grepv(p, x)`. grepv.rs 49-91. -/
def grepv (z : Zip) : Option Edit := do
  let (f, args) ← asCall z.e
  guard (fnName f = cs! "grep")
  guard ((argBy (items args) (cs! "value") 4).isSome)
  let as := (dropArg (items args) (cs! "value") 4).getD []
  some (fixAt z (callText (cs! "grepv") (joinComma (as.map trimmed))))

/-- `system.file(file.path("a", "b"), package = "p")` → `system.file("a", "b", package = "p")`. system_file.rs 44-115. -/
def systemFile (z : Zip) : Option Edit := do
  let (f, args) ← asCall z.e
  guard (fnName f = cs! "system.file")
  let isPath (a : Node) : Bool := match argValue a with
    | some v => match asCall v with | some (g, _) => textIs (cs! "file.path") g | none => false
    | none => false
  let paths := (unnamedArgs (items args)).filter isPath
  guard (paths.length = 1)
  let p ← paths.head?
  let v ← argValue p
  let (_, inner) ← asCall v
  let parts := (items inner).filter (fun a => (argValue a).isSome)
  guard (!parts.isEmpty)
  some (fixAt z (callText (cs! "system.file")
    (joinComma (parts.map trimmed) ++ tk .comma :: joinComma ((namedArgs (items args)).map trimmed))))

/-- `do.call(cbind.data.frame, x)` → `list2DF(x)`. list2df.rs 53-96. -/
def list2df (z : Zip) : Option Edit := do
  let (f, args) ← asCall z.e
  guard (fnName f = cs! "do.call")
  let what ← argBy (items args) (cs! "what") 0
  let x ← argBy (items args) (cs! "args") 1
  guard ((items args)[2]?.isNone)
  let w ← argValue what
  guard (textIs (cs! "cbind.data.frame") w || textIs (cs! "\"cbind.data.frame\"") w || textIs (cs! "'cbind.data.frame'") w)
  let v ← argValue x
  some (fixAt z (callText (cs! "list2DF") (trimmed v)))

/-- `apply(x, 1, mean)` → `rowMeans(x)`, … matrix_apply.rs 56-154. -/
def matrixApply (z : Zip) : Option Edit := do
  let (f, args) ← asCall z.e
  guard (fnName f = cs! "apply")
  let as := items args
  let naRm := argByName as (cs! "na.rm")
  guard (as.length ≤ if naRm.isSome then 4 else 3)
  let x ← valueBy as (cs! "X") 0
  let fn ← valueBy as (cs! "FUN") 2
  let mean := textIs (cs! "mean") fn
  guard (mean || textIs (cs! "sum") fn)
  let m ← valueBy as (cs! "MARGIN") 1
  let row := textIs (cs! "1") m || textIs (cs! "1L") m
  guard (row || textIs (cs! "2") m || textIs (cs! "2L") m)
  let name := match mean, row with
    | true, true => cs! "rowMeans" | true, false => cs! "colMeans" | false, true => cs! "rowSums" | false, false => cs! "colSums"
  let content := match naRm with
    | some a => trimmed x ++ tk .comma :: trimmed a
    | none => trimmed x
  some (fixAt z (callText name content))

/-- The functions whose result `seq` and `seq2` look for. -/
def sizeFns : List Str := [cs! "length", cs! "nrow", cs! "ncol", cs! "NROW", cs! "NCOL"]

/-- The text that replaces `1:length(x)` or `seq(length(x))`, and so on. seq.rs 75-98, seq2.rs 80-100. -/
def seqText (name : Str) (content : List Tok) : List Tok :=
  if name = cs! "length" then callText (cs! "seq_along") content else callText (cs! "seq_len") (callText name content)

/-- `seq(length(x))` → `seq_along(x)`. seq2.rs 43-123. -/
def seq2 (z : Zip) : Option Edit := do
  let (f, args) ← asCall z.e
  guard (fnName f = cs! "seq")
  guard ((items args).length = 1)
  let a ← (unnamedArgs (items args)).head?
  let v ← argValue a
  let (f2, args2) ← asCall v
  guard (fnName f2 ∈ sizeFns)
  some (fixAt z (seqText (fnName f2) (toks args2)))

/-- `is_fixed_pattern` on the text of a string without the quotes at its ends (fixed_regex.rs 96-102, 143-147). -/
def isFixedPattern (s : Str) : Bool :=
  let q (c : Char) : Bool := c = '"' || c = '\''
  ((s.dropWhile q).reverse.dropWhile q).all (fun c => c ∉ ['.', '*', '+', '?', '[', '{', '(', ')', '|', '^', '$', '\\'])

/-- `gsub("a", "b", x)` → `gsub("a", "b", x, fixed = TRUE)`. fixed_regex.rs 51-140. -/
def fixedRegex (z : Zip) : Option Edit := do
  let (f, args) ← asCall z.e
  let name := fnName f
  let as := items args
  let fixedPos ← (if name ∈ [cs! "grep", cs! "gsub", cs! "sub"] then some 5
    else if name ∈ [cs! "regexpr", cs! "gregexpr", cs! "regexec", cs! "grepl"] then some 4 else none)
  let casePos := if name ∈ [cs! "gsub", cs! "sub"] then 3 else 2
  let has (n : Str) (pos : Nat) (text : Str) : Bool := match valueBy as n pos with | some v => textIs text v | none => false
  guard (!has (cs! "fixed") fixedPos (cs! "TRUE"))
  guard (!has (cs! "ignore.case") casePos (cs! "TRUE"))
  let p ← valueBy as (cs! "pattern") 0
  let s ← (match p with | .atom _ .str s => some s | _ => none)
  guard (isFixedPattern s)
  let kept ← (if has (cs! "fixed") fixedPos (cs! "FALSE") then dropArg as (cs! "fixed") fixedPos else some as)
  some (fixAt z (callText name (joinComma (kept.map trimmed) ++
    [tk .comma, tk (.atom .id (cs! "fixed")), tk (.op .eq), tk (.atom .true (cs! "TRUE"))])))

/-! ## testthat rules -/

/-- `expect_equal` or `expect_identical`. -/
def isExpectEqual (f : Node) : Bool := fnName f = cs! "expect_equal" || fnName f = cs! "expect_identical"

/-- `expect_equal(names(x), n)` → `expect_named(x, n)`. expect_named.rs 34-109. -/
def expectNamed (z : Zip) : Option Edit := do
  let (f, args) ← asCall z.e
  guard (isExpectEqual f)
  let obj ← valueBy (items args) (cs! "object") 0
  let exp ← valueBy (items args) (cs! "expected") 1
  let (nf, nargs) ← asCall obj
  guard (fnName nf = cs! "names")
  guard (!calls (cs! "names") exp)
  let x ← valueBy (items nargs) (cs! "x") 0
  some (fixAt z (prefixedText f (cs! "expect_named") (trimmed x ++ tk .comma :: trimmed exp)))

/-- `expect_equal(x, TRUE)` → `expect_true(x)`. expect_true_false.rs 35-113. -/
def expectTrueFalse (z : Zip) : Option Edit := do
  let (f, args) ← asCall z.e
  guard (isExpectEqual f)
  let obj ← valueBy (items args) (cs! "object") 0
  let exp ← valueBy (items args) (cs! "expected") 1
  let (b, other) ← (if textIs (cs! "TRUE") obj then some (true, exp) else if textIs (cs! "FALSE") obj then some (false, exp)
    else if textIs (cs! "TRUE") exp then some (true, obj) else if textIs (cs! "FALSE") exp then some (false, obj) else none)
  some (fixAt z (prefixedText f (if b then cs! "expect_true" else cs! "expect_false") (trimmed other)))

/-- `expect_true(!x)` → `expect_false(x)`. expect_not.rs 41-125. -/
def expectNot (z : Zip) : Option Edit := do
  let (f, args) ← asCall z.e
  guard (fnName f = cs! "expect_true" ∨ fnName f = cs! "expect_false")
  let obj ← valueBy (items args) (cs! "object") 0
  guard ((items args).length ≤ 1)
  let (o, a) ← asUn obj
  guard (o = .bang)
  guard ((asUn a).all (fun q => q.1 ≠ .bang))
  let inner := match asParen a with | some b => b | none => a
  some (fixAt z (prefixedText f (if fnName f = cs! "expect_true" then cs! "expect_false" else cs! "expect_true") (trimmed inner)))

/-- `expect_equal(x, NULL)` → `expect_null(x)`, `expect_true(is.null(x))` → `expect_null(x)`. expect_null.rs 37-141. -/
def expectNull (z : Zip) : Option Edit := do
  let (f, args) ← asCall z.e
  if isExpectEqual f then
    let obj ← valueBy (items args) (cs! "object") 0
    let exp ← valueBy (items args) (cs! "expected") 1
    let other ← (if isAtom .null exp then some obj else if isAtom .null obj then some exp else none)
    some (fixAt z (prefixedText f (cs! "expect_null") (trimmed other)))
  else
    guard (fnName f = cs! "expect_true")
    let obj ← valueBy (items args) (cs! "object") 0
    let (g, iargs) ← asCall obj
    guard (fnName g = cs! "is.null")
    let x ← valueBy (items iargs) (cs! "x") 0
    some (fixAt z (prefixedText f (cs! "expect_null") (trimmed x)))

/-- `expect_equal(length(x), n)` → `expect_length(x, n)`. expect_length.rs 36-145. -/
def expectLength (z : Zip) : Option Edit := do
  let (f, args) ← asCall z.e
  guard (isExpectEqual f)
  let obj ← valueBy (items args) (cs! "object") 0
  let exp ← valueBy (items args) (cs! "expected") 1
  guard ((items args).length ≤ 2)
  let (c, other) ← (if calls (cs! "length") obj then some (obj, exp) else if calls (cs! "length") exp then some (exp, obj) else none)
  guard (!calls (cs! "length") other)
  let (_, largs) ← asCall c
  let x ← valueBy (items largs) (cs! "x") 0
  some (fixAt z (prefixedText f (cs! "expect_length") (trimmed x ++ tk .comma :: trimmed other)))

/-- The types of `expect_true(is.<type>(x))` (expect_type.rs 132-147). -/
def typeNames : List (Str × Str) :=
  [(cs! "is.logical", cs! "\"logical\""), (cs! "is.integer", cs! "\"integer\""), (cs! "is.double", cs! "\"double\""),
   (cs! "is.complex", cs! "\"complex\""), (cs! "is.character", cs! "\"character\""), (cs! "is.raw", cs! "\"raw\""),
   (cs! "is.list", cs! "\"list\""), (cs! "is.null", cs! "\"NULL\""), (cs! "is.symbol", cs! "\"symbol\""),
   (cs! "is.expression", cs! "\"expression\""), (cs! "is.language", cs! "\"language\""),
   (cs! "is.environment", cs! "\"environment\""), (cs! "is.pairlist", cs! "\"pairlist\"")]

/-- `expect_equal(typeof(x), t)` → `expect_type(x, t)`, `expect_true(is.raw(x))` → `expect_type(x, "raw")`. expect_type.rs 37-188. -/
def expectType (z : Zip) : Option Edit := do
  let (f, args) ← asCall z.e
  if isExpectEqual f then
    guard ((items args).length ≤ 2)
    let obj ← valueBy (items args) (cs! "object") 0
    let exp ← valueBy (items args) (cs! "expected") 1
    let (c, other) ← (if calls (cs! "typeof") obj then some (obj, exp) else if calls (cs! "typeof") exp then some (exp, obj) else none)
    let (_, iargs) ← asCall c
    let x ← valueBy (items iargs) (cs! "x") 0
    some (fixAt z (prefixedText f (cs! "expect_type") (trimmed x ++ tk .comma :: trimmed other)))
  else
    guard (fnName f = cs! "expect_true")
    guard ((items args).length ≤ 1)
    let obj ← valueBy (items args) (cs! "object") 0
    let (g, iargs) ← asCall obj
    let ty ← typeNames.lookup (fnName g)
    let x ← valueBy (items iargs) (cs! "x") 0
    some (fixAt z (prefixedText f (cs! "expect_type") (trimmed x ++ tk .comma :: [tk (.atom .str ty)])))

/-- `IGNORED_CLASSES` (expect_s3_class.rs 145-179). -/
def ignoredClasses : List Str :=
  [cs! "NULL", cs! "symbol", cs! "pairlist", cs! "closure", cs! "environment", cs! "promise", cs! "language", cs! "special",
   cs! "builtin", cs! "char", cs! "logical", cs! "integer", cs! "double", cs! "complex", cs! "character", cs! "...", cs! "any",
   cs! "expression", cs! "list", cs! "externalptr", cs! "bytecode", cs! "weakref", cs! "raw", cs! "S4", cs! "object",
   cs! "numeric", cs! "name", cs! "matrix", cs! "array", cs! "function"]

/-- `expect_equal(class(x), "k")` → `expect_s3_class(x, "k")`. expect_s3_class.rs 58-141, 181-195. -/
def expectS3Class (z : Zip) : Option Edit := do
  let (f, args) ← asCall z.e
  guard (isExpectEqual f)
  let obj ← argBy (items args) (cs! "object") 0
  let exp ← argBy (items args) (cs! "expected") 1
  guard ((items args).length ≤ 2)
  let obj ← argValue obj
  let exp ← argValue exp
  let (c, other) ← (if (asCall obj).isSome then (if calls (cs! "class") obj then some (obj, exp) else none)
    else if calls (cs! "class") exp then some (exp, obj) else none)
  let s ← (match other with | .atom _ .str s => some s | _ => none)
  guard (s.filter (fun c => c ≠ '"' ∧ c ≠ '\'') ∉ ignoredClasses)
  let (_, iargs) ← asCall c
  let x ← valueBy (items iargs) (cs! "x") 0
  some (fixAt z (prefixedText f (cs! "expect_s3_class") (trimmed x ++ tk .comma :: trimmed other)))

/-- `expect_true(grepl(p, x))` → `expect_match(x, p)`, `expect_false(grepl(p, x))` → `expect_no_match(x, p)`. expect_match.rs 53-162,
expect_no_match.rs 53-163: the code compares the places of the arguments in the text, here the arguments other than the two are
those at other positions. -/
def expectMatch (z : Zip) (outer new : Str) : Option Edit := do
  let (f, args) ← asCall z.e
  guard (fnName f = outer)
  guard ((nested z outer (cs! "grepl")).all (fun q => q.2 = z))
  let obj ← valueBy (items args) (cs! "object") 0
  let (g, gargs) ← asCall obj
  guard (fnName g = cs! "grepl")
  let as := items gargs
  let at' (n : Str) (pos : Nat) : Option Nat :=
    match as.findIdx? (fun a => argName a = some n) with
    | some i => some i
    | none => ((List.range as.length).filter (fun i => match as[i]? with | some a => (argName a).isNone | none => false))[pos]?
  let ip ← at' (cs! "pattern") 0
  let ix ← at' (cs! "x") 1
  let x ← as[ix]?.bind argValue
  let p ← as[ip]?.bind argValue
  guard ((items args).length ≤ 1)
  let rest := (as.zipIdx.filter (fun q => q.2 ≠ ip ∧ q.2 ≠ ix)).map (·.1)
  guard (rest.all (fun a => (argName a).isSome))
  some (fixAt z (prefixedText f new (joinComma (trimmed x :: trimmed p :: rest.map trimmed))))

/-! ## Rules on binary expressions -/

/-- `NA %in% x` → `anyNA(x)`. any_is_na.rs 53-98. -/
def anyIsNa2 (z : Zip) : Option Edit := do
  let (l, o, r) ← asBin z.e
  guard (o = .special (cs! "in"))
  guard (!isAtom .na r && isAtom .na l)
  some (fixAt z (callText (cs! "anyNA") (trimmed r)))

/-- `==`, `!=` or `%in%` with a special value on one side: the text of the call on the other side. equals_na.rs 47-129,
equals_nan.rs 47-120, equals_null.rs 53-116; `bothWays`: `NA %in% x` is left out by equals_na and equals_nan. -/
def equalsSpecial (special : Node → Bool) (name : Str) (bothWays : Bool) (z : Zip) : Option Edit := do
  let (l, o, r) ← asBin z.e
  let isIn : Bool := o = .special (cs! "in")
  guard (o = .eq2 ∨ o = .ne ∨ isIn)
  guard (bothWays || !(isIn && special l))
  guard (special l != special r)
  let call := callText name (trimmed (if special l then r else l))
  some (fixAt z (if o = .ne then tk (.op .bang) :: call else call))

/-- `x == NA` → `is.na(x)`. equals_na.rs 47-129. -/
def equalsNa (z : Zip) : Option Edit :=
  equalsSpecial (fun e => [cs! "NA", cs! "NA_character_", cs! "NA_integer_", cs! "NA_real_", cs! "NA_logical_", cs! "NA_complex_"].any (textIs · e))
    (cs! "is.na") false z

/-- `x == NaN` → `is.nan(x)`. equals_nan.rs 47-120. -/
def equalsNan (z : Zip) : Option Edit := equalsSpecial (isAtom .nan) (cs! "is.nan") false z

/-- `x == NULL` → `is.null(x)`. equals_null.rs 53-116. -/
def equalsNull (z : Zip) : Option Edit := equalsSpecial (isAtom .null) (cs! "is.null") true z

/-- `is.numeric(x) || is.integer(x)` → `is.numeric(x)`. is_numeric.rs 45-97. -/
def isNumeric (z : Zip) : Option Edit := do
  let (l, o, r) ← asBin z.e
  guard (o = .or2)
  let (fl, al) ← asCall l
  let (fr, ar) ← asCall r
  guard ((textIs (cs! "is.integer") fl && textIs (cs! "is.numeric") fr) || (textIs (cs! "is.numeric") fl && textIs (cs! "is.integer") fr))
  guard (toks al = toks ar)
  some (fixAt z (callText (cs! "is.numeric") (toks al)))

/-- `x == TRUE` → `x`, `x == FALSE` → `!x`, and the reverse for `!=`. redundant_equals.rs 48-113. -/
def redundantEquals (z : Zip) : Option Edit := do
  let (l, o, r) ← asBin z.e
  guard (o = .eq2 ∨ o = .ne)
  let (keep, other) ← (if isAtom .true l then some (decide (o = .eq2), r) else if isAtom .true r then some (decide (o = .eq2), l)
    else if isAtom .false l then some (decide (o = .ne), r) else if isAtom .false r then some (decide (o = .ne), l) else none)
  some (fixAt z (if keep then trimmed other else tk (.op .bang) :: trimmed other))

/-- In the condition of an `if` or `while`. class_equals.rs 171-185. -/
def inCondition : List Frame → Bool
  | .ifC .. :: _ | .ieC .. :: _ | .whileC .. :: _ => true
  | _ => false

/-- `if (class(x) == "a")` → `if (inherits(x, "a"))`. class_equals.rs 64-127. -/
def classEquals (z : Zip) : Option Edit := do
  let (l, o, r) ← asBin z.e
  guard (o = .eq2 ∨ o = .ne ∨ o = .special (cs! "in"))
  guard (inCondition z.fs)
  let (c, s) ← classAndString l r
  let call := callText (cs! "inherits") (c ++ tk .comma :: s)
  some (fixAt z (if o = .ne then tk (.op .bang) :: call else call))

/-- `1:length(x)` → `seq_along(x)`. seq.rs 43-117. -/
def seq (z : Zip) : Option Edit := do
  let (l, o, r) ← asBin z.e
  guard (o = .colon)
  let (f, args) ← asCall r
  guard (textIs (cs! "1") l || textIs (cs! "1L") l)
  guard (fnName f ∈ sizeFns)
  some (fixAt z (seqText (fnName f) (joinComma ((items args).map trimmed))))

/-- `is_literal_one` (string_boundary.rs 150-169). -/
def isLiteralOne : Node → Bool
  | .atom _ .int s => s ∈ [cs! "1", cs! "1L", cs! "1l"]
  | .atom _ .double s => s ∈ [cs! "1", cs! "1.0", cs! "1."]
  | _ => false

/-- `is_nchar_of_same_expr` (string_boundary.rs 172-219). -/
def isNcharOf (x e : Node) : Bool :=
  match asCall e with
  | some (f, args) => fnName f = cs! "nchar" && (match items args with
    | [a] => (match argValue a with | some v => sameText v x | none => false)
    | _ => false)
  | none => false

/-- `substr(x, 1, 3) == "abc"` → `startsWith(x, "abc")`. string_boundary.rs 33-147. -/
def stringBoundary (z : Zip) : Option Edit := do
  let (l, o, r) ← asBin z.e
  guard (o = .eq2 ∨ o = .ne)
  let (c, s) ← (if (asCall l).isSome then some (l, r) else if (asCall r).isSome then some (r, l) else none)
  let (f, args) ← asCall c
  guard (fnName f = cs! "substr" ∨ fnName f = cs! "substring")
  let x ← (items args)[0]?.bind argValue
  let start ← (items args)[1]?.bind argValue
  let stop ← (items args)[2]?.bind argValue
  let name ← (if isLiteralOne start then some (cs! "startsWith") else if isNcharOf x stop then some (cs! "endsWith") else none)
  let call := callText name (trimmed x ++ tk .comma :: trimmed s)
  some (fixAt z (if o = .ne then tk (.op .bang) :: call else call))

/-- `x = 1` → `x <- 1`, or the reverse, with the operator asked for in the configuration (`.assign` or `.eq`). assignment.rs 37-116. -/
def assignment (want : Op) (z : Zip) : Option Edit := do
  let (l, o, r) ← asBin z.e
  let other : Op := if want = .assign then .eq else .assign
  if o = other then some ⟨z, trimmed l ++ tk (.op want) :: trimmed r, false⟩
  else if o = .rassign then some ⟨z, trimmed r ++ tk (.op want) :: trimmed l, false⟩
  else none

/-! ## Other rules -/

/-- The opposite comparison (comparison_negation.rs 57-66). -/
def negateComparison : Op → Option Op
  | .gt => some .le | .ge => some .lt | .lt => some .ge | .le => some .gt | .eq2 => some .ne | .ne => some .eq2
  | _ => none

/-- `!(x == y)` → `x != y`. comparison_negation.rs 29-90. -/
def comparisonNegation (z : Zip) : Option Edit := do
  let (o, a) ← asUn z.e
  guard (o = .bang)
  let b ← asParen a
  let (l, o2, r) ← asBin b
  let o3 ← negateComparison o2
  some (fixAt z (trimmed l ++ tk (.op o3) :: trimmed r))

/-- `x[order(x)]` → `sort(x)`. sort.rs 49-132. -/
def sortRule (z : Zip) : Option Edit := do
  let (x, args) ← asSubset z.e
  guard ((items args).length = 1)
  let a ← (items args).head?
  guard ((argName a).isNone)
  let v ← argValue a
  let (f, oargs) ← asCall v
  guard (fnName f = cs! "order")
  let as := items oargs
  guard ((unnamedArgs as).length = 1)
  let u ← (unnamedArgs as).head?
  guard (sameText u x)
  let extra := ([cs! "na.last", cs! "decreasing", cs! "method"].filterMap (argByName as)).map trimmed
  some (fixAt z (callText (cs! "sort") (joinComma (trimmed x :: extra))))

/-- `.5` → `0.5`. numeric_leading_zero.rs 36-65. -/
def numericLeadingZero (z : Zip) : Option Edit :=
  match z.e with
  | .atom _ .double ('.' :: s) => some ⟨z, [tk (.atom .double ('0' :: '.' :: s))], false⟩
  | .atom _ .complex ('.' :: s) => some ⟨z, [tk (.atom .complex ('0' :: '.' :: s))], false⟩
  | _ => none

/-- Not the function of a call, not in `x$T`, not a side of a formula (true_false_symbol.rs 51-72). -/
def tfAllowed : List Frame → Bool
  | .callF _ .par _ _ :: _ => false
  | .ext .. :: _ => false
  | .binL _ .tilde _ :: _ => false
  | .binR _ _ .tilde :: _ => false
  | _ => true

/-- `T` → `TRUE`. true_false_symbol.rs 44-91. -/
def trueFalseSymbol (z : Zip) : Option Edit := do
  let (k, new) ← (if isAtom .id z.e && textIs (cs! "T") z.e then some (AKind.true, cs! "TRUE")
    else if isAtom .id z.e && textIs (cs! "F") z.e then some (AKind.false, cs! "FALSE") else none)
  guard (tfAllowed z.fs)
  some ⟨z, [tk (.atom k new)], false⟩

/-- The body in braces (repeat.rs 50-58). -/
def inBraces (b : Node) : List Tok :=
  match b with
  | .braces .. => trimmed b
  | _ => tk .lbrace :: trimmed b ++ [tk .rbrace]

/-- `while (TRUE) body` → `repeat body`. repeat.rs 44-78. -/
def repeatRule (z : Zip) : Option Edit :=
  match z.e with
  | .whileE _ _ c _ b =>
    if isAtom .true c then some (fixAt z (tk .repeat :: inBraces b)) else none
  | _ => none

/-- The single statement in braces, or the expression itself (coalesce.rs 205-217). -/
def singleStatement : Node → Node
  | .braces _ (.scons e _ .snil) _ => e
  | e => e

/-- Several statements in braces (coalesce.rs 195-202). -/
def severalStatements : Node → Bool
  | .braces _ (.scons _ _ (.scons ..)) _ => true
  | _ => false

/-- `if (is.null(x)) y else x` → `x %||% y`. coalesce.rs 65-192. -/
def coalesce (z : Zip) : Option Edit :=
  match z.e with
  | .ifElse _ _ c _ t _ e => do
    let skip := severalStatements t || severalStatements e
    let (call, same, other) ← (match c with
      | .call .. => some (c, e, t)
      | .un _ .bang a => some (a, t, e)
      | _ => none)
    let (f, args) ← asCall call
    guard (fnName f = cs! "is.null")
    let xs := (items args).filterMap argValue
    guard (xs.length = 1)
    let x ← xs.head?
    guard (sameText x (singleStatement same))
    some ⟨z, if skip then [] else trimmed x ++ tk (.op (.special (cs! "||"))) :: trimmed (singleStatement other), containsComments z || skip⟩
  | _ => none

/-- A condition, in parentheses unless it is a name (unnecessary_nesting.rs 63-73). -/
def condText (c : Node) : List Tok :=
  if isAtom .id c then trimmed c else tk (.open .par) :: toks c ++ [tk (.close .par)]

/-- `if (a) { if (b) body }` → `if (a && b) body`. unnecessary_nesting.rs 35-100. -/
def unnecessaryNesting (z : Zip) : Option Edit :=
  match z.e with
  | .ifE _ _ c _ (.braces _ (.scons (.ifE _ _ c2 _ t2) _ .snil) _) =>
    some (fixAt z (tk .if :: tk (.open .par) :: condText c ++ tk (.op .and2) :: condText c2 ++ tk (.close .par) :: trimmed t2))
  | _ => none

/-! ## The rules, by name -/

/-- `has_previous_pipe` (utils_ast.rs 63-68): the right side of `|>`. -/
def afterPipe : List Frame → Bool
  | .binR _ _ .pipe :: _ => true
  | _ => false

/-- What is reported about a call of `sprintf`. sprintf.rs 52-147. -/
def sprintfReport (z : Zip) : Option FmtReport := do
  let (f, args) ← asCall z.e
  guard (fnName f = cs! "sprintf")
  guard (!afterPipe z.fs)
  let a ← argBy (items args) (cs! "fmt") 0
  let v ← argValue a
  let s ← (match v with | .atom _ .str s => some s | _ => none)
  checkFormat s (if (argName a).isSome then (unnamedArgs (items args)).length else (unnamedArgs (items args)).length - 1)

/-- `sprintf("abc")` → `"abc"`. sprintf.rs 91-111. -/
def sprintfRule (z : Zip) : Option Edit := do
  match ← sprintfReport z with
  | .useless s => some (fixAt z [tk (.atom .str s)])
  | _ => none

/-- The rules with fixes that keep the structure everywhere. The names are those of rule_set.rs. -/
def keepingRules : List (Str × (Zip → Option Edit)) :=
  [(cs! "all_equal", allEqualTrue), (cs! "any_is_na", anyIsNa), (cs! "any_is_na", anyIsNa2), (cs! "class_equals", classIdentical),
   (cs! "class_equals", classEquals), (cs! "equals_na", equalsNa), (cs! "equals_nan", equalsNan), (cs! "equals_null", equalsNull),
   (cs! "expect_length", expectLength), (cs! "expect_match", (expectMatch · (cs! "expect_true") (cs! "expect_match"))),
   (cs! "expect_named", expectNamed), (cs! "expect_no_match", (expectMatch · (cs! "expect_false") (cs! "expect_no_match"))),
   (cs! "expect_null", expectNull), (cs! "expect_s3_class", expectS3Class), (cs! "expect_true_false", expectTrueFalse),
   (cs! "expect_type", expectType), (cs! "fixed_regex", fixedRegex), (cs! "grepv", grepv), (cs! "is_numeric", isNumeric),
   (cs! "length_levels", lengthLevels), (cs! "lengths", lengths), (cs! "list2df", list2df), (cs! "matrix_apply", matrixApply),
   (cs! "numeric_leading_zero", numericLeadingZero), (cs! "redundant_equals", redundantEquals), (cs! "sample_int", sampleInt),
   (cs! "seq", seq), (cs! "seq2", seq2), (cs! "sort", sortRule), (cs! "string_boundary", stringBoundary), (cs! "system_file", systemFile),
   (cs! "true_false_symbol", trueFalseSymbol), (cs! "which_grepl", whichGrepl), (cs! "sprintf", sprintfRule)]

/-- The rules whose fixes put in an operator that binds less tightly than the call they replace. -/
def roomRules : List (Str × (Zip → Option Edit)) :=
  [(cs! "all_equal", allEqualFalse), (cs! "any_duplicated", anyDuplicated), (cs! "comparison_negation", comparisonNegation),
   (cs! "length_test", lengthTest), (cs! "outer_negation", outerNegation), (cs! "redundant_ifelse", redundantIfelse)]

end Jarl
