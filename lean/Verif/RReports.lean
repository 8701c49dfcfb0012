import Verif.RVisit
import Verif.Cfg
/-!
# RReports: the rules that only report, and how rules make the check of a file fail

The rules without fix that look at one expression, the options of these rules, and the ends a rule can come to besides "nothing to report" and a report: an error (`?`, `anyhow!`, `.context(…)?`)
or a panic (`unwrap()`). An error ends the check of the whole file (check.rs 157-159), a panic the whole run.
-/
namespace Jarl

/-- What a rule without fix reports; one constructor for each message. -/
inductive Said
  | browser
  | downloadNoMode | downloadW | downloadA
  | dupArgs (names : List Str)
  | emptyAssign
  | vectorLogic (o : Op) (inIf : Bool)
  | implicitIf | implicitWhile | implicitFor | implicitArg
  | internal
  | undesirable (name : Str)
  | forIndex
  | forDup
  | ifTrue
deriving DecidableEq, Repr

/-- How a rule can fail. -/
inductive RuleFail
  | error
  | panic
deriving DecidableEq, Repr

/-! ## Options -/

/-- rule_options/duplicated_arguments.rs 6. -/
def dupArgsDefaults : List Str := [cs! "c", cs! "mutate", cs! "summarize", cs! "transmute"]

/-- rule_options/implicit_assignment.rs 6-14. -/
def implicitDefaults : List Str :=
  [cs! "expect_error", cs! "expect_warning", cs! "expect_message", cs! "expect_snapshot", cs! "quote", cs! "suppressMessages", cs! "suppressWarnings"]

/-- rule_options/undesirable_function.rs 6. -/
def undesirableDefaults : List Str := [cs! "browser"]

/-- The options of these rules after reading the configuration. `ResolvedRuleOptions` (rule_options/mod.rs 67-76). -/
structure ROpts where
  dupSkipped : List Str
  implicitSkipped : List Str
  undesirable : List Str
deriving DecidableEq, Repr

/-- One pair of options, as given in the configuration: the list, and the list with `extend-`. -/
structure ListOpt where
  base : Option (List Str) := none
  extend : Option (List Str) := none
deriving DecidableEq, Repr

/-- `ResolvedRuleOptions::resolve` (rule_options/mod.rs 78-103); `resolve_with_extend` is in `Cfg`. -/
def resolveOpts (dup implicit undesirable : ListOpt) : Option ROpts := do
  let a ← resolveWithExtend dup.base dup.extend dupArgsDefaults
  let b ← resolveWithExtend implicit.base implicit.extend implicitDefaults
  let c ← resolveWithExtend undesirable.base undesirable.extend undesirableDefaults
  pure ⟨a, b, c⟩

/-! ## Rules that cannot fail -/

/-- browser.rs 40-52. -/
def browserRule (z : Zip) : Option Said := do
  let (f, _) ← asCall z.e
  guard (fnName f = cs! "browser")
  some .browser

/-- `as_r_string_value` and its text. -/
def strText : Node → Option Str
  | .atom _ .str s => some s
  | _ => none

/-- download_file.rs 59-133. -/
def downloadFile (z : Zip) : Option Said := do
  let (f, args) ← asCall z.e
  guard (fnName f = cs! "download.file")
  let method := (valueBy (items args) (cs! "method") 2).bind strText
  guard (method ∉ [some (cs! "\"wget\""), some (cs! "'wget'"), some (cs! "\"curl\""), some (cs! "'curl'")])
  match valueBy (items args) (cs! "mode") 4 with
  | none => some .downloadNoMode
  | some v =>
    let s ← strText v
    if s = cs! "\"w\"" ∨ s = cs! "'w'" then some .downloadW
    else if s = cs! "\"a\"" ∨ s = cs! "'a'" then some .downloadA
    else none

/-- `RBracedExpressions::cast(…)` with `expressions()` without text. Comments belong to the brace. -/
def emptyBraces : Node → Bool
  | .braces _ .snil _ => true
  | _ => false

/-- empty_assignment.rs 22-61. -/
def emptyAssignment (z : Zip) : Option Said := do
  let (l, o, r) ← asBin z.e
  guard (o = .eq ∨ o = .assign ∨ o = .rassign)
  guard (if o = .rassign then emptyBraces l else emptyBraces r)
  some .emptyAssign

/-- `is_bitwise_exception` (vector_logic.rs 88-107). -/
def bitwiseException (e : Node) : Bool :=
  calls (cs! "as.raw") e || calls (cs! "as.octmode") e || calls (cs! "as.hexmode") e || isAtom .str e

/-- `parent_is_if_condition` (utils_ast.rs 11-16). -/
def isIfCondition : List Frame → Bool
  | .ifC .. :: _ | .ieC .. :: _ => true
  | _ => false

/-- `parent_is_while_condition` (utils_ast.rs 29-34). -/
def isWhileCondition : List Frame → Bool
  | .whileC .. :: _ => true
  | _ => false

/-- vector_logic.rs 43-86. -/
def vectorLogic (z : Zip) : Option Said := do
  let (l, o, r) ← asBin z.e
  guard (o = .and ∨ o = .or)
  guard (!(bitwiseException l || bitwiseException r))
  guard (isIfCondition z.fs || isWhileCondition z.fs)
  some (.vectorLogic o (isIfCondition z.fs))

/-- A search through the ancestors that stops at braces: `for ancestor in ast.syntax().ancestors() { if RBracedExpressions … else if …}` (implicit_assignment.rs 67-81, 117-127, 137-147, 157-167). -/
def ancestorIs (p : Frame → Bool) : List Frame → Bool
  | [] => false
  | .braces .. :: _ => false
  | f :: fs => p f || ancestorIs p fs

/-- `RArgument`: an argument of a call, of `[` or of `[[`. -/
def Frame.isArg : Frame → Bool
  | .callA .. => true
  | _ => false

/-- `RIfStatement`. -/
def Frame.isIf : Frame → Bool
  | .ifC .. | .ifT .. | .ieC .. | .ieT .. | .ieE .. => true
  | _ => false

/-- `RWhileStatement`. -/
def Frame.isWhile : Frame → Bool
  | .whileC .. | .whileB .. => true
  | _ => false

/-- `RForStatement`. -/
def Frame.isFor : Frame → Bool
  | .forS .. | .forB .. => true
  | _ => false

/-- `parent_is_if_body`, `parent_is_else_body` (utils_ast.rs 20-25, 47-52). -/
def isIfBody : List Frame → Bool
  | .ifT .. :: _ | .ieT .. :: _ | .ieE .. :: _ => true
  | _ => false

/-- `parent_is_while_body` (utils_ast.rs 38-43). -/
def isWhileBody : List Frame → Bool
  | .whileB .. :: _ => true
  | _ => false

/-- `parent_is_for_body` (utils_ast.rs 56-61). -/
def isForBody : List Frame → Bool
  | .forB .. :: _ => true
  | _ => false

/-- The innermost call around the place (implicit_assignment.rs 86-98): the name of its function. The function of a call is inside of the call as well. -/
def nearestCall : List Frame → Node → Option Str
  | [], _ => none
  | .callA f _ .par _ :: _, _ => some (fnName f)
  | .callF _ .par _ _ :: _, e => some (fnName e)
  | f :: fs, e => nearestCall fs (f.fill e)

/-- implicit_assignment.rs 45-196. -/
def implicitAssignment (skipped : List Str) (z : Zip) : Option Said := do
  let (_, o, _) ← asBin z.e
  guard (o = .assign ∨ o = .superAssign ∨ o = .rassign ∨ o = .superRassign)
  let inArg := ancestorIs Frame.isArg z.fs
  guard (!(inArg && (match nearestCall z.fs z.e with | some n => decide (n ∈ skipped) | none => false)))
  let inIf := !isIfBody z.fs && ancestorIs Frame.isIf z.fs
  let inWhile := !isWhileBody z.fs && ancestorIs Frame.isWhile z.fs
  let inFor := !isForBody z.fs && ancestorIs Frame.isFor z.fs
  if inIf then some .implicitIf
  else if inWhile then some .implicitWhile
  else if inFor then some .implicitFor
  else if inArg then some .implicitArg
  else none

/-- internal_function.rs 17-36. -/
def internalFunction (z : Zip) : Option Said :=
  match z.e with
  | .atom _ (.ns _ true) _ => some .internal
  | _ => none

/-- undesirable_function.rs 53-70. -/
def undesirableFunction (functions : List Str) (z : Zip) : Option Said := do
  let (f, _) ← asCall z.e
  guard (fnName f ∈ functions)
  some (.undesirable (fnName f))

mutual
/-- `contains_identifier` (for_loop_index.rs 59-96). -/
def containsId (v : Str) : Node → Bool
  | .atom _ .id s => s = v
  | .call _ _ .par args _ => containsIdArgs v args
  | _ => false

/-- The arguments: the names, and the values. The names of all arguments are looked at before the values in the code; here one argument after the other, with the same answer. -/
def containsIdArgs (v : Str) : Node → Bool
  | .comma a _ rest => containsIdArgs v a || containsIdArgs v rest
  | .named _ _ s _ e => s = v || containsId v e
  | .atom _ .id s => s = v
  | .call _ _ .par args _ => containsIdArgs v args
  | _ => false
end

/-- for_loop_index.rs 42-57. -/
def forLoopIndex (z : Zip) : Option Said :=
  match z.e with
  | .forE _ _ _ v _ s _ _ => if containsId v s then some .forIndex else none
  | _ => none

/-- The variable of the loop whose sequence or body the place is. -/
def Frame.loopVar? : Frame → Option Str
  | .forS _ _ _ v _ _ _ => some v
  | .forB _ _ _ v _ _ _ => some v
  | _ => none

/-- for_loop_dup_index.rs 48-73. -/
def forLoopDupIndex (z : Zip) : Option Said :=
  match z.e with
  | .forE _ _ _ v _ _ _ _ => if z.fs.any (fun f => f.loopVar? = some v) then some .forDup else none
  | _ => none

/-! ## duplicated_arguments -/

/-- The name of the function of a call (duplicated_arguments.rs 30-58), as the tokens of the text; `none` is the error. Simplification: blanks inside of braces do not count
(`{ c }(…)` is taken for `{c}(…)`). -/
def dupCallee : Node → Option (List Tok)
  | .atom _ (.ns _ _) s => some [tk (.atom .id s)]
  | .braces _ ss _ => some (toks ss)
  | .ext _ _ _ _ k s => some [tk (.atom k s)]
  | .call f _ .par _ _ => some (trimmed f)
  | .call _ _ b args g2 => some (tk (.open b) :: toks args ++ [⟨g2, .close b⟩])
  | .atom _ .id s => some [tk (.atom .id s)]
  | .atom _ .int s => some [tk (.atom .int s)]
  | .atom _ .double s => some [tk (.atom .double s)]
  | .atom _ .complex s => some [tk (.atom .complex s)]
  | .atom _ .str s => some [tk (.atom .str s)]
  | .paren _ e _ => some (trimmed e)
  | .atom _ .return s => some [tk (.atom .return s)]
  | _ => none

/-- The text of a name or constant. -/
def atomText : AKind → Str → Str
  | .ns pkg false, s => pkg ++ cs! "::" ++ s
  | .ns pkg true, s => pkg ++ cs! ":::" ++ s
  | _, s => s

/-- `skipped.contains(&fun_name) || fun_name.starts_with("cli_")` (duplicated_arguments.rs 61-65). The names in the configuration are taken to be single tokens, and the text starts with `cli_`
if its first token does. -/
def dupSkip (skipped : List Str) : List Tok → Bool
  | [⟨.none, .atom k s⟩] => decide (atomText k s ∈ skipped) || (cs! "cli_").isPrefixOf (atomText k s)
  | ⟨.none, .atom k s⟩ :: _ => (cs! "cli_").isPrefixOf (atomText k s)
  | _ => false

/-- `name.replace(&['\'', '"', '`'][..], "")`, or the name if nothing is left (duplicated_arguments.rs 76-82). -/
def bareName (s : Str) : Str :=
  let t := s.filter (fun c => c ≠ '\'' ∧ c ≠ '"' ∧ c ≠ '`')
  if t = [] then s else t

/-- `get_duplicates` (duplicated_arguments.rs 125-138): the values that occur more than once. Simplification: their order comes from a `HashSet`, so it differs from run to run; here they are in
the order of the code. -/
def getDuplicates (vs : List Str) : List Str := (vs.filter (fun v => 1 < vs.count v)).eraseDups

/-- duplicated_arguments.rs 27-123. -/
def duplicatedArguments (skipped : List Str) (z : Zip) : Except RuleFail (Option Said) :=
  match asCall z.e with
  | none => .ok none
  | some (f, args) =>
    match dupCallee f with
    | none => .error .error
    | some name =>
      if dupSkip skipped name then .ok none
      else
        let dups := getDuplicates ((items args).filterMap (fun a => (argName a).map bareName))
        .ok (if dups = [] then none else some (.dupArgs dups))

/-! ## if_always_true -/

/-- The number written with decimal digits, from the left. -/
def digitsVal : Str → Nat → Option Nat
  | [], n => some n
  | c :: cs, n => if c.isDigit then digitsVal cs (10 * n + (c.toNat - 48)) else none

/-- `normalized.parse::<i64>()`, without sign (a token has none). -/
def parseI64 (s : Str) : Option Nat :=
  if s = [] then none
  else match digitsVal s 0 with
    | some n => if n ≤ 9223372036854775807 then some n else none
    | none => none

/-- `strip_suffix('L')`. -/
def stripL (s : Str) : Str := if s.getLast? = some 'L' then s.dropLast else s

/-- The sign of an exponent. -/
def expSign : Str → Bool × Str
  | '-' :: ds => (true, ds)
  | '+' :: ds => (false, ds)
  | ds => (false, ds)

/-- The exponent of a number: nothing, or `e`, a sign, and digits. -/
def parseExp (s : Str) : Option Int :=
  match s with
  | [] => some 0
  | c :: cs =>
    if c = 'e' ∨ c = 'E' then
      if (expSign cs).2 = [] then none
      else match digitsVal (expSign cs).2 0 with
        | some n => some (if (expSign cs).1 then -(n : Int) else (n : Int))
        | none => none
    else none

/-- `m · 10^e` is not rounded to zero as a double: it is more than half of the smallest number, `2^-1074`. -/
def f64NonZero (m : Nat) (e : Int) : Bool :=
  if 0 ≤ e then decide (m ≠ 0) else decide (10 ^ (-e).toNat < m * 2 ^ 1075)

/-- The number `a.b` with the exponent `x` behind it: whether it is different from zero. -/
def numVal (a b : Str) (x : Str) : Option Bool :=
  if a ++ b = [] then none
  else match digitsVal (a ++ b) 0, parseExp x with
    | some m, some e => some (f64NonZero m (e - (b.length : Int)))
    | _, _ => none

/-- `text.parse::<f64>()` and `value != 0.0`, for a token (no sign, no `inf`): `none` if it is no number for `parse` (hexadecimal numbers). Rust's rounding is part of the trusted base. -/
def parseF64 (s : Str) : Option Bool :=
  match s.dropWhile Char.isDigit with
  | '.' :: r => numVal (s.takeWhile Char.isDigit) (r.takeWhile Char.isDigit) (r.dropWhile Char.isDigit)
  | r => numVal (s.takeWhile Char.isDigit) [] r

/-- `either side of || is TRUE => always TRUE`, `FALSE || x => x` (if_always_true.rs 148-157). -/
def orConst (l r : Option Bool) : Option Bool :=
  if l = some true ∨ r = some true then some true
  else if l = some false then r
  else none

/-- if_always_true.rs 158-168. -/
def andConst (l r : Option Bool) : Option Bool :=
  if l = some false ∨ r = some false then some false
  else if l = some true then r
  else none

/-- `evaluate_constant_condition` (if_always_true.rs 72-172). -/
def condConst : Node → Except RuleFail (Option Bool)
  | .atom _ .true _ => .ok (some true)
  | .atom _ .false _ => .ok (some false)
  | .atom _ .inf _ => .ok (some true)
  | .atom _ .int s => match parseI64 (stripL s) with
    | some n => .ok (some (decide (n ≠ 0)))
    | none => .error .error
  | .atom _ .double s => match parseF64 (if s.head? = some '.' then '0' :: s else s) with
    | some b => .ok (some b)
    | none => .error .error
  | .paren _ e _ => condConst e
  | .un _ o e =>
    if o = .bang then (condConst e).map (·.map (!·))
    else if o = .minus ∨ o = .plus then condConst e
    else .ok none
  | .bin l _ o r =>
    if o = .or2 ∨ o = .or then do
      let a ← condConst l
      let b ← condConst r
      .ok (orConst a b)
    else if o = .and2 ∨ o = .and then do
      let a ← condConst l
      let b ← condConst r
      .ok (andConst a b)
    else .ok none
  | _ => .ok none

/-- if_always_true.rs 54-70. -/
def ifAlwaysTrue (z : Zip) : Except RuleFail (Option Said) :=
  match z.e with
  | .ifE _ _ c _ _ => (condConst c).map (fun b => if b = some true then some .ifTrue else none)
  | _ => .ok none

/-! ## Rules with fixes that can fail -/

/-- lengths.rs 48-85: `.context(…)?` on the value of `FUN` (line 65), `unwrap()` on the argument `x` (line 75). -/
def lengthsFails (z : Zip) : Option RuleFail := do
  let (f, args) ← asCall z.e
  guard (fnName f ∈ [cs! "sapply", cs! "vapply", cs! "map_dbl", cs! "map_int"])
  let a ← argBy (items args) (cs! "FUN") 1
  match argValue a with
  | none => some .error
  | some v => if textIs (cs! "length") v && (argBy (items args) (cs! "x") 0).isNone then some .panic else none

/-- length_test.rs 41-82: `.context(…)?` on the value of the first argument (line 61). -/
def lengthTestFails (z : Zip) : Option RuleFail := do
  let (f, args) ← asCall z.e
  guard (fnName f = cs! "length")
  let a ← (items args).head?
  if (argValue a).isNone then some .error else none

/-- sample_int.rs 49-80: `unwrap()` on the value of `n` (line 65). -/
def sampleIntFails (z : Zip) : Option RuleFail := do
  let (f, args) ← asCall z.e
  guard (fnName f = cs! "sample")
  let a ← argBy (items args) (cs! "n") 0
  if (argValue a).isNone then some .panic else none

/-! ## The whole file -/

/-- What a rule without fix reports at a node. -/
def sayRules (o : ROpts) : List (Str × (Zip → Except RuleFail (Option Said))) :=
  [(cs! "browser", fun z => .ok (browserRule z)), (cs! "download_file", fun z => .ok (downloadFile z)),
   (cs! "duplicated_arguments", duplicatedArguments o.dupSkipped), (cs! "empty_assignment", fun z => .ok (emptyAssignment z)),
   (cs! "vector_logic", fun z => .ok (vectorLogic z)), (cs! "implicit_assignment", fun z => .ok (implicitAssignment o.implicitSkipped z)),
   (cs! "internal_function", fun z => .ok (internalFunction z)), (cs! "undesirable_function", fun z => .ok (undesirableFunction o.undesirable z)),
   (cs! "for_loop_index", fun z => .ok (forLoopIndex z)), (cs! "for_loop_dup_index", fun z => .ok (forLoopDupIndex z)), (cs! "if_always_true", ifAlwaysTrue)]

/-- A rule with fix that fails, as a rule. -/
def orFail (f : Zip → Option RuleFail) (z : Zip) : Except RuleFail (Option Said) :=
  match f z with
  | some e => .error e
  | none => .ok none

/-- The rules that can fail but have fixes (their reports are in `fixRules`). -/
def failRules : List (Str × (Zip → Except RuleFail (Option Said))) :=
  [(cs! "lengths", orFail lengthsFails), (cs! "length_test", orFail lengthTestFails), (cs! "sample_int", orFail sampleIntFails)]

/-- A rule by its name. The other rules report nothing here and do not fail: their fixes are in `fixRules`, and all their `?` are on parts that a tree without syntax errors has. -/
def ruleOf (o : ROpts) (n : Str) (z : Zip) : Except RuleFail (Option Said) :=
  match (sayRules o ++ failRules).find? (fun q => q.1 = n) with
  | some q => q.2 z
  | none => .ok none

/-- A report: the rule, the node, and what is said. -/
structure Note where
  rule : Str
  z : Zip
  said : Said
deriving DecidableEq, Repr

/-- The rules for one thing looked at, in order; the first that fails ends it (`?` behind every call in analyze/*.rs). -/
def runRules (o : ROpts) (z : Zip) : List Str → Except RuleFail (List Note)
  | [] => .ok []
  | n :: ns =>
    match ruleOf o n z with
    | .error e => .error e
    | .ok s => match runRules o z ns with
      | .error e => .error e
      | .ok rest => .ok (match s with | some s => ⟨n, z, s⟩ :: rest | none => rest)

/-- Everything looked at, in order. -/
def runLooks (enabled : Str → Bool) (o : ROpts) : List Look → Except RuleFail (List Note)
  | [] => .ok []
  | .loopVar _ :: vs => runLooks enabled o vs
  | .node z :: vs =>
    match runRules o z ((rulesAt (.node z)).filter enabled) with
    | .error e => .error e
    | .ok ds => match runLooks enabled o vs with
      | .error e => .error e
      | .ok rest => .ok (ds ++ rest)

/-- `for expr in expressions { check_expression(&expr, &mut checker)?; }` (check.rs 157-159): the reports of these rules, before the suppressions, or the failure. -/
def checkNodes (enabled : Str → Bool) (o : ROpts) (p : Node) : Except RuleFail (List Note) := runLooks enabled o (visits p)

end Jarl
