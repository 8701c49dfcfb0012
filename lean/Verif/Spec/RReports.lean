import Verif.Spec.RLaws
import Verif.Spec.RVisit
import Verif.RReports
/-!
# Specification: what the rules without fix are about, and which code makes the check fail

First a small semantics of R's conditions; then where assignments are, which names are in use, and so on.
-/
namespace Jarl.Spec
open Jarl

/-! ## Conditions -/

/-- Three-valued "or": `none` is `NA`. -/
def triOr : Option Bool → Option Bool → Option Bool
  | some true, _ => some true
  | _, some true => some true
  | some false, some false => some false
  | _, _ => none

/-- Three-valued "and". -/
def triAnd : Option Bool → Option Bool → Option Bool
  | some false, _ => some false
  | _, some false => some false
  | some true, some true => some true
  | _, _ => none

/-- Element by element, the shorter one repeated; nothing if one of the two has no elements. -/
def recycle (f : Option Bool → Option Bool → Option Bool) (xs ys : List (Option Bool)) : List (Option Bool) :=
  if xs = [] ∨ ys = [] then []
  else (List.range (max xs.length ys.length)).map (fun i => f (xs[i % xs.length]?.getD none) (ys[i % ys.length]?.getD none))

/-- A value: a logical or numeric vector, of which counts whether the elements are zero, not zero or missing; or anything else (strings, lists, objects with their own operators), of which counts
how `if` decides on it. -/
inductive Val
  | vec (xs : List (Option Bool))
  | other (d : Option Bool)

/-- How `if` decides; `none` is an error (a missing value, no or several elements, …). -/
def decides : Val → Option Bool
  | .vec [x] => x
  | .vec _ => none
  | .other d => d

/-- One operand of `||` and `&&`: an error if it has several elements, `NA` if it has none. -/
def single : List (Option Bool) → Option (Option Bool)
  | [] => some none
  | [x] => some x
  | _ => none

/-- The number with these digits. -/
def decimal (ds : Str) : Nat := ds.foldl (fun n c => 10 * n + (c.toNat - '0'.toNat)) 0

/-- Digits. -/
def AllDigits (ds : Str) : Prop := ∀ c ∈ ds, c.isDigit = true

/-- An integer like `12L` (or `12`), not zero. -/
def IntLit (s : Str) (nonzero : Bool) : Prop :=
  ∃ ds, AllDigits ds ∧ ds ≠ [] ∧ (s = ds ∨ s = ds ++ ['L']) ∧ (nonzero = true ↔ ∃ c ∈ ds, c ≠ '0')

/-- An exponent and its value. -/
def ExpLit (s : Str) (e : Int) : Prop :=
  (s = [] ∧ e = 0) ∨
  ∃ c ds, (c = 'e' ∨ c = 'E') ∧ AllDigits ds ∧ ds ≠ [] ∧
    ((s = c :: ds ∧ e = decimal ds) ∨ (s = c :: '+' :: ds ∧ e = decimal ds) ∨ (s = c :: '-' :: ds ∧ e = - (decimal ds : Int)))

/-- A decimal number like `12`, `1.5`, `.5` or `1e-5`, and whether it is different from zero as a double: numbers up to `2^-1075` are rounded to zero. (`.` without digits is
a name in R, so no token of this kind; here it counts as zero.) -/
def DoubleLit (s : Str) (nonzero : Bool) : Prop :=
  ∃ a b x e, AllDigits a ∧ AllDigits b ∧ (a = [] → s.head? = some '.') ∧ ExpLit x e ∧ (s = a ++ '.' :: b ++ x ∨ (b = [] ∧ s = a ++ x)) ∧
    (nonzero = true ↔
      if 0 ≤ e - b.length then decimal (a ++ b) ≠ 0 else 10 ^ (b.length - e).toNat < decimal (a ++ b) * 2 ^ 1075)

/-- What a value of an expression can be, when the values of all expressions that are not built with `!`, `+`, `-`, `|`, `||`, `&`, `&&` from constants are what `R` says. The operators are
R's own. -/
inductive Evals (R : Node → Val → Prop) : Node → Val → Prop
  | true {g s} : Evals R (.atom g .true s) (.vec [some true])
  | false {g s} : Evals R (.atom g .false s) (.vec [some false])
  | inf {g s} : Evals R (.atom g .inf s) (.vec [some true])
  | na {g s} : Evals R (.atom g .na s) (.vec [none])
  | nan {g s} : Evals R (.atom g .nan s) (.vec [none])
  | int {g s b} : IntLit s b → Evals R (.atom g .int s) (.vec [some b])
  | double {g s b} : DoubleLit s b → Evals R (.atom g .double s) (.vec [some b])
  | paren {g e g2 v} : Evals R e v → Evals R (.paren g e g2) v
  | not {g e xs} : Evals R e (.vec xs) → Evals R (.un g .bang e) (.vec (xs.map (·.map (!·))))
  | plus {g e xs} : Evals R e (.vec xs) → Evals R (.un g .plus e) (.vec xs)
  | minus {g e xs} : Evals R e (.vec xs) → Evals R (.un g .minus e) (.vec xs)
  | or {l g r xs ys} : Evals R l (.vec xs) → Evals R r (.vec ys) → Evals R (.bin l g .or r) (.vec (recycle triOr xs ys))
  | and {l g r xs ys} : Evals R l (.vec xs) → Evals R r (.vec ys) → Evals R (.bin l g .and r) (.vec (recycle triAnd xs ys))
  | or2_left {l g r} : Evals R l (.vec [some true]) → Evals R (.bin l g .or2 r) (.vec [some true])
  | or2 {l g r xs ys x y} : Evals R l (.vec xs) → single xs = some x → x ≠ some true → Evals R r (.vec ys) → single ys = some y →
      Evals R (.bin l g .or2 r) (.vec [triOr x y])
  | and2_left {l g r} : Evals R l (.vec [some false]) → Evals R (.bin l g .and2 r) (.vec [some false])
  | and2 {l g r xs ys x y} : Evals R l (.vec xs) → single xs = some x → x ≠ some false → Evals R r (.vec ys) → single ys = some y →
      Evals R (.bin l g .and2 r) (.vec [triAnd x y])
  | name {g k s v} : k ∉ [.true, .false, .inf, .na, .nan, .int, .double] → R (.atom g k s) v → Evals R (.atom g k s) v
  | hexInt {g s v} : (∀ b, ¬ IntLit s b) → R (.atom g .int s) v → Evals R (.atom g .int s) v
  | hexDouble {g s v} : (∀ b, ¬ DoubleLit s b) → R (.atom g .double s) v → Evals R (.atom g .double s) v
  | unary {g o e v} : o ∉ [.bang, .plus, .minus] → R (.un g o e) v → Evals R (.un g o e) v
  | binary {l g o r v} : o ∉ [.or, .or2, .and, .and2] → R (.bin l g o r) v → Evals R (.bin l g o r) v
  | rest {e v} : (∀ g k s, e ≠ .atom g k s) → (∀ g e' g2, e ≠ .paren g e' g2) → (∀ g o e', e ≠ .un g o e') → (∀ l g o r, e ≠ .bin l g o r) → R e v → Evals R e v

/-- A condition made of constants only. -/
inductive Constant : Node → Prop
  | atom {g k s} : k ∈ [AKind.true, .false, .inf, .na, .nan] → Constant (.atom g k s)
  | int {g s b} : IntLit s b → decimal s.dropLast ≤ 9223372036854775807 → s.getLast? = some 'L' → Constant (.atom g .int s)
  | double {g s b} : DoubleLit s b → Constant (.atom g .double s)
  | paren {g e g2} : Constant e → Constant (.paren g e g2)
  | un {g o e} : o ∈ [Op.bang, .plus, .minus] → Constant e → Constant (.un g o e)
  | bin {l g o r} : o ∈ [Op.or, .or2, .and, .and2] → Constant l → Constant r → Constant (.bin l g o r)

/-! ## Where something is -/

/-- One of the frames around the place is such, and there are no braces between. -/
def Within (p : Frame → Prop) (fs : List Frame) : Prop :=
  ∃ inner f outer, fs = inner ++ f :: outer ∧ p f ∧ ∀ b ∈ inner, ∀ g g2, b ≠ .braces g g2

/-- An argument of a call or of brackets. -/
def ArgPlace (f : Frame) : Prop := ∃ h g b g2, f = .callA h g b g2

/-- The condition of an `if`. -/
def IfCond (f : Frame) : Prop := (∃ g g2 g3 t, f = .ifC g g2 g3 t) ∨ ∃ g g2 g3 t g4 e, f = .ieC g g2 g3 t g4 e

/-- The body of an `if` or `else`. -/
def IfBody (f : Frame) : Prop :=
  (∃ g g2 c g3, f = .ifT g g2 c g3) ∨ (∃ g g2 c g3 g4 e, f = .ieT g g2 c g3 g4 e) ∨ ∃ g g2 c g3 t g4, f = .ieE g g2 c g3 t g4

/-- The condition of a `while`. -/
def WhileCond (f : Frame) : Prop := ∃ g g2 g3 b, f = .whileC g g2 g3 b

/-- The body of a `while`. -/
def WhileBody (f : Frame) : Prop := ∃ g g2 c g3, f = .whileB g g2 c g3

/-- The sequence of a `for` over `v`. -/
def ForSeq (v : Str) (f : Frame) : Prop := ∃ g g2 gv gi g3 b, f = .forS g g2 gv v gi g3 b

/-- The body of a `for` over `v`. -/
def ForBody (v : Str) (f : Frame) : Prop := ∃ g g2 gv gi s g3, f = .forB g g2 gv v gi s g3

/-- The place is directly such a place. -/
def Directly (p : Frame → Prop) (fs : List Frame) : Prop := ∃ f fs', fs = f :: fs' ∧ p f

/-- Inside of an `if`, with no braces between, and not directly the body of one. -/
def InIf (fs : List Frame) : Prop := Within (fun f => IfCond f ∨ IfBody f) fs ∧ ¬ Directly IfBody fs

/-- The same for `while`. -/
def InWhile (fs : List Frame) : Prop := Within (fun f => WhileCond f ∨ WhileBody f) fs ∧ ¬ Directly WhileBody fs

/-- The same for `for`. -/
def InFor (fs : List Frame) : Prop := Within (fun f => ∃ v, ForSeq v f ∨ ForBody v f) fs ∧ ¬ Directly (fun f => ∃ v, ForBody v f) fs

/-- In an argument, with no braces between. -/
def InArg (fs : List Frame) : Prop := Within ArgPlace fs

/-- Assignments with arrows. -/
def ArrowAssign (e : Node) : Prop := ∃ l g o r, e = .bin l g o r ∧ o ∈ [Op.assign, .superAssign, .rassign, .superRassign]

/-- The place is in an argument (or the function) of a call of this function, and no other call is between. -/
def InCallOf (name : Str) (z : Zip) : Prop :=
  ∃ inner f outer, z.fs = inner ++ f :: outer ∧
    (∀ b ∈ inner, (∀ h g g2, b ≠ .callA h g .par g2) ∧ ∀ g as g2, b ≠ .callF g .par as g2) ∧
    ((∃ h g g2, f = .callA h g .par g2 ∧ fnName h = name) ∨ ∃ g as g2, f = .callF g .par as g2 ∧ fnName (plug inner z.e) = name)

/-! ## Names -/

/-- A name as R sees it: without its quotes. -/
def unquote (s : Str) : Str :=
  match s with
  | '"' :: t => if t.getLast? = some '"' then t.dropLast else s
  | '\'' :: t => if t.getLast? = some '\'' then t.dropLast else s
  | '`' :: t => if t.getLast? = some '`' then t.dropLast else s
  | _ => s

/-- No quotes are part of the name. -/
def PlainName (s : Str) : Prop := unquote s ≠ [] ∧ ∀ c ∈ unquote s, c ≠ '"' ∧ c ≠ '\'' ∧ c ≠ '`'

/-- Two arguments with the same name. -/
def SameName (as : List Node) (n : Str) : Prop :=
  ∃ (i j : Nat) (a b : Node) (s t : Str), i < j ∧ as[i]? = some a ∧ as[j]? = some b ∧ nameOf a = some s ∧ nameOf b = some t ∧ unquote s = n ∧ unquote t = n

/-- A place in the arguments of calls (of calls, …): the frames between. -/
def ArgPath (fs : List Frame) : Prop :=
  ∀ f ∈ fs, (∃ h g g2, f = .callA h g .par g2) ∨ (∃ g k s g2, f = .named g k s g2) ∨ (∃ g r, f = .commaA g r) ∨ ∃ a g, f = .commaR a g

/-- A name is used somewhere in an expression. -/
def UsesName (v : Str) (e : Node) : Prop := ∃ fs g, plug fs (.atom g .id v) = e

/-! ## Downloads -/

/-- The parameters of `download.file`. -/
def downloadParams : List Str := [cs! "url", cs! "destfile", cs! "method", cs! "quiet", cs! "mode", cs! "cacheOK", cs! "extra", cs! "headers"]

/-- The string in quotes of either kind. -/
def Quoted (s : Str) (v : Node) : Prop := ∃ g, v = .atom g .str (['"'] ++ s ++ ['"']) ∨ v = .atom g .str (['\''] ++ s ++ ['\''])

/-! ## Code that jarl cannot check -/

/-- A place in a condition that is reached through parentheses, `!`, `+`, `-`, `|`, `||`, `&`, `&&`: the frames between. -/
def CondPath (fs : List Frame) : Prop :=
  ∀ f ∈ fs, (∃ g g2, f = .paren g g2) ∨ (∃ g o, f = .un g o ∧ o ∈ [Op.bang, .plus, .minus]) ∨
    (∃ g o r, f = .binL g o r ∧ o ∈ [Op.or, .or2, .and, .and2]) ∨ ∃ l g o, f = .binR l g o ∧ o ∈ [Op.or, .or2, .and, .and2]

/-- A number that is not written with decimal digits only (like `0x10`, `1e3L`), or an integer that does not fit into 64 bits. -/
def Unreadable (e : Node) : Prop :=
  (∃ g s, e = .atom g .int s ∧ ¬ ∃ ds, AllDigits ds ∧ ds ≠ [] ∧ (s = ds ∨ s = ds ++ ['L']) ∧ decimal ds ≤ 9223372036854775807) ∨
  ∃ g s, e = .atom g .double s ∧ ∀ b, ¬ DoubleLit s b

/-- The argument with this name; without one, the unnamed argument at this position (from 0). -/
def givenArg (as : List Node) (name : Str) (pos : Nat) : Option Node :=
  ((as.filter (fun a => nameOf a = some name))[0]?).or ((as.filter (fun a => (nameOf a).isNone))[pos]?)

/-- The rule fails on the code at this place. An error refuses the file, a panic ends the whole run. -/
inductive Fails : Str → Node → RuleFail → Prop
  /-- `next()`, `NULL(x)`, … -/
  | callee {e g k s g2 args g3} : e = .call (.atom g k s) g2 .par args g3 → k ∈ [AKind.true, .false, .null, .na, .nan, .inf, .dots, .break, .next] →
      Fails (cs! "duplicated_arguments") e .error
  /-- `if (0x10) …` -/
  | condition {e g g2 c g3 t fs x} : e = .ifE g g2 c g3 t → CondPath fs → c = plug fs x → Unreadable x → Fails (cs! "if_always_true") e .error
  /-- `length(x = )` -/
  | lengthTest {e f g args g2 a as} : e = .call f g .par args g2 → fnName f = cs! "length" → items args = a :: as → valueOf a = none →
      Fails (cs! "length_test") e .error
  /-- `sapply(x, FUN = )` -/
  | lengthsEmpty {e f g args g2 a} : e = .call f g .par args g2 → fnName f ∈ [cs! "sapply", cs! "vapply", cs! "map_dbl", cs! "map_int"] →
      givenArg (items args) (cs! "FUN") 1 = some a → valueOf a = none → Fails (cs! "lengths") e .error
  /-- `sapply(X = x, FUN = length)` -/
  | lengthsX {e f g args g2 a g3 k} : e = .call f g .par args g2 → fnName f ∈ [cs! "sapply", cs! "vapply", cs! "map_dbl", cs! "map_int"] →
      givenArg (items args) (cs! "FUN") 1 = some a → valueOf a = some (.atom g3 k (cs! "length")) → (∀ pkg i, k ≠ .ns pkg i) →
      (∀ a ∈ items args, ∃ n, nameOf a = some n ∧ n ≠ cs! "x") → Fails (cs! "lengths") e .panic
  /-- `sample(n = )` -/
  | sampleInt {e f g args g2 a} : e = .call f g .par args g2 → fnName f = cs! "sample" → givenArg (items args) (cs! "n") 0 = some a → valueOf a = none →
      Fails (cs! "sample_int") e .panic

end Jarl.Spec
