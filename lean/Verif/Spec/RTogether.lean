import Verif.Spec.RFix
import Verif.Spec.RVisit
/-!
# Specification: several fixes at once

`apply_fixes` (fix.rs) carries out many fixes in one pass. Here the text is cut at several places at once (`Patched`), and the tree is changed at several places (`replaceAll`).
-/
namespace Jarl.Spec
open Jarl

/-- The children of a node are numbered from the left, from 0: the number of the child that belongs to the place. -/
def child : Frame → Nat
  | .paren .. => 0 | .braces .. => 0 | .un .. => 0 | .binL .. => 0 | .binR .. => 1 | .ext .. => 0 | .callF .. => 0 | .callA .. => 1
  | .funcP .. => 0 | .funcB .. => 1 | .ifC .. => 0 | .ifT .. => 1 | .ieC .. => 0 | .ieT .. => 1 | .ieE .. => 2
  | .whileC .. => 0 | .whileB .. => 1 | .forS .. => 0 | .forB .. => 1 | .repE .. => 0 | .named .. => 0
  | .commaA .. => 0 | .commaR .. => 1 | .sconsE .. => 0 | .sconsR .. => 1

/-- The way from the whole program to the place. -/
def path (fs : List Frame) : List Nat := (fs.map child).reverse

/-- The program with `x` at the end of the path, and nothing else changed. -/
def replaceAt : Node → List Nat → Node → Node
  | _, [], x => x
  | .paren g e g2, 0 :: ps, x => .paren g (replaceAt e ps x) g2
  | .braces g ss g2, 0 :: ps, x => .braces g (replaceAt ss ps x) g2
  | .un g o e, 0 :: ps, x => .un g o (replaceAt e ps x)
  | .bin l g o r, 0 :: ps, x => .bin (replaceAt l ps x) g o r
  | .bin l g o r, 1 :: ps, x => .bin l g o (replaceAt r ps x)
  | .ext l g a g2 k s, 0 :: ps, x => .ext (replaceAt l ps x) g a g2 k s
  | .call f g b args g2, 0 :: ps, x => .call (replaceAt f ps x) g b args g2
  | .call f g b args g2, 1 :: ps, x => .call f g b (replaceAt args ps x) g2
  | .func g la g2 params g3 body, 0 :: ps, x => .func g la g2 (replaceAt params ps x) g3 body
  | .func g la g2 params g3 body, 1 :: ps, x => .func g la g2 params g3 (replaceAt body ps x)
  | .ifE g g2 c g3 t, 0 :: ps, x => .ifE g g2 (replaceAt c ps x) g3 t
  | .ifE g g2 c g3 t, 1 :: ps, x => .ifE g g2 c g3 (replaceAt t ps x)
  | .ifElse g g2 c g3 t g4 e, 0 :: ps, x => .ifElse g g2 (replaceAt c ps x) g3 t g4 e
  | .ifElse g g2 c g3 t g4 e, 1 :: ps, x => .ifElse g g2 c g3 (replaceAt t ps x) g4 e
  | .ifElse g g2 c g3 t g4 e, 2 :: ps, x => .ifElse g g2 c g3 t g4 (replaceAt e ps x)
  | .whileE g g2 c g3 b, 0 :: ps, x => .whileE g g2 (replaceAt c ps x) g3 b
  | .whileE g g2 c g3 b, 1 :: ps, x => .whileE g g2 c g3 (replaceAt b ps x)
  | .forE g g2 gv v gi seq g3 b, 0 :: ps, x => .forE g g2 gv v gi (replaceAt seq ps x) g3 b
  | .forE g g2 gv v gi seq g3 b, 1 :: ps, x => .forE g g2 gv v gi seq g3 (replaceAt b ps x)
  | .repE g b, 0 :: ps, x => .repE g (replaceAt b ps x)
  | .named g k s g2 e, 0 :: ps, x => .named g k s g2 (replaceAt e ps x)
  | .comma a g rest, 0 :: ps, x => .comma (replaceAt a ps x) g rest
  | .comma a g rest, 1 :: ps, x => .comma a g (replaceAt rest ps x)
  | .scons e semis rest, 0 :: ps, x => .scons (replaceAt e ps x) semis rest
  | .scons e semis rest, 1 :: ps, x => .scons e semis (replaceAt rest ps x)
  | n, _, _ => n

/-- Several replacements. -/
def replaceAll (p : Node) : List (List Nat × Node) → Node
  | [] => p
  | (ps, x) :: l => replaceAt (replaceAll p l) ps x

/-- A piece to cut out, by the numbers of the first token and of the one behind the last, and what to put in. -/
structure Cut where
  start : Nat
  stop : Nat
  new : List Tok
deriving DecidableEq, Repr

/-- The tokens `ts`, the first of which has the number `i`, become `out` when the cuts are made, in the order in which they are in the text; nothing is cut twice. -/
inductive Patched : Nat → List Tok → List Cut → List Tok → Prop
  | done (i ts) : Patched i ts [] ts
  | cut {i keep old rest c cs out} : i + keep.length = c.start → c.start + old.length = c.stop → Patched c.stop rest cs out →
      Patched i (keep ++ old ++ rest) (c :: cs) (keep ++ c.new ++ out)

/-- The cut that a fix makes. -/
def cutOf (ed : Edit) : Cut where
  start := (beforeToks ed.z.fs).length
  stop := (beforeToks ed.z.fs).length + (toks ed.z.e).length
  new := joinHead (headGap (toks ed.z.e)) ed.content

/-- `q` is `p` with the expressions of the fixes replaced, each by the expression that its new text is. -/
def Together (eds : List Edit) (p q : Node) : Prop :=
  ∃ news, news.length = eds.length ∧ q = replaceAll p (List.zip (eds.map fun ed => path ed.z.fs) news) ∧
    ∀ ne ∈ List.zip news eds, isExpr ne.1 = true ∧ toks ne.1 = joinHead (headGap (toks ne.2.z.e)) ne.2.content ∧ Parses (edited ne.2) (plug ne.2.z.fs ne.1)

/-- The cuts are in the order of the text and do not overlap, and are within a text of which the tokens have the numbers from `i` to `n`. -/
def Ordered (i n : Nat) : List Cut → Prop
  | [] => i ≤ n
  | c :: cs => i ≤ c.start ∧ c.start ≤ c.stop ∧ Ordered c.stop n cs

/-- One pass: some fixes of the rules, without comments inside the replaced code, are carried out at once. -/
def FixPass (rules : List (Str × (Zip → Option Edit))) (ts out : List Tok) : Prop :=
  ∃ (p : Node) (eds : List Edit), Parses ts p ∧ (∀ ed ∈ eds, ∃ r ∈ rules, ∃ z, z.prog = p ∧ r.2 z = some ed ∧ innerComments (toks ed.z.e) = false) ∧ Patched 0 ts (eds.map cutOf) out

/-- Any number of passes, each with the text that the one before it left. -/
inductive FixPasses (rules : List (Str × (Zip → Option Edit))) : List Tok → List Tok → Prop
  | none (ts) : FixPasses rules ts ts
  | more {a b c} : FixPasses rules a b → FixPass rules b c → FixPasses rules a c

/-! ## Rules whose fixes come to an end -/

/-- `fixed_regex` where `fixed` is not given, or is `FALSE` (finding F41). -/
def fixedRegexOnce (z : Zip) : Option Edit := do
  let (f, args) ← asCall z.e
  let pos := if fnName f ∈ [cs! "grep", cs! "gsub", cs! "sub"] then 5 else 4
  guard ((match argBy (items args) (cs! "fixed") pos with
    | none => true
    | some a => match argValue a with | some v => textIs (cs! "FALSE") v | none => false) = true)
  fixedRegex z

/-- `a` and `b` bind tightly enough to be the sides of the operator. -/
def tightAround (a : Node) (o : Op) (b : Node) : Bool := lbp o < rp a && rbp o ≤ lp b

/-- `assignment` where what was assigned to, and what was assigned, stay whole. -/
def assignmentTight (want : Op) (z : Zip) : Option Edit := do
  let (l, o, r) ← asBin z.e
  guard (if o = .rassign then tightAround r want l else tightAround l want r)
  assignment want z

/-- The values of the arguments of a call, perhaps behind `!`. -/
def testedValues : Node → List Node
  | .un _ _ a => match asCall a with | some (_, args) => (items args).filterMap argValue | none => []
  | c => match asCall c with | some (_, args) => (items args).filterMap argValue | none => []

/-- `coalesce` where the two sides of `%||%` stay whole. -/
def coalesceTight (z : Zip) : Option Edit :=
  match z.e with
  | .ifElse _ _ c _ t _ e =>
    if (testedValues c).all (fun x => tightAround x (.special (cs! "||")) (singleStatement t) && tightAround x (.special (cs! "||")) (singleStatement e)) then coalesce z else none
  | _ => none

/-- `expect_not` where there is no `=` in the place of an argument. -/
def expectNotTight (z : Zip) : Option Edit := do
  let (_, args) ← asCall z.e
  let obj ← valueBy (items args) (cs! "object") 0
  let (_, a) ← asUn obj
  guard (argBp ≤ lp (match asParen a with | some b => b | none => a))
  expectNot z

/-- `repeat` outside of parentheses. -/
def repeatOutside (z : Zip) : Option Edit := if modeAt z.fs = .free then none else repeatRule z

/-- The rules with fixes; `want` is the assignment operator that the configuration asks for. Left out are `fixed_regex` where the argument `fixed` is something else than `FALSE`, and fixes of
`assignment`, `coalesce`, `expect_not` and `repeat` that tear apart what they are put together from. -/
def endingRules (want : Op) : List (Str × (Zip → Option Edit)) :=
  (keepingRules.filter fun r => r.1 ≠ cs! "fixed_regex") ++ roomRules ++
  [(cs! "fixed_regex", fixedRegexOnce), (cs! "assignment", assignmentTight want), (cs! "coalesce", coalesceTight), (cs! "expect_not", expectNotTight), (cs! "repeat", repeatOutside),
   (cs! "unnecessary_nesting", unnecessaryNesting)]

/-- Any number of passes, which carry out `n` fixes in all: fixes that these rules propose for what they look at, and that keep the structure of the program. -/
inductive FixesDone (rules : List (Str × (Zip → Option Edit))) : Nat → List Tok → List Tok → Prop
  | none (ts) : FixesDone rules 0 ts ts
  | more {n a b c p} {eds : List Edit} : FixesDone rules n a b → Parses b p →
      (∀ ed ∈ eds, ∃ r ∈ rules, ∃ z, LookedAt p z ∧ r.2 z = some ed ∧ GoodFix p ed) → Patched 0 b (eds.map cutOf) c → FixesDone rules (n + eds.length) a c

end Jarl.Spec
