import Verif.RSyntax
/-!
# Specification: the grammar of R

Operator precedence and line breaks, after `?Syntax` in the R manual and R's own grammar. `WF md n` says that `n` is what R makes of the
tokens `toks n`: no operator binds differently, no line break ends an expression early, no `else` belongs to another `if`.
-/
namespace Jarl.Spec
open Jarl

/-- Where the code is: at top level, in braces, or in parentheses or brackets (where line breaks do not count). -/
inductive Mode
  | top | brace | free
deriving DecidableEq, Repr

/-- How tightly a binary operator binds (`?Syntax`, from `=` to `^`). -/
def level : Op → Nat
  | .eq => 3 | .assign => 4 | .superAssign => 4 | .rassign => 5 | .superRassign => 5 | .tilde => 6
  | .or => 7 | .or2 => 7 | .and => 8 | .and2 => 8 | .bang => 9
  | .lt => 10 | .gt => 10 | .le => 10 | .ge => 10 | .eq2 => 10 | .ne => 10
  | .plus => 11 | .minus => 11 | .mul => 12 | .div => 12 | .special _ => 13 | .pipe => 13 | .colon => 14 | .pow => 16

/-- Binary operators. -/
def Infix (o : Op) : Bool := o ≠ .bang

/-- How tightly a unary operator binds, if there is one. -/
def unLevel : Op → Option Nat
  | .minus => some 15 | .plus => some 15 | .bang => some 9 | .tilde => some 6
  | _ => none

/-- The operator associates to the right. -/
def rightAssoc (o : Op) : Bool := o = .eq || o = .assign || o = .superAssign || o = .pow

/-- Comparisons do not associate: `a == b == c` is an error. -/
def nonAssoc (o : Op) : Bool := level o = 10

/-- Strength of the operator towards its left operand, even numbers. -/
def lbp (o : Op) : Nat := 2 * level o

/-- Strength of the operator towards its right operand. -/
def rbp (o : Op) : Nat := if rightAssoc o then 2 * level o else 2 * level o + 1

/-- Only operators weaker than this may follow the right operand. -/
def follow (o : Op) : Nat := if nonAssoc o then 2 * level o else rbp o

/-- Calls, `[`, `[[`, `$`, `@` bind tightest. -/
def postfixBp : Nat := 36

/-- Bodies of functions, loops and `if` extend as far as possible. -/
def bodyBp : Nat := 4

/-- Arguments and conditions are not `=` assignments, unless in parentheses. -/
def argBp : Nat := 7

/-- Larger than all strengths. -/
def topBp : Nat := 100

/-- The weakest operator that is open on the left side of the node. -/
def lp : Node → Nat
  | .bin l _ o _ => min (lbp o) (lp l)
  | .ext l .. => min postfixBp (lp l)
  | .call f .. => min postfixBp (lp f)
  | _ => topBp

/-- The weakest operator that is open on the right side of the node. -/
def rp : Node → Nat
  | .bin _ _ o r => min (follow o) (rp r)
  | .un _ o e => min (2 * (unLevel o).getD 0) (rp e)
  | .func _ _ _ _ _ b => min bodyBp (rp b)
  | .ifE _ _ _ _ t => min bodyBp (rp t)
  | .ifElse _ _ _ _ _ _ e => min bodyBp (rp e)
  | .whileE _ _ _ _ b => min bodyBp (rp b)
  | .forE _ _ _ _ _ _ _ b => min bodyBp (rp b)
  | .repE _ b => min bodyBp (rp b)
  | _ => topBp

/-- A following `else` would belong to an `if` inside the node. -/
def openIf : Node → Bool
  | .ifE .. => true
  | .bin _ _ _ r => openIf r
  | .un _ _ e => openIf e
  | .func _ _ _ _ _ b => openIf b
  | .ifElse _ _ _ _ _ _ e => openIf e
  | .whileE _ _ _ _ b => openIf b
  | .forE _ _ _ _ _ _ _ b => openIf b
  | .repE _ b => openIf b
  | _ => false

/-- Expressions. -/
def isExpr : Node → Bool
  | .hole => false | .named .. => false | .comma .. => false | .snil => false | .scons .. => false
  | _ => true

/-- Statement lists. -/
def isStmts : Node → Bool
  | .snil => true | .scons .. => true
  | _ => false

/-- Arguments. -/
def isArg : Node → Bool
  | .hole => true | .named .. => true
  | n => isExpr n

/-- Argument lists. -/
def isArgs : Node → Bool
  | .comma .. => true
  | n => isArg n

/-- A line break in front of an operator or bracket ends the expression, except in parentheses. -/
def joins (md : Mode) (g : Gap) : Prop := md = .free ∨ g.nl = false

/-- A line break in front of `else` ends the `if`, at top level. -/
def joinsElse (md : Mode) (g : Gap) : Prop := md ≠ .top ∨ g.nl = false

/-- Atoms that can be argument names. -/
def nameable : AKind → Bool
  | .id => true | .str => true | .null => true | .dots => true
  | _ => false

/-- The gap in front of the first token. -/
def headGap : List Tok → Gap
  | [] => .none
  | t :: _ => t.gap

/-- The node is what R makes of its tokens. -/
def WF : Mode → Node → Prop
  | _, .atom _ _ _ => True
  | _, .paren _ e _ => isExpr e = true ∧ WF .free e
  | _, .braces _ ss _ => isStmts ss = true ∧ WF .brace ss
  | md, .un _ o e => isExpr e = true ∧ WF md e ∧ ∃ k, unLevel o = some k ∧ 2 * k ≤ lp e
  | md, .bin l g o r => isExpr l = true ∧ isExpr r = true ∧ WF md l ∧ WF md r ∧ Infix o = true ∧ joins md g ∧ lbp o < rp l ∧ rbp o ≤ lp r
  | md, .ext l g _ _ _ _ => isExpr l = true ∧ WF md l ∧ joins md g ∧ postfixBp < rp l
  | md, .call f g _ args _ => isExpr f = true ∧ WF md f ∧ joins md g ∧ postfixBp < rp f ∧ isArgs args = true ∧ WF .free args ∧ argBp ≤ lp args
  | md, .func _ _ _ params _ b => isArgs params = true ∧ WF .free params ∧ argBp ≤ lp params ∧ isExpr b = true ∧ WF md b ∧ bodyBp ≤ lp b
  | md, .ifE _ _ c _ t => isExpr c = true ∧ WF .free c ∧ argBp ≤ lp c ∧ isExpr t = true ∧ WF md t ∧ bodyBp ≤ lp t
  | md, .ifElse _ _ c _ t g4 e => isExpr c = true ∧ WF .free c ∧ argBp ≤ lp c ∧ isExpr t = true ∧ WF md t ∧ bodyBp ≤ lp t ∧
      openIf t = false ∧ joinsElse md g4 ∧ isExpr e = true ∧ WF md e ∧ bodyBp ≤ lp e
  | md, .whileE _ _ c _ b => isExpr c = true ∧ WF .free c ∧ argBp ≤ lp c ∧ isExpr b = true ∧ WF md b ∧ bodyBp ≤ lp b
  | md, .forE _ _ _ _ _ s _ b => isExpr s = true ∧ WF .free s ∧ argBp ≤ lp s ∧ isExpr b = true ∧ WF md b ∧ bodyBp ≤ lp b
  | md, .repE _ b => isExpr b = true ∧ WF md b ∧ bodyBp ≤ lp b
  | _, .hole => True
  | _, .named _ k _ _ e => nameable k = true ∧ (e = .hole ∨ isExpr e = true ∧ WF .free e ∧ argBp ≤ lp e)
  | _, .comma a _ rest => isArg a = true ∧ WF .free a ∧ argBp ≤ lp a ∧ isArgs rest = true ∧ WF .free rest ∧ argBp ≤ lp rest
  | _, .snil => True
  | md, .scons e semis rest => isExpr e = true ∧ WF md e ∧ isStmts rest = true ∧ WF md rest ∧
      (rest ≠ .snil → semis = [] → (headGap (toks rest)).nl = true)

/-- The program `p` is what R makes of the tokens `ts`. -/
def Parses (ts : List Tok) (p : Node) : Prop := isStmts p = true ∧ WF .top p ∧ toks p = ts

/-- The mode at the place of a frame, from the mode of the whole. -/
def inner : Mode → Frame → Mode
  | _, .braces .. => .brace
  | _, .paren .. | _, .callA .. | _, .funcP .. | _, .ifC .. | _, .ieC .. | _, .whileC .. | _, .forS .. | _, .named .. | _, .commaA .. | _, .commaR .. => .free
  | md, _ => md

/-- The mode at a place in a program. -/
def modeAt : List Frame → Mode
  | [] => .top
  | f :: fs => inner (modeAt fs) f

/-- How tightly the frame binds what is at its place: weaker operators need parentheses there. (For the left operand of an operator this
does not matter, see `follow`.) -/
def strength : Frame → Nat
  | .un _ o => 2 * (unLevel o).getD 0
  | .binR _ _ o => rbp o
  | .callA .. | .funcP .. | .ifC .. | .ieC .. | .whileC .. | .forS .. | .named .. | .commaA .. | .commaR .. => argBp
  | .funcB .. | .ifT .. | .ieT .. | .ieE .. | .whileB .. | .forB .. | .repE .. => bodyBp
  | _ => 0

end Jarl.Spec
