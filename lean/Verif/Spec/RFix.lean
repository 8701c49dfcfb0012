import Verif.Spec.RGrammar
import Verif.RRules
/-!
# Specification: what a fix may do to a program
-/
namespace Jarl.Spec
open Jarl

/-- Two gaps next to each other. -/
def joinGap : Gap → Gap → Gap
  | g, .none => g
  | .none, h => h
  | .line t o, .line t' o' => .line (t || t') (o || o')

/-- Text behind a gap. -/
def joinHead (g : Gap) : List Tok → List Tok
  | [] => []
  | t :: ts => { t with gap := joinGap g t.gap } :: ts

/-- The program after the fix: the code of the replaced node is taken out, what is in front of it stays. -/
def edited (ed : Edit) : List Tok :=
  beforeToks ed.z.fs ++ joinHead (headGap (toks ed.z.e)) ed.content ++ afterToks ed.z.fs

/-- The new program is R code, and it is the old program with one expression in place of another: the code around it has the same
structure as before. -/
def KeepsStructure (ed : Edit) : Prop :=
  ∃ e', isExpr e' = true ∧ toks e' = joinHead (headGap (toks ed.z.e)) ed.content ∧ Parses (edited ed) (plug ed.z.fs e')

/-- The fix belongs to the program `p`, replaces an expression of it, and keeps the structure. -/
def GoodFix (p : Node) (ed : Edit) : Prop := ed.z.prog = p ∧ isExpr ed.z.e = true ∧ KeepsStructure ed

/-- A rule whose fixes are good, for every program and every place in it, if there are no comments inside the code that is replaced. -/
def SafeRule (r : Zip → Option Edit) : Prop :=
  ∀ ts p z ed, Parses ts p → z.prog = p → r z = some ed → innerComments (toks ed.z.e) = false → GoodFix p ed

/-- No line break in the code. -/
def oneLine (ts : List Tok) : Prop := ∀ t ∈ ts.tail, t.gap.nl = false

/-- By itself, the text reads as the expression `e`. -/
def Reads (md : Mode) (c : List Tok) (e : Node) : Prop := isExpr e = true ∧ WF md e ∧ toks e = c

/-- No operator of the frame binds an expression with operators of strength `k` away, and it is not the function of a call or what `$` is applied to. -/
def roomOp (f : Frame) (k : Nat) : Prop :=
  match f with
  | .un _ o => 2 * (unLevel o).getD 0 ≤ k
  | .binL _ o _ => lbp o < k
  | .binR _ _ o => rbp o ≤ k
  | .ext .. | .callF .. => False
  | _ => True

/-- There is room in the frame for an expression that begins and ends with operators of strength `k`: always if it is a statement of its own or in
parentheses; otherwise it may not be an assignment with `=`, a function definition or the like. -/
def roomIn (f : Frame) (k : Nat) : Prop :=
  match f with
  | .sconsE .. | .paren .. => True
  | f => argBp ≤ k ∧ roomOp f k

/-- There is room at the place. -/
def room : List Frame → Nat → Prop
  | [], _ => False
  | f :: _, k => roomIn f k

/-- A rule whose fixes are good if the replaced code is on one line or in parentheses, and the place has room for the new expression. -/
def RoomRule (r : Zip → Option Edit) : Prop :=
  ∀ ts p z ed, Parses ts p → z.prog = p → r z = some ed → innerComments (toks ed.z.e) = false →
    modeAt ed.z.fs = .free ∨ oneLine (toks ed.z.e) →
    ∃ e, Reads (modeAt ed.z.fs) ed.content e ∧ (room ed.z.fs (min (lp e) (rp e)) → GoodFix p ed)

/-- The same, for rules that put in code without line breaks. -/
def RoomRule' (r : Zip → Option Edit) : Prop :=
  ∀ ts p z ed, Parses ts p → z.prog = p → r z = some ed → innerComments (toks ed.z.e) = false →
    ∃ e, Reads (modeAt ed.z.fs) ed.content e ∧ (room ed.z.fs (min (lp e) (rp e)) → GoodFix p ed)

end Jarl.Spec
