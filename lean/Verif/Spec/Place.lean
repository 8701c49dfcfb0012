import Verif.Spec.RText
import Verif.Place
/-!
# Specification: suppression comments are only comments

When are two programs the same up to line breaks and comments, and when does a line begin in the middle of a token?
-/
namespace Jarl.Spec
open Jarl

/-- The program without its line breaks and comments. -/
def ungapped : Node → Node
  | .atom _ k s => .atom .none k s
  | .paren _ e _ => .paren .none (ungapped e) .none
  | .braces _ ss _ => .braces .none (ungapped ss) .none
  | .un _ o e => .un .none o (ungapped e)
  | .bin l _ o r => .bin (ungapped l) .none o (ungapped r)
  | .ext l _ slot _ k s => .ext (ungapped l) .none slot .none k s
  | .call f _ b args _ => .call (ungapped f) .none b (ungapped args) .none
  | .func _ la _ params _ body => .func .none la .none (ungapped params) .none (ungapped body)
  | .ifE _ _ c _ t => .ifE .none .none (ungapped c) .none (ungapped t)
  | .ifElse _ _ c _ t _ e => .ifElse .none .none (ungapped c) .none (ungapped t) .none (ungapped e)
  | .whileE _ _ c _ b => .whileE .none .none (ungapped c) .none (ungapped b)
  | .forE _ _ _ v _ seq _ b => .forE .none .none .none v .none (ungapped seq) .none (ungapped b)
  | .repE _ b => .repE .none (ungapped b)
  | .hole => .hole
  | .named _ k s _ e => .named .none k s .none (ungapped e)
  | .comma a _ rest => .comma (ungapped a) .none (ungapped rest)
  | .snil => .snil
  | .scons e semis rest => .scons (ungapped e) (semis.map fun _ => .none) (ungapped rest)

/-- The two programs differ in line breaks and comments only. -/
def SameProgram (p q : Node) : Prop := ungapped p = ungapped q

/-- This byte is inside a token: behind its beginning and in front of its end. -/
def InsideToken (src : Src) (o : Nat) : Prop :=
  ∃ a p b, src.pieces = a ++ p :: b ∧ blen (piecesText a ++ p.gap) < o ∧ o < blen (piecesText a ++ p.gap ++ p.k.text)

/-- The line with the byte `d` begins at the byte `o`. -/
def LineBegins (text : Str) (d o : Nat) : Prop :=
  ∃ pre line rest, text = pre ++ line ++ rest ∧ blen pre = o ∧ blen (pre ++ line) = d ∧ '\n' ∉ line ∧ (pre = [] ∨ ∃ x, pre = x ++ ['\n'])

/-- The comment is for a report at the byte `d` in the program `p`. Its place was looked for from some node `z` on, or, if the file could not be parsed, with the text alone. -/
def PlacedFor (text : Str) (src : Src) (p : Node) (e : RawEdit) (d : Nat) : Prop :=
  computeInsertPoint text none d = some e.point ∨ ∃ z : Zip, z.prog = p ∧ computeInsertPoint text (some (placeChain src z.fs z.e)) d = some e.point

/-- The node `y` is `z` or is around it. -/
inductive Around : Zip → Zip → Prop
  | here (z) : Around z z
  | up (f fs e y) : Around ⟨fs, f.fill e⟩ y → Around ⟨f :: fs, e⟩ y

/-- An operation, a call or subset, or an operator with one operand. -/
def isCode : Node → Bool
  | .bin .. => true
  | .un .. => true
  | .call .. => true
  | _ => false

/-- No string or quoted name has a line break in it. -/
def ShortTokens (src : Src) : Prop := ∀ p ∈ src.pieces, '\n' ∉ p.k.text

end Jarl.Spec
