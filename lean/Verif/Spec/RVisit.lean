import Verif.Spec.RGrammar
import Verif.RVisit
/-!
# Specification: which code the rules look at

Not looked at is the function of a call, the object of `x[…]`, `x[[…]]`, `x$name` and `x@name`, all code inside of these, and the names of the parameters of a function.
-/
namespace Jarl.Spec
open Jarl

/-- The place of a frame is the function of a call, or the object of `[`, `[[`, `$`, `@`. -/
def OnTheLeft : Frame → Prop
  | .callF .. | .ext .. => True
  | _ => False

/-- The place of a frame is the parameters of a function. -/
def Params : Frame → Prop
  | .funcP .. => True
  | _ => False

/-- A place in a list of parameters, from the inside to the list, is in a default value. -/
def InDefault (inner : List Frame) : Prop :=
  ∃ deep g k s g2 list, inner = deep ++ .named g k s g2 :: list ∧ ∀ f ∈ list, (∃ g r, f = .commaA g r) ∨ ∃ a g, f = .commaR a g

/-- A place (the frames around it, innermost first) is inside of something that is not looked at. -/
def OutOfSight (fs : List Frame) : Prop :=
  ∃ inner f outer, fs = inner ++ f :: outer ∧ (OnTheLeft f ∨ Params f ∧ ¬ InDefault inner)

/-- `pkg::name` is the function of a call. -/
def NsCallee (z : Zip) : Prop :=
  isNs z.e = true ∧ ∃ g args g2 outer, z.fs = .callF g .par args g2 :: outer ∧ ¬ OutOfSight outer

/-- The rules look at this part of the program. -/
def LookedAt (p : Node) (z : Zip) : Prop :=
  z.prog = p ∧ isExpr z.e = true ∧ (¬ OutOfSight z.fs ∨ NsCallee z)

/-- `for` loops. -/
def isFor : Node → Bool
  | .forE .. => true
  | _ => false

end Jarl.Spec
