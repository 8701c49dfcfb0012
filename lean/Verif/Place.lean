import Verif.RText
import Verif.SuppressionEdit
/-!
# Place: where suppression comments go in R code (suppression_edit.rs:149-328)

`SuppressionEdit` takes the chain of syntax nodes around a diagnostic as given. Here it is computed from the program. biome's `covering_element` is external: the search
may begin at any node `z` of the program. (Nodes of the syntax tree that are not in the model, such as the list of arguments of a call, are neither meaningful nor control flow: the search
from them is the search from the node around them. So is the search from a parameter, whose inner node is not meaningful.)
-/
namespace Jarl

/-- suppression_edit.rs:300-315 `is_meaningful_expression`, without `R_PARAMETER`. -/
def meaningfulNode : Node → Bool
  | .bin .. => true
  | .call .. => true
  | .ifE .. => true
  | .ifElse .. => true
  | .forE .. => true
  | .whileE .. => true
  | .repE .. => true
  | .func .. => true
  | .un .. => true
  | _ => false

/-- suppression_edit.rs:319-328 `is_control_flow_statement`. -/
def controlFlowNode : Node → Bool
  | .ifE .. => true
  | .ifElse .. => true
  | .forE .. => true
  | .whileE .. => true
  | .repE .. => true
  | .func .. => true
  | _ => false

/-- The place is one of (the rest of) the parameters of a function. -/
def inParams : List Frame → Bool
  | .funcP .. :: _ => true
  | .commaR .. :: fs => inParams fs
  | _ => false

/-- The node is a parameter of a function: there is an `R_PARAMETER` around it (air_r_syntax; for `x = 1`, the node itself). -/
def isParam (fs : List Frame) (e : Node) : Bool :=
  match e with
  | .comma .. => false
  | .hole => false
  | _ => match fs with
    | .commaA .. :: fs => inParams fs
    | fs => inParams fs

/-- `text_trimmed_range().start()` of a node. -/
def nodeStart (src : Src) (fs : List Frame) (e : Node) : Nat :=
  (trimmedRange src.pieces (beforeToks fs).length ((beforeToks fs).length + (toks e).length)).1

/-- What suppression_edit.rs:185-240 looks at for a node, and for the `R_PARAMETER` around it. -/
def placeInfo (src : Src) (fs : List Frame) (e : Node) : List AncestorInfo :=
  ⟨meaningfulNode e, controlFlowNode e, nodeStart src fs e⟩ ::
    (if isParam fs e then [⟨true, false, nodeStart src fs e⟩] else [])

/-- suppression_edit.rs:185-244: the node and its parents (`current.parent()`), up to the root. -/
def placeChain (src : Src) : List Frame → Node → List AncestorInfo
  | [], e => placeInfo src [] e
  | f :: fs, e => placeInfo src (f :: fs) e ++ placeChain src fs (f.fill e)

end Jarl
