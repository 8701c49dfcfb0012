import Verif.RReports
import Verif.RText
import Verif.Check
/-!
# RCheck: from the code to the diagnostics of a file

`check_expression` on all top-level expressions (check.rs 157-159), with the modelled rules: which diagnostics it pushes, with their ranges and fixes, or how it fails. This is what the
parameter `Lints.expressions` of Check.lean stands for.
-/
namespace Jarl

/-- What is left open: the options; the texts of the messages; how the text of a fix is put together from the file (`format!` in the rules; its tokens are those of the edit); and the reports
without fix of the rules that also propose fixes, and of unreachable_code in functions and true_false_symbol for loop variables (with what they say and where). -/
structure Wording where
  opts : ROpts
  said : Str → Said → Str × Option Str
  fixed : Str → Edit → Str × Option Str
  content : Src → Str → Edit → Str
  other : Src → Str → Look → List (Str × Option Str × Range)

/-- `text_trimmed_range()` of the node: as in `textFix`. -/
def placeRange (src : Src) (z : Zip) : Range :=
  let i := (beforeToks z.fs).length
  let r := trimmedRange src.pieces i (i + (toks z.e).length)
  ⟨r.1, r.2⟩

/-- From the beginning of the token number `i` of the node to the end of the one in front of number `j`. -/
def partRange (src : Src) (z : Zip) (i j : Nat) : Range :=
  let k := (beforeToks z.fs).length
  let r := trimmedRange src.pieces (k + i) (k + j)
  ⟨r.1, r.2⟩

/-- The range of a report with a fix: that of the node that is replaced (e.g. any_is_na.rs 36-43), except assignment (assignment.rs 61-86: up to the operator, or from it on) and repeat
(repeat.rs 59-62: from `while` to the parenthesis). -/
def fixRange (src : Src) (n : Str) (ed : Edit) : Range :=
  match ed.z.e with
  | .bin l _ o _ =>
    if n = cs! "assignment" then
      (if o = .rassign then partRange src ed.z (toks l).length (toks ed.z.e).length else partRange src ed.z 0 ((toks l).length + 1))
    else placeRange src ed.z
  | .whileE _ _ c _ _ => if n = cs! "repeat" then partRange src ed.z 0 ((toks c).length + 3) else placeRange src ed.z
  | _ => placeRange src ed.z

/-- The range of a report without fix: that of the node, except for the rules on loops (for_loop_index.rs 49-51, for_loop_dup_index.rs 65-67: the variable to the end of the sequence) and
if_always_true (if_always_true.rs 66: the condition). -/
def noteRange (src : Src) (n : Str) (z : Zip) : Range :=
  match z.e with
  | .forE _ _ _ _ _ s _ _ => if n = cs! "for_loop_index" ∨ n = cs! "for_loop_dup_index" then partRange src z 2 ((toks s).length + 4) else placeRange src z
  | .ifE _ _ c _ _ | .ifElse _ _ c _ _ _ _ => if n = cs! "if_always_true" then partRange src z 2 ((toks c).length + 2) else placeRange src z
  | _ => placeRange src z

/-- `Diagnostic::new(.., range, Fix::empty())`. -/
def saidDiag (W : Wording) (src : Src) (n : Str) (z : Zip) (s : Said) : Diagnostic :=
  Diagnostic.new n (W.said n s).1 (W.said n s).2 (noteRange src n z) Fix.empty

/-- `Diagnostic::new(.., range, Fix { content, start, end, to_skip })`. -/
def fixDiag (W : Wording) (src : Src) (n : Str) (ed : Edit) : Diagnostic :=
  Diagnostic.new n (W.fixed n ed).1 (W.fixed n ed).2 (fixRange src n ed) (textFix src ed (W.content src n ed))

/-- Other reports. -/
def otherDiag (n : Str) (x : Str × Option Str × Range) : Diagnostic := Diagnostic.new n x.1 x.2.1 x.2.2 Fix.empty

/-- The names of the rules whose reports are all in `sayRules`. -/
def sayNames : List Str :=
  [cs! "browser", cs! "download_file", cs! "duplicated_arguments", cs! "empty_assignment", cs! "vector_logic", cs! "implicit_assignment", cs! "internal_function", cs! "undesirable_function",
   cs! "for_loop_index", cs! "for_loop_dup_index", cs! "if_always_true"]

/-- `checker.report_diagnostic(rule(ast)?)` (analyze/*.rs). -/
def callRule (W : Wording) (want : Op) (src : Src) (n : Str) : Look → Except RuleFail (List Diagnostic)
  | .loopVar z => .ok ((W.other src n (.loopVar z)).map (otherDiag n))
  | .node z =>
    match ruleOf W.opts n z with
    | .error e => .error e
    | .ok (some s) => .ok [saidDiag W src n z s]
    | .ok none =>
      match fixesOf want n (.node z) with
      | [] => if n ∈ sayNames then .ok [] else .ok ((W.other src n (.node z)).map (otherDiag n))
      | ed :: eds => .ok ((ed :: eds).map (fixDiag W src n))

/-- The results of the calls one after the other; the first failure ends it (`?`). -/
def inOrder (f : α → Except ε (List β)) : List α → Except ε (List β)
  | [] => .ok []
  | x :: xs =>
    match f x with
    | .error e => .error e
    | .ok ys => match inOrder f xs with
      | .error e => .error e
      | .ok zs => .ok (ys ++ zs)

/-- The operator that the configuration asks for. -/
def AssignOp.op : AssignOp → Op
  | .arrow => .assign
  | .equal => .eq

/-- check.rs 157-159 with analyze/*.rs: all rules for everything looked at. A panic of a rule ends the program. -/
def checkExpressions (W : Wording) (inp : LintInput) (src : Src) (p : Node) : Except CheckErr (List Diagnostic) :=
  match inOrder (fun v => inOrder (fun n => callRule W inp.assignment.op src n v) ((rulesAt v).filter (fun n => inp.ruleSet.any (fun r => r.name = n)))) (visits p) with
  | .ok ds => .ok ds
  | .error .error => .error .lint
  | .error .panic => .error .panic

end Jarl
