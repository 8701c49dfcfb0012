import Verif.Props.RLawsFalse
import Verif.Props.RVisitMore
/-!
# C54: calls of `sprintf`
-/
namespace Jarl
open Spec

theorem afterPipe_piped (fs : List Frame) : afterPipe fs = piped fs := by
  unfold afterPipe piped
  split
  · rfl
  · rename_i h
    split
    · exact absurd rfl (h _ _ _)
    · rfl

/-- A call `sprintf("…", a, b, …)` that is not the right side of a pipe, with a string in front and no named arguments, is checked, with the number of the other arguments. -/
theorem C54_call {z : Zip} {f args : Node} {g : Gap} {s : Str} {as : List Node} (h : asCall z.e = some (f, args)) (hf : fnName f = cs! "sprintf") (hp : piped z.fs = false)
    (hi : items args = .atom g .str s :: as) (hn : ∀ a ∈ as, argName a = none) : sprintfReport z = checkFormat s as.length := by
  have hu : unnamedArgs (items args) = .atom g .str s :: as := by
    rw [hi, unnamedArgs, List.filter_eq_self]
    intro a ha
    simp only [List.mem_cons] at ha
    rcases ha with rfl | ha
    · rfl
    · simp [hn a ha]
  have hb : argByName (items args) (cs! "fmt") = none := by
    rw [argByName, List.find?_eq_none, hi]
    intro a ha
    simp only [List.mem_cons] at ha
    rcases ha with rfl | ha
    · simp [argName]
    · simp [hn a ha]
  have ha : argBy (items args) (cs! "fmt") 0 = some (.atom g .str s) := by simp only [argBy, hb, hu]; rfl
  have hl : (unnamedArgs (items args)).length - 1 = as.length := by rw [hu]; simp
  rw [← afterPipe_piped] at hp
  unfold sprintfReport
  rw [h]
  simp [hf, hp, ha, argValue, argName, hl, guard]

/-- `sprintf("…", a, b, …)` with a format of the manual whose conversions have no position: it is reported if and only if there is no conversion or the arguments are not those that are used. -/
theorem C54_reported {z : Zip} {f args : Node} {g : Gap} {ps : List Piece} {as : List Node} (h : asCall z.e = some (f, args)) (hf : fnName f = cs! "sprintf") (hp : piped z.fs = false)
    (hi : items args = .atom g .str (render ps) :: as) (hn : ∀ a ∈ as, argName a = none) (ho : Spec.Ok ps) (hu : Unnumbered ps) :
    sprintfReport z ≠ none ↔ convs ps = [] ∨ ¬ Spec.Fits ps as.length := by
  rw [C54_call h hf hp hi hn]
  by_cases hc : convs ps = []
  · simp only [hc, true_or, iff_true]
    rw [(C54_useless ho as.length (plainText ps)).mpr ⟨hc, rfl⟩]
    simp
  · simp only [hc, false_or]
    rw [ne_eq, C54_mismatch ho hu hc]

/-- On the right side of a pipe nothing is reported. -/
theorem C54_after_pipe {z : Zip} (hp : piped z.fs = true) : sprintfReport z = none := by
  rw [← afterPipe_piped] at hp
  unfold sprintfReport
  cases asCall z.e with
  | none => rfl
  | some q => simp [hp, guard]

/-- A fix is proposed for constants only. -/
theorem C54_fix {z : Zip} : (∃ ed, sprintfRule z = some ed) ↔ ∃ t, sprintfReport z = some (.useless t) := by
  unfold sprintfRule
  cases sprintfReport z with
  | none => simp
  | some r => cases r <;> simp

/-- `sprintf("%d", 1)` and `sprintf("%d")`. -/
theorem C54_call_example : sprintfReport ⟨[stmt1], cl (cs! "sprintf") (a2 (str (cs! "\"%d\"")) (num (cs! "1")))⟩ = none ∧
    sprintfReport ⟨[stmt1], cl (cs! "sprintf") (str (cs! "\"%d\""))⟩ = some (.mismatch 1 0) ∧
    sprintfReport ⟨[stmt1], cl (cs! "sprintf") (str (cs! "\"%y\""))⟩ = some .invalid := by
  decide +kernel

/-- The report counts the arguments as they are written: `sprintf("%s %s", ...)` is reported although `...` can be two arguments, and `sprintf("%s", x = y)` although the format
uses an argument with a name, too. -/
theorem C54_false_written : sprintfReport ⟨[stmt1], cl (cs! "sprintf") (a2 (str (cs! "\"%s %s\"")) (.atom .none .dots (cs! "...")))⟩ = some (.mismatch 2 1) ∧
    sprintfReport ⟨[stmt1], cl (cs! "sprintf") (a2 (str (cs! "\"%s\"")) (arg (cs! "x") (nm (cs! "y"))))⟩ = some (.mismatch 1 0) := by
  decide +kernel

end Jarl
