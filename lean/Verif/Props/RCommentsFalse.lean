import Verif.Props.RComments
import Verif.Props.RLawsExamples
/-!
# C64: examples, and fixes that delete comments
-/
namespace Jarl
open Spec

/-- A comment behind the token in front. -/
def behind : Gap := .line true false

/-- A comment on its own line in front. -/
def above : Gap := .line false true

/-- `any( # c ⏎ is.na(x))`, with the gap in front, in a program with `y` on the next line, with the gap in front of that. -/
def anyZ (g g' : Gap) : Zip :=
  ⟨[.sconsE [] (.scons (.atom g' .id (cs! "y")) [] .snil)],
    .call (.atom g .id (cs! "any")) .none .par (.call (.atom behind .id (cs! "is.na")) .none .par (nm (cs! "x")) .none) .none⟩

instance (ed : Edit) : Decidable (commentInside ed) := inferInstanceAs (Decidable (comments (toks ed.z.e).tail ≠ []))

instance (n : Str) (ed : Edit) : Decidable (Guarded n ed) :=
  inferInstanceAs (Decidable (n ≠ cs! "assignment" ∧ (n = cs! "all_equal" → asUn ed.z.e = none) ∧ commentAbove ed = false ∧ commentBehind ed = false))

theorem parses_self {p} (h : (isStmts p && wf .top p) = true) : Parses (toks p) p := parses_of (by simpa using h)

/-- Some fix of the rule that is carried out does not keep the comments. -/
def LosesComment (r : Zip → Option Edit) : Prop :=
  ∃ ts p z ed, Parses ts p ∧ z.prog = p ∧ r z = some ed ∧ ed.skip = false ∧ (comments (edited ed)).length < (comments ts).length

/-- A comment inside: the fix is proposed, but skipped. `any( # c ⏎ is.na(x))`. -/
example : ∃ ts p ed, Parses ts p ∧ (anyZ .none nl).prog = p ∧ anyIsNa (anyZ .none nl) = some ed ∧ Guarded (cs! "any_is_na") ed ∧ commentInside ed ∧ ed.skip = true :=
  ⟨_, (anyZ .none nl).prog, _, parses_self (by decide +kernel), rfl, rfl, by decide, by decide, by decide⟩

/-- A comment above and one behind, none inside: the fix keeps them. `# c ⏎ any(is.na(x)) # d ⏎ y`. -/
example : ∃ ts p z ed, Parses ts p ∧ z.prog = p ∧ anyIsNa z = some ed ∧ ed.skip = false ∧ ¬ commentInside ed ∧ comments (edited ed) = [.ownLine, .behind] ∧
    comments ts = [.ownLine, .behind] :=
  ⟨_, _, ⟨[.sconsE [] (.scons (.atom behind .id (cs! "y")) [] .snil)], .call (.atom above .id (cs! "any")) .none .par (cl (cs! "is.na") (nm (cs! "x"))) .none⟩, _,
    parses_self (by decide +kernel), rfl, rfl, by decide, by decide, by decide, by decide⟩

/-- `# c ⏎ any( # d ⏎ is.na(x)) ⏎ y`: the comment above hides the one inside, which is deleted. -/
theorem C64_false_comment_above : LosesComment anyIsNa :=
  ⟨_, _, anyZ above nl, _, parses_self (by decide +kernel), rfl, rfl, by decide, by decide⟩

/-- `any( # c ⏎ is.na(x)) # d ⏎ y`: the comment behind hides the one inside. -/
theorem C64_false_comment_behind : LosesComment anyIsNa :=
  ⟨_, _, anyZ .none behind, _, parses_self (by decide +kernel), rfl, rfl, by decide, by decide⟩

/-- `x = # c ⏎ 1`: the rule `assignment` does not look for comments. -/
theorem C64_false_assignment : LosesComment (assignment .assign) :=
  ⟨_, _, ⟨[stmt1], .bin (nm (cs! "x")) .none .eq (.atom behind .double (cs! "1"))⟩, _, parses_self (by decide +kernel), rfl, rfl, by decide, by decide⟩

/-- `! # c ⏎ all.equal(x, y)`: the rule `all_equal` does not look behind the `!`. -/
theorem C64_false_all_equal : LosesComment allEqualTrue :=
  ⟨_, _, ⟨[.un .none .bang, stmt1], .call (.atom behind .id (cs! "all.equal")) .none .par (.comma (nm (cs! "x")) .none (nm (cs! "y"))) .none⟩, _,
    parses_self (by decide +kernel), rfl, rfl, by decide, by decide⟩

/-- Fixes that are carried out do not always keep the comments, whatever operator is asked for. -/
theorem C64_not_always (want : Op) : ¬ ∀ q ∈ fixRules want, ∀ ts p z ed, Parses ts p → z.prog = p → q.2 z = some ed → ed.skip = false → KeepsComments ed := by
  intro h
  obtain ⟨ts, p, z, ed, hp, hz, he, hs, hl⟩ := C64_false_comment_above
  have := (h (cs! "any_is_na", anyIsNa) (by simp [fixRules, keepingRules]) ts p z ed hp hz he hs).2
  have hzp : ed.z.prog = p := (place_rules want (cs! "any_is_na", anyIsNa) (by simp [fixRules, keepingRules]) z ed he).trans hz
  rw [hzp, hp.2.2] at this
  rw [this] at hl
  exact absurd hl (Nat.lt_irrefl _)

/-- A pass with two fixes at once: `# c ⏎ any(is.na(x)) # d ⏎ length(levels(x))`. -/
example : ∃ ts out, CommentPass .assign ts out ∧ comments out = [.ownLine, .behind] ∧ out ≠ ts := by
  let one : Node := .call (.atom above .id (cs! "any")) .none .par (cl (cs! "is.na") (nm (cs! "x"))) .none
  let two : Node := .call (.atom behind .id (cs! "length")) .none .par (cl (cs! "levels") (nm (cs! "x"))) .none
  let p : Node := .scons one [] (.scons two [] .snil)
  let e1 : Edit := ⟨⟨[.sconsE [] (.scons two [] .snil)], one⟩, callText (cs! "anyNA") (toks (nm (cs! "x"))), false⟩
  let e2 : Edit := ⟨⟨[.sconsE [] .snil, .sconsR one []], two⟩, callText (cs! "nlevels") (toks (nm (cs! "x"))), false⟩
  refine ⟨toks p, [] ++ (cutOf e1).new ++ ([] ++ (cutOf e2).new ++ []), ⟨p, [e1, e2], parses_self (by decide +kernel), ?_, ?_⟩, by decide, by decide⟩
  · intro ed hed
    simp only [List.mem_cons, List.not_mem_nil, or_false] at hed
    rcases hed with rfl | rfl
    · exact ⟨rfl, (cs! "any_is_na", anyIsNa), by simp [fixRules, keepingRules], e1.z, rfl, rfl, .inr (by decide)⟩
    · exact ⟨rfl, (cs! "length_levels", lengthLevels), by simp [fixRules, keepingRules], e2.z, rfl, rfl, .inr (by decide)⟩
  · exact Patched.cut (keep := []) (old := toks one) (rest := toks two) (by decide) (by decide)
      (Patched.cut (keep := []) (old := toks two) (rest := []) (by decide) (by decide) (Patched.done _ _))

end Jarl
