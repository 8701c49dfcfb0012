import Verif.Props.RVisitRules
import Verif.Props.RLawsExamples
/-!
# C53: examples, what is not looked at, and the table of rules
-/
namespace Jarl
open Spec

/-- All rules. -/
def allOn : Str → Bool := fun _ => true

/-- `any(is.na(x))[1]`: the call is the object of `[`. -/
def hiddenZ : Zip := ⟨[.callF .none .brk (num (cs! "1")) .none, stmt1], cl (cs! "any") (cl (cs! "is.na") (nm (cs! "x")))⟩

/-- Not everything is looked at: in `any(is.na(x))[1]` a rule would have a fix, but it is not proposed. -/
theorem C53_false_everything_checked :
    ∃ z q ed, Parses (toks z.prog) z.prog ∧ isExpr z.e = true ∧ q ∈ fixRules .assign ∧ q.2 z = some ed ∧ ed ∉ proposed allOn .assign z.prog := by
  refine ⟨hiddenZ, (cs! "any_is_na", anyIsNa), _, parses_of (by decide +kernel), rfl, by simp [fixRules, keepingRules], rfl, ?_⟩
  have : proposed allOn .assign hiddenZ.prog = [] := by decide +kernel
  rw [this]; simp

/-- `f(any(is.na(x)))$a`: all of the code in front of the `$` is not looked at. -/
def hiddenZ2 : Zip :=
  ⟨[.callA (nm (cs! "f")) .none .par .none, .ext .none false .none .id (cs! "a"), stmt1], cl (cs! "any") (cl (cs! "is.na") (nm (cs! "x")))⟩

theorem C53_false_everything_checked_extract :
    ∃ z q ed, Parses (toks z.prog) z.prog ∧ isExpr z.e = true ∧ q ∈ fixRules .assign ∧ q.2 z = some ed ∧ ed ∉ proposed allOn .assign z.prog := by
  refine ⟨hiddenZ2, (cs! "any_is_na", anyIsNa), _, parses_of (by decide +kernel), rfl, by simp [fixRules, keepingRules], rfl, ?_⟩
  have : proposed allOn .assign hiddenZ2.prog = [] := by decide +kernel
  rw [this]; simp

/-- `f <- function(y, z = any(is.na(x))) { y }`: default values are looked at. -/
def defaultZ : Zip :=
  ⟨[.named .none .id (cs! "z") .none, .commaR (nm (cs! "y")) .none, .funcP .none false .none .none (.braces .none (.scons (nm (cs! "y")) [] .snil) .none),
    .binR (nm (cs! "f")) .none .assign, stmt1], cl (cs! "any") (cl (cs! "is.na") (nm (cs! "x")))⟩

theorem C53_ex_default : ∃ ed, anyIsNa defaultZ = some ed ∧ proposed allOn .assign defaultZ.prog = [ed] ∧ LookedAt defaultZ.prog defaultZ ∧
    proposed (fun n => decide (n ≠ cs! "any_is_na")) .assign defaultZ.prog = [] := by
  refine ⟨_, rfl, by decide +kernel, (C53_looked_at _ _).mp (by decide +kernel), by decide +kernel⟩

/-- `for (i in x) a::b(i)`: the loop variable and `a::b` are looked at. -/
def forZ : Zip := ⟨[stmt1], .forE .none .none .none (cs! "i") .none (nm (cs! "x")) .none (.call (.atom .none (.ns (cs! "a") false) (cs! "b")) .none .par (nm (cs! "i")) .none)⟩

theorem C53_ex_for : (visits forZ.prog).length = 6 ∧ Look.loopVar forZ ∈ visits forZ.prog ∧
    NsCallee ⟨[.callF .none .par (nm (cs! "i")) .none, .forB .none .none .none (cs! "i") .none (nm (cs! "x")) .none, stmt1], .atom .none (.ns (cs! "a") false) (cs! "b")⟩ := by
  refine ⟨by decide +kernel, by decide +kernel, rfl, _, _, _, _, rfl, ?_⟩
  rintro ⟨i, f, o, h, hf⟩
  match i, h with
  | [], h => simp at h; rw [← h.1] at hf; simp [OnTheLeft, Params] at hf
  | [_], h => simp at h; rw [← h.2.1] at hf; simp [OnTheLeft, Params, stmt1] at hf
  | _ :: _ :: i, h => simp at h

/-- The rules that are not called for parts of the code: those about comments, about the package, and (at top level) about the whole document. analyze/document.rs 19-149. -/
def documentRules : List Rule :=
  [.blanketSuppression, .invalidChunkSuppression, .duplicatedFunctionDefinition, .misplacedFileSuppression, .misplacedSuppression, .misnamedSuppression,
   .outdatedSuppression, .unexplainedSuppression, .unmatchedRangeSuppression, .unusedFunction]

/-- One of each kind of expression. -/
def kindsProg : List Zip :=
  [⟨[stmt1], nm (cs! "x")⟩, ⟨[stmt1], num (cs! "1")⟩, ⟨[stmt1], cl (cs! "f") (nm (cs! "x"))⟩, ⟨[stmt1], .bin (nm (cs! "x")) .none .plus (nm (cs! "x"))⟩,
   ⟨[stmt1], .atom .none (.ns (cs! "a") true) (cs! "b")⟩, ⟨[stmt1], .call (nm (cs! "x")) .none .brk (nm (cs! "y")) .none⟩, ⟨[stmt1], .un .none .bang (nm (cs! "x"))⟩,
   ⟨[stmt1], .func .none false .none (nm (cs! "x")) .none (nm (cs! "x"))⟩, ⟨[stmt1], .ifE .none .none (nm (cs! "x")) .none (nm (cs! "x"))⟩,
   ⟨[stmt1], .whileE .none .none (nm (cs! "x")) .none (nm (cs! "x"))⟩, forZ]

/-- Every rule of jarl that is not about the whole document is called for some part of some program, and only rules of jarl are called. -/
theorem C53_every_rule_called :
    (∀ r ∈ Rule.all, r ∉ documentRules → ∃ z, Parses (toks z.prog) z.prog ∧ LookedAt z.prog z ∧ r.name ∈ rulesAt (.node z)) ∧
    ∀ v, ∀ n ∈ rulesAt v, ∃ r ∈ Rule.all, r.name = n ∧ r ∉ documentRules := by
  constructor
  · have h : ∀ r ∈ Rule.all, r ∉ documentRules → ∃ z ∈ kindsProg, r.name ∈ rulesAt (.node z) := by decide +kernel
    have hk : ∀ z ∈ kindsProg, isStmts z.prog = true ∧ wf .top z.prog = true ∧ Look.node z ∈ visits z.prog := by decide +kernel
    intro r hr hd
    obtain ⟨z, hz, hn⟩ := h r hr hd
    obtain ⟨h1, h2, h3⟩ := hk z hz
    exact ⟨z, ⟨h1, wf_WF h2, rfl⟩, (C53_looked_at _ _).mp h3, hn⟩
  · intro v
    have h1 : ∀ n ∈ callRules, ∃ r ∈ Rule.all, r.name = n ∧ r ∉ documentRules := by decide +kernel
    have h2 : ∀ n ∈ binaryRules, ∃ r ∈ Rule.all, r.name = n ∧ r ∉ documentRules := by decide +kernel
    have h3 : ∀ n ∈ [cs! "true_false_symbol", cs! "internal_function", cs! "numeric_leading_zero", cs! "sort", cs! "comparison_negation", cs! "unreachable_code", cs! "coalesce",
      cs! "if_always_true", cs! "unnecessary_nesting", cs! "repeat", cs! "for_loop_index", cs! "for_loop_dup_index"], ∃ r ∈ Rule.all, r.name = n ∧ r ∉ documentRules := by decide +kernel
    intro n hn
    unfold rulesAt at hn
    split at hn
    · exact h3 n (by simp_all)
    · split at hn <;> first | exact h1 n hn | exact h2 n hn | (simp at hn; done) | (apply h3 n; simp at hn; simp [hn]; done) | (apply h3 n; simp at hn; rcases hn with h | h | h <;> simp [h]) | (apply h3 n; simp at hn; rcases hn with h | h <;> simp [h])

/-- The rules that are said to have a fix (rule_set.rs) and those for which jarl proposes one are the same, but: browser and empty_assignment are said to have one and
never propose it; the fix of true_false_symbol is never applied. -/
theorem C53_fix_table (want : Op) : ∀ r ∈ Rule.all, r ∉ [Rule.browser, .emptyAssignment, .trueFalseSymbol] →
    (r.fixStatus ≠ .none ↔ r.name ∈ (fixRules want).map (·.1)) := by
  simp only [fixRules, keepingRules, roomRules, List.map_append, List.map_cons, List.map_nil]
  decide +kernel

end Jarl
