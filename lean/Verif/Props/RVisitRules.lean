import Verif.Props.RVisit
import Verif.Rules
set_option linter.unusedSimpArgs false
namespace Jarl
open Spec

/-- The rule proposes nothing where it is not called. -/
def CalledWhere (q : Str × (Zip → Option Edit)) : Prop := ∀ z, (q.2 z).isSome → q.1 ∈ rulesAt (.node z)

theorem nested_none {z : Zip} {o i : Str} (h : asCall z.e = none) : nested z o i = none := by
  simp [nested, h]

theorem called_call {n : Str} {r : Zip → Option Edit} (h : ∀ z, asCall z.e = none → r z = none) (hn : n ∈ callRules) : CalledWhere (n, r) := by
  intro z hz
  cases hc : asCall z.e with
  | none => simp [h z hc] at hz
  | some q =>
    unfold asCall at hc
    split at hc
    · rename_i he; simp only [rulesAt, he]; exact hn
    · simp at hc

theorem called_bin {n : Str} {r : Zip → Option Edit} (h : ∀ z, asBin z.e = none → r z = none) (hn : n ∈ binaryRules) : CalledWhere (n, r) := by
  intro z hz
  cases hc : asBin z.e with
  | none => simp [h z hc] at hz
  | some q =>
    unfold asBin at hc
    split at hc
    · rename_i he; simp only [rulesAt, he]; exact hn
    · simp at hc

theorem fixRules_called (want : Op) : ∀ q ∈ fixRules want, CalledWhere q := by
  simp only [fixRules, keepingRules, roomRules, List.cons_append, List.nil_append, List.forall_mem_cons, List.not_mem_nil, false_imp_iff, implies_true, and_true]
  refine ⟨?_, ?_, ?_, ?_, ?_, ?_, ?_, ?_, ?_, ?_, ?_, ?_, ?_, ?_, ?_, ?_, ?_, ?_, ?_, ?_, ?_, ?_, ?_, ?_, ?_, ?_, ?_, ?_, ?_, ?_, ?_, ?_, ?_, ?_, ?_, ?_, ?_, ?_, ?_, ?_,
    ?_, ?_, ?_, ?_, ?_⟩
  · exact called_call (fun z h => by simp [allEqualTrue, h, nested_none h]) (by decide)
  · exact called_call (fun z h => by simp [anyIsNa, h, nested_none h]) (by decide)
  · exact called_bin (fun z h => by simp [anyIsNa2, h]) (by decide)
  · exact called_call (fun z h => by simp [classIdentical, h]) (by decide)
  · exact called_bin (fun z h => by simp [classEquals, h]) (by decide)
  · exact called_bin (fun z h => by simp [equalsNa, equalsSpecial, h]) (by decide)
  · exact called_bin (fun z h => by simp [equalsNan, equalsSpecial, h]) (by decide)
  · exact called_bin (fun z h => by simp [equalsNull, equalsSpecial, h]) (by decide)
  · exact called_call (fun z h => by simp [expectLength, h]) (by decide)
  · exact called_call (fun z h => by simp [expectMatch, h]) (by decide)
  · exact called_call (fun z h => by simp [expectNamed, h]) (by decide)
  · exact called_call (fun z h => by simp [expectMatch, h]) (by decide)
  · exact called_call (fun z h => by simp [expectNull, h]) (by decide)
  · exact called_call (fun z h => by simp [expectS3Class, h]) (by decide)
  · exact called_call (fun z h => by simp [expectTrueFalse, h]) (by decide)
  · exact called_call (fun z h => by simp [expectType, h]) (by decide)
  · exact called_call (fun z h => by simp [fixedRegex, h]) (by decide)
  · exact called_call (fun z h => by simp [grepv, h]) (by decide)
  · exact called_bin (fun z h => by simp [isNumeric, h]) (by decide)
  · exact called_call (fun z h => by simp [lengthLevels, h, nested_none h]) (by decide)
  · exact called_call (fun z h => by simp [lengths, h]) (by decide)
  · exact called_call (fun z h => by simp [list2df, h]) (by decide)
  · exact called_call (fun z h => by simp [matrixApply, h]) (by decide)
  · intro z h
    simp only [numericLeadingZero] at h
    split at h
    · rename_i he; simp [rulesAt, he]
    · rename_i he; simp [rulesAt, he]
    · simp at h
  · exact called_bin (fun z h => by simp [redundantEquals, h]) (by decide)
  · exact called_call (fun z h => by simp [sampleInt, h]) (by decide)
  · exact called_bin (fun z h => by simp [seq, h]) (by decide)
  · exact called_call (fun z h => by simp [seq2, h]) (by decide)
  · intro z h
    simp only [sortRule] at h
    cases hc : asSubset z.e with
    | none => simp [hc] at h
    | some q =>
      unfold asSubset at hc
      split at hc
      · rename_i he; simp [rulesAt, he]
      · simp at hc
  · exact called_bin (fun z h => by simp [stringBoundary, h]) (by decide)
  · exact called_call (fun z h => by simp [systemFile, h]) (by decide)
  · intro z h
    cases he : z.e with
    | atom g k s =>
      by_cases hk : k = .id
      · subst hk; simp [rulesAt, he]
      · simp [trueFalseSymbol, isAtom, he, hk] at h
    | _ => simp [trueFalseSymbol, isAtom, he] at h
  · exact called_call (fun z h => by simp [whichGrepl, h, nested_none h]) (by decide)
  · exact called_call (fun z h => by simp [sprintfRule, sprintfReport, h]) (by decide)
  · exact called_call (fun z h => by simp [allEqualFalse, h, nested_none h]) (by decide)
  · exact called_call (fun z h => by simp [anyDuplicated, h, nested_none h]) (by decide)
  · intro z h
    cases hc : asUn z.e with
    | none => simp [comparisonNegation, hc] at h
    | some q =>
      unfold asUn at hc
      split at hc
      · rename_i he; simp [rulesAt, he]
      · simp at hc
  · exact called_call (fun z h => by simp [lengthTest, h]) (by decide)
  · exact called_call (fun z h => by simp [outerNegation, h]) (by decide)
  · exact called_call (fun z h => by simp [redundantIfelse, h]) (by decide)
  · exact called_bin (fun z h => by simp [assignment, h]) (by decide)
  · intro z h
    simp only [coalesce] at h
    split at h
    · rename_i he; simp [rulesAt, he]
    · simp at h
  · exact called_call (fun z h => by simp [expectNot, h]) (by decide)
  · intro z h
    simp only [repeatRule] at h
    split at h
    · rename_i he; simp [rulesAt, he]
    · simp at h
  · intro z h
    simp only [unnecessaryNesting] at h
    split at h
    · rename_i he; simp [rulesAt, he]
    · simp at h

/-- What is proposed for a program is what the enabled rules propose at the places they look at: every rule is called wherever it could propose something, and
none that is not enabled. -/
theorem C53_proposed (enabled : Str → Bool) (want : Op) (p : Node) (ed : Edit) :
    ed ∈ proposed enabled want p ↔ ∃ z, LookedAt p z ∧ ∃ q ∈ fixRules want, enabled q.1 = true ∧ q.2 z = some ed := by
  simp only [proposed, reported, List.mem_flatMap, List.mem_filter]
  constructor
  · rintro ⟨v, hv, n, ⟨_, hn⟩, hed⟩
    cases v with
    | loopVar z => simp [fixesOf] at hed
    | node z =>
      simp only [fixesOf, List.mem_filterMap, List.mem_filter, decide_eq_true_eq] at hed
      obtain ⟨q, ⟨hq, rfl⟩, h⟩ := hed
      exact ⟨z, (C53_looked_at p z).mp hv, q, hq, hn, h⟩
  · rintro ⟨z, hz, q, hq, hn, h⟩
    refine ⟨.node z, (C53_looked_at p z).mpr hz, q.1, ⟨fixRules_called want q hq z (by simp [h]), hn⟩, ?_⟩
    simp only [fixesOf, List.mem_filterMap, List.mem_filter, decide_eq_true_eq]
    exact ⟨q, ⟨hq, rfl⟩, h⟩

end Jarl
