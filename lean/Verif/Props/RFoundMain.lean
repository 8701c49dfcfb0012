import Verif.Props.RFoundText
import Verif.Props.RVisitRules
/-!
# C63: the rules find the code they document
-/
namespace Jarl
open Spec

theorem found_of {want : Op} {p : Node} {z : Zip} {name : Str} {r : Zip → Option Edit} (hz : LookedAt p z) (hm : (name, r) ∈ fixRules want) (h : Hits r z) : FoundBy want p name z := by
  obtain ⟨ed, h1, h2⟩ := h.some
  exact ⟨ed, (C53_proposed _ want p ed).mpr ⟨z, hz, _, hm, by simp, h1⟩, h2⟩

/-- Membership in the list of rules. -/
macro "is_rule" : tactic => `(tactic| (
  simp only [fixRules, keepingRules, roomRules, List.cons_append, List.nil_append]
  repeat (first | exact List.mem_cons_self | apply List.mem_cons_of_mem)))

theorem cond_unique {name : Str} {c c' : Zip → Prop} (h : (name, c) ∈ foundRules) (h' : (name, c') ∈ foundRules) : c = c' := by
  have hn : (foundRules.map (·.1)).Nodup := by unfold foundRules; decide +kernel
  generalize foundRules = l at h h' hn
  induction l with
  | nil => cases h
  | cons q l ih =>
    simp only [List.map_cons, List.nodup_cons, List.mem_map, not_exists, not_and] at hn
    simp only [List.mem_cons] at h h'
    rcases h with h | h <;> rcases h' with h' | h'
    · rw [← h'] at h; cases h; rfl
    · subst h; exact absurd (Eq.refl name) (hn.1 (name, c') h')
    · subst h'; exact absurd (Eq.refl name) (hn.1 (name, c) h)
    · exact ih h h' hn.2

theorem not_listed {name : Str} {c : Zip → Prop} {P : Prop} (h : (name, c) ∈ foundRules) (hn : name ∉ foundRules.map (·.1)) : P :=
  absurd (List.mem_map_of_mem (f := (·.1)) h) hn

macro "cond_of " h:ident : tactic => `(tactic| (
  refine Eq.mp (congrFun (cond_unique ‹_› ?_) _) $h
  unfold foundRules
  repeat (first | exact List.mem_cons_self | apply List.mem_cons_of_mem)))

theorem not_ns {z : Zip} {p : Node} (hz : LookedAt p z) (h : isNs z.e = false) : ¬ OutOfSight z.fs := by
  rcases hz.2.2 with h' | h'
  · exact h'
  · exact absurd h'.1 (by simp [h])

/-- What is behind an operator is looked at. -/
theorem looked_un {p : Node} {fs : List Frame} {g : Gap} {o : Op} {x : Node} (hz : LookedAt p ⟨fs, .un g o x⟩) (hx : isExpr x = true) : LookedAt p ⟨.un g o :: fs, x⟩ := by
  refine ⟨hz.1, hx, Or.inl ?_⟩
  rintro ⟨inner, f, outer, h1, h2⟩
  refine not_ns hz rfl ?_
  cases inner with
  | nil =>
    simp only [List.nil_append, List.cons.injEq] at h1
    rw [← h1.1] at h2
    rcases h2 with h2 | ⟨h2, _⟩ <;> cases h2
  | cons f' inner =>
    simp only [List.cons_append, List.cons.injEq] at h1
    refine ⟨inner, f, outer, h1.2, h2.imp_right fun ⟨h, h'⟩ => ⟨h, fun hd => h' ?_⟩⟩
    obtain ⟨deep, g, k, s, g2, list, h3, h4⟩ := hd
    exact ⟨f' :: deep, g, k, s, g2, list, by rw [h3]; rfl, h4⟩

theorem found_allEqualTrue {want : Op} {p : Node} {z : Zip} {f : Node} {as : List Node} {b : Bool} (hz : LookedAt p z) (h : bare z.e = notIf b (callOf f as))
    (hf : Fn (cs! "all.equal") f) (hc : equalCondition z) : FoundBy want p (cs! "all_equal") z := by
  have hm : (cs! "all_equal", allEqualTrue) ∈ fixRules want := by is_rule
  have hnest : ∀ {z' : Zip} {f0 args}, asCall z'.e = some (f0, args) → fnName f0 = cs! "all.equal" → nested z' (cs! "isFALSE") (cs! "all.equal") = none := by
    intro z' f0 args h1 h2
    simp [nested, h1, h2, guard]
  cases b with
  | false =>
    obtain ⟨f0, args, h1, rfl, _⟩ := call_inv h
    refine found_of hz hm ?_
    obtain ⟨g, g2, he⟩ := asCall_eq h1
    have hcd := hc.1 _ _ _ _ he hf
    have hn := fn_bare hf
    obtain ⟨fs, e⟩ := z
    simp only at h1 hcd he
    unfold Hits allEqualTrue
    simp only [hnest (z' := ⟨fs, e⟩) h1 hn, h1, hn, Option.bind_eq_bind, Option.bind_some, Option.isNone_none, guard_true]
    unfold CondOf at hcd
    split at hcd
    · rfl
    · rfl
    · rfl
    · exact hcd.elim
  | true =>
    obtain ⟨x, g, he, hx⟩ := un_inv h
    obtain ⟨f0, args, h1, rfl, _⟩ := call_inv hx
    obtain ⟨fs, e⟩ := z
    simp only at he
    subst he
    obtain ⟨g1, g2, rfl⟩ := asCall_eq h1
    have hl := looked_un hz rfl
    have hn := fn_bare hf
    have hbang : underBang (.un g .bang :: fs) = true := by
      unfold underBang
      split
      · next heq =>
        cases heq
        exact absurd rfl (hc.2 _ _ _ _ _ rfl rfl _ _)
      · rfl
      · next h => exact absurd rfl (h _ _)
    have hr : allEqualTrue ⟨.un g .bang :: fs, .call f0 g1 .par args g2⟩ = some ⟨⟨fs, .un g .bang (.call f0 g1 .par args g2)⟩,
        tk (.op .bang) :: callText (cs! "isTRUE") (trimmed (.call f0 g1 .par args g2)), containsComments ⟨.un g .bang :: fs, .call f0 g1 .par args g2⟩⟩ := by
      unfold allEqualTrue
      simp only [hnest (z' := ⟨.un g .bang :: fs, .call f0 g1 .par args g2⟩) h1 hn, h1, hn, Option.bind_eq_bind, Option.bind_some, Option.isNone_none, guard_true, hbang]
    exact ⟨_, (C53_proposed _ want p _).mpr ⟨_, hl, _, hm, by simp, hr⟩, rfl⟩

/-- **C63.** For every program, every place in it that the rules look at, and every one of these rules: if the code there is code that the documentation of the rule is about, however it is
laid out, and the condition holds, then the rule proposes to replace it. -/
theorem C63_found {ts : List Tok} {p : Node} (hp : Parses ts p) (want : Op) {z : Zip} (hz : LookedAt p z) :
    ∀ q ∈ foundRules, ∀ new, Law q.1 (bare z.e) new → q.2 z → FoundBy want p q.1 z := by
  rintro ⟨name, cond⟩ hq new hlaw hc
  simp only at hlaw hc ⊢
  generalize hold : bare z.e = old at hlaw
  cases hlaw with
  | any_is_na h1 h2 => exact found_of hz (by is_rule) (found_anyIsNa hold h1 h2)
  | any_is_na_in h1 => exact found_of hz (by is_rule) (found_anyIsNa2 hold h1 (by cond_of hc))
  | any_duplicated h1 h2 => exact found_of hz (by is_rule) (found_anyDuplicated hold h1 h2)
  | which_grepl h1 h2 => exact found_of hz (by is_rule) (found_whichGrepl hold h1 h2)
  | length_levels h1 h2 => exact found_of hz (by is_rule) (found_lengthLevels hold h1 h2)
  | length_test h1 h2 => exact found_of hz (by is_rule) (found_lengthTest hold h1 h2)
  | outer_negation_any h1 => exact found_of hz (by is_rule) (found_outerNegation hold (Or.inl h1) (by cond_of hc))
  | outer_negation_all h1 => exact found_of hz (by is_rule) (found_outerNegation hold (Or.inr h1) (by cond_of hc))
  | redundant_ifelse h1 h2 h3 h4 h5 h6 h7 h8 h9 => exact found_of hz (by is_rule) (found_redundantIfelse hold h1 h2 h3 h4 h5 h6 h7 h8 h9 (by cond_of hc))
  | all_equal_false h1 h2 => exact found_of hz (by is_rule) (found_allEqualFalse hold h1 h2)
  | all_equal_true h1 => exact found_allEqualTrue hz hold h1 (by cond_of hc)
  | class_identical h1 h2 h3 h4 h5 h6 h7 => exact found_of hz (by is_rule) (found_classIdentical hold h1 h2 h3 h4 h5 h6 h7)
  | class_equals h1 h2 h3 h4 h5 => exact found_of hz (by is_rule) (found_classEquals hold h1 h2 h3 h4 h5 (by cond_of hc))
  | lengths h1 h2 h3 h4 h5 h6 => exact found_of hz (by is_rule) (found_lengths (Or.inl rfl) hold (Or.inl h1) h3 h4 h5 h6 (by cond_of hc))
  | lengths_vapply h1 h2 h3 h4 h5 h6 => exact found_of hz (by is_rule) (found_lengths (Or.inr rfl) hold (Or.inr h1) h6 h3 h4 h5 (by cond_of hc))
  | lengths_map h1 h2 h3 h4 => exact found_of hz (by is_rule) (found_lengths_map hold h1 h2 h3 h4)
  | sample_int h1 h2 h3 h4 => exact found_of hz (by is_rule) (found_sampleInt hold h1 h2 h3 h4 (by cond_of hc))
  | grepv h1 h2 h3 => exact found_of hz (by is_rule) (found_grepv hold h1 h2 h3)
  | grepv_position h1 h2 => exact found_of hz (by is_rule) (found_grepv_position hold h1 h2)
  | system_file h1 h2 h3 h4 h5 h6 h7 => exact found_of hz (by is_rule) (found_systemFile hold h1 h2 h3 h5 h6 h7)
  | list2df h1 h2 h3 h4 h5 h6 => exact found_of hz (by is_rule) (found_list2df hold h1 h2 h3 h4 h5 h6 (by cond_of hc))
  | matrix_apply h1 h2 h3 h4 h5 h6 h7 h8 h9 h10 => exact found_of hz (by is_rule) (found_matrixApply hold h1 h2 h3 h4 h5 h6 h7 h8 h9 h10 (by cond_of hc))
  | seq_length h1 h2 => exact found_of hz (by is_rule) (found_seq hold h1 h2 (by decide))
  | seq_len h1 h2 h3 => exact found_of hz (by is_rule) (found_seq hold h1 h2 (List.mem_cons_of_mem _ h3))
  | seq2_length h1 h2 => exact found_of hz (by is_rule) (found_seq2 hold h1 h2 (by decide))
  | seq2_len h1 h2 h3 => exact found_of hz (by is_rule) (found_seq2 hold h1 h2 (List.mem_cons_of_mem _ h3))
  | fixed_regex h1 h2 h3 h4 h5 h6 h7 => exact found_of hz (by is_rule) (found_fixedRegex hold h1 h2 h3 h4 h5 h6 h7)
  | expect_named h1 h2 h3 h4 h5 h6 h7 => exact found_of hz (by is_rule) (found_expectNamed hold h1 h2 h3 h4 h5 h6 h7 (by cond_of hc))
  | expect_true_false h1 h2 h3 h4 h5 => exact found_of hz (by is_rule) (found_expectTrueFalse hold h1 h2 h3 h4 h5 (by cond_of hc))
  | expect_not h1 h2 => exact found_of hz (by is_rule) (found_expectNot hold h1 h2 (by cond_of hc))
  | expect_null h1 h2 h3 h4 h5 => exact found_of hz (by is_rule) (found_expectNull hold h1 h2 h3 h4 h5 (by cond_of hc))
  | expect_null_true h1 h2 h3 h4 => exact found_of hz (by is_rule) (found_expectNull_true hold h1 h2 h3 h4)
  | expect_length h1 h2 h3 h4 h5 h6 => exact found_of hz (by is_rule) (found_expectLength hold h1 h2 h3 h4 h5 h6 (by cond_of hc))
  | expect_type h1 h2 h3 h4 h5 h6 => exact found_of hz (by is_rule) (found_expectType hold h1 h2 h3 h4 h5 h6 (by cond_of hc))
  | expect_type_true h1 h2 h3 h4 h5 => exact found_of hz (by is_rule) (found_expectType_true hold h1 h2 h3 h4 h5)
  | expect_s3_class h1 h2 h3 h4 h5 h6 h7 => exact found_of hz (by is_rule) (found_expectS3Class hold h1 h2 h3 h4 h5 h6 h7 (by cond_of hc))
  | @expect_match f g as ns x p rest b h1 h2 h3 h4 h5 h6 h7 h8 =>
    cases b with
    | true => exact found_of hz (by is_rule) (found_expectMatch (b := true) hold h1 h2 h3 h4 h5 h6 h7 h8 (by cond_of hc))
    | false => exact found_of hz (by is_rule) (found_expectMatch (b := false) hold h1 h2 h3 h4 h5 h6 h7 h8 (by cond_of hc))
  | equals_na h1 h2 h3 => exact found_of hz (by is_rule) (found_equalsSpecial (P := NaValue) na_iff _ _ hold h1 h2 h3 (by cond_of hc))
  | equals_nan h1 h2 h3 => exact found_of hz (by is_rule) (found_equalsSpecial (P := Const .nan) (fun _ => isAtom_bare) _ _ hold h1 h2 h3 (by cond_of hc))
  | equals_null h1 h2 h3 => exact found_of hz (by is_rule) (found_equalsSpecial (P := Const .null) (fun _ => isAtom_bare) _ _ hold h1 h2 h3 (by cond_of hc))
  | is_numeric h1 => exact found_of hz (by is_rule) (found_isNumeric hold h1 (by cond_of hc))
  | redundant_equals h1 h2 h3 => exact found_of hz (by is_rule) (found_redundantEquals hold h1 h2 h3)
  | comparison_negation h1 => exact not_listed hq (by unfold foundRules; decide +kernel)
  | sort h1 h2 h3 h4 =>
    have hw := at_place hp hz.1
    refine found_of hz (by is_rule) (found_sort hold h1 h2 h3 ?_ (by cond_of hc))
    rintro rfl
    obtain ⟨fs, e⟩ := z
    cases e <;> simp [bare] at hold
    rw [bare_hole.mp hold.1] at hw
    exact absurd hw.1 (by simp [isExpr])
  | string_start h1 h2 h3 h4 h5 => exact found_of hz (by is_rule) (found_string_start hold h1 h2 h3 h4 h5 (by cond_of hc))
  | string_end h1 h2 h3 h4 h5 => exact found_of hz (by is_rule) (found_string_end hold h1 h2 h3 h4 h5 (by cond_of hc))
  | assignment h1 => exact not_listed hq (by unfold foundRules; decide +kernel)
  | assignment_eq h1 => exact not_listed hq (by unfold foundRules; decide +kernel)
  | numeric_leading_zero h1 => exact found_of hz (by is_rule) (found_zero hold h1)
  | true_symbol => exact found_of hz (by is_rule) (found_symbol hold (Or.inl rfl) (by cond_of hc))
  | false_symbol => exact found_of hz (by is_rule) (found_symbol hold (Or.inr rfl) (by cond_of hc))
  | «repeat» h1 h2 => exact found_of hz (by is_rule) (found_repeat hold h1)
  | coalesce h1 h2 h3 h4 h5 => exact found_of hz (by is_rule) (found_coalesce (b := false) hold h1 h2 h3 h4 h5 (by cond_of hc))
  | coalesce_not h1 h2 h3 h4 h5 => exact found_of hz (by is_rule) (found_coalesce (b := true) hold h1 h2 h3 h4 h5 (by cond_of hc))
  | sprintf h1 h2 h3 h4 h5 => exact found_of hz (by is_rule) (found_sprintf hold h1 h2 h3 h4 (by cond_of hc))
  | unnecessary_nesting => exact found_of hz (by is_rule) (found_nesting hold)

/-- **C63 (comparison_negation).** `!(x == y)`, with the parentheses, and so on. -/
theorem C63_comparison_negation {p : Node} (want : Op) {z : Zip} (hz : LookedAt p z) {l r : Node} {o o' : Op} (h : bare z.e = .un .none .bang (.paren .none (.bin l .none o r) .none))
    (ho : Opposite o o') : FoundBy want p (cs! "comparison_negation") z := by
  refine found_of hz (by is_rule) ?_
  obtain ⟨x, g, he, hx⟩ := un_inv h
  cases x <;> simp [bare] at hx
  obtain ⟨l, r, g2, rfl, _, _⟩ := bin_inv hx
  cases ho <;> simp [Hits, comparisonNegation, he, asUn, asParen, asBin, negateComparison, fixAt]

/-- **C63 (assignment).** The operator that the configuration does not ask for, and `->`. -/
theorem C63_assignment {p : Node} {want : Op} (hw : want = .assign ∨ want = .eq) {z : Zip} (hz : LookedAt p z) {l r : Node} {o : Op} (h : bare z.e = .bin l .none o r)
    (ho : o = .assign ∨ o = .eq ∨ o = .rassign) (hne : o ≠ want) : FoundBy want p (cs! "assignment") z := by
  refine found_of hz (by is_rule) ?_
  obtain ⟨l, r, g, he, _, _⟩ := bin_inv h
  rcases hw with rfl | rfl <;> rcases ho with rfl | rfl | rfl <;> first | exact absurd rfl hne | simp [Hits, assignment, he, asBin]

/-- The rules for a function of the result of a function: the names of the rule and of the two functions. -/
def nestedRules : List (Str × Str × Str) :=
  [(cs! "any_is_na", cs! "any", cs! "is.na"), (cs! "any_duplicated", cs! "any", cs! "duplicated"), (cs! "which_grepl", cs! "which", cs! "grepl"),
   (cs! "length_levels", cs! "length", cs! "levels"), (cs! "all_equal", cs! "isFALSE", cs! "all.equal")]

theorem hits_nested {name outer inner : Str} (h : (name, outer, inner) ∈ nestedRules) (want : Op) :
    ∃ r, (name, r) ∈ fixRules want ∧ ∀ z c t, nested z outer inner = some (c, t) → (r z).map (·.z) = some t := by
  simp only [nestedRules, List.mem_cons, List.not_mem_nil, or_false, Prod.mk.injEq] at h
  rcases h with ⟨rfl, rfl, rfl⟩ | ⟨rfl, rfl, rfl⟩ | ⟨rfl, rfl, rfl⟩ | ⟨rfl, rfl, rfl⟩ | ⟨rfl, rfl, rfl⟩
  · exact ⟨anyIsNa, by is_rule, fun z c t h => by simp [anyIsNa, h, fixAt]⟩
  · exact ⟨anyDuplicated, by is_rule, fun z c t h => by simp [anyDuplicated, h, fixAt]⟩
  · exact ⟨whichGrepl, by is_rule, fun z c t h => by simp [whichGrepl, h, fixAt]⟩
  · exact ⟨lengthLevels, by is_rule, fun z c t h => by simp [lengthLevels, h, fixAt]⟩
  · exact ⟨allEqualFalse, by is_rule, fun z c t h => by simp [allEqualFalse, h, fixAt]⟩

/-- What is on the right side of an operator is looked at. -/
theorem looked_right {p : Node} {fs : List Frame} {g : Gap} {o : Op} {l r : Node} (hz : LookedAt p ⟨fs, .bin l g o r⟩) (hx : isExpr r = true) : LookedAt p ⟨.binR l g o :: fs, r⟩ := by
  refine ⟨hz.1, hx, Or.inl ?_⟩
  rintro ⟨inner, f, outer, h1, h2⟩
  refine not_ns hz rfl ?_
  cases inner with
  | nil =>
    simp only [List.nil_append, List.cons.injEq] at h1
    rw [← h1.1] at h2
    rcases h2 with h2 | ⟨h2, _⟩ <;> cases h2
  | cons f' inner =>
    simp only [List.cons_append, List.cons.injEq] at h1
    refine ⟨inner, f, outer, h1.2, h2.imp_right fun ⟨h, h'⟩ => ⟨h, fun hd => h' ?_⟩⟩
    obtain ⟨deep, g, k, s, g2, list, h3, h4⟩ := hd
    exact ⟨f' :: deep, g, k, s, g2, list, by rw [h3]; rfl, h4⟩

/-- **C63 (pipes).** `is.na(x) |> any()` and `x |> is.na() |> any()`, and so on for the rules about two functions. -/
theorem C63_pipes {p : Node} (want : Op) {z : Zip} (hz : LookedAt p z) {name outer inner : Str} (hn : (name, outer, inner) ∈ nestedRules) {f g l : Node} {as : List Node} (hf : Fn outer f)
    (hg : Fn inner g) (hl : l = callOf g as ∨ ∃ x, l = .bin x .none .pipe (callOf g [])) (h : bare z.e = .bin l .none .pipe (callOf f [])) : FoundBy want p name z := by
  obtain ⟨r, hr, hits⟩ := hits_nested hn want
  obtain ⟨l, c, gp, he, rfl, hc⟩ := bin_inv h
  obtain ⟨f0, args, h1, rfl, h3⟩ := call_inv hc
  have hargs : args = .hole := bare_hole.mp h3
  subst hargs
  obtain ⟨g1, g2, rfl⟩ := asCall_eq h1
  obtain ⟨fs, e⟩ := z
  simp only at he
  subst he
  have hlk := looked_right hz rfl
  have hnest : ∃ c, nested ⟨.binR l gp .pipe :: fs, .call f0 g1 .par .hole g2⟩ outer inner = some (c, ⟨fs, .bin l gp .pipe (.call f0 g1 .par .hole g2)⟩) := by
    rcases hl with hl | ⟨x, hl⟩
    · obtain ⟨g0, gargs, k1, rfl, _⟩ := call_inv hl
      obtain ⟨g3, g4, rfl⟩ := asCall_eq k1
      exact ⟨toks gargs, by simp [nested, asCall, fn_bare hf, items, unnamedArgs, Zip.up, Frame.fill, asBin, fn_bare hg]⟩
    · obtain ⟨x, c, gp2, rfl, _, hc2⟩ := bin_inv hl
      obtain ⟨g0, gargs, k1, rfl, k3⟩ := call_inv hc2
      have : gargs = .hole := bare_hole.mp k3
      subst this
      obtain ⟨g3, g4, rfl⟩ := asCall_eq k1
      exact ⟨trimmed x, by simp [nested, asCall, fn_bare hf, items, unnamedArgs, Zip.up, Frame.fill, asBin, fn_bare hg]⟩
  obtain ⟨c, hc⟩ := hnest
  have := hits _ _ _ hc
  cases hrz : r ⟨.binR l gp .pipe :: fs, .call f0 g1 .par .hole g2⟩ with
  | none => rw [hrz] at this; cases this
  | some ed =>
    rw [hrz] at this
    exact ⟨ed, (C53_proposed _ want p ed).mpr ⟨_, hlk, _, hr, by simp, hrz⟩, by simpa using this⟩

/-- **C63 (other rules).** What a rule finds it also finds when other rules are enabled. -/
theorem C63_enabled {want : Op} {p : Node} {name : Str} {z : Zip} (h : FoundBy want p name z) {enabled : Str → Bool} (he : enabled name = true) :
    ∃ ed ∈ proposed enabled want p, ed.z = z := by
  obtain ⟨ed, h1, h2⟩ := h
  obtain ⟨z', hz, q, hq, hn, hr⟩ := (C53_proposed _ want p ed).mp h1
  simp only [decide_eq_true_eq] at hn
  exact ⟨ed, (C53_proposed enabled want p ed).mpr ⟨z', hz, q, hq, by rw [hn]; exact he, hr⟩, h2⟩

end Jarl
