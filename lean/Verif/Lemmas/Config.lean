import Verif.Spec.Config
/-!
# Helper lemmas for C01-C06
-/

namespace Jarl

open Spec

theorem isRuleChar_not_ws {c : Char} (h : isRuleChar c = true) : isWs c = false := by
  unfold isRuleChar at h
  unfold isWs
  simp only [Bool.or_eq_true, Bool.and_eq_true, decide_eq_true_eq] at h
  have h' : (97 ≤ c.toNat ∧ c.toNat ≤ 122) ∨ (48 ≤ c.toNat ∧ c.toNat ≤ 57) ∨ c.toNat = 95 := by
    rcases h with (h | h) | h
    · exact .inl h
    · exact .inr (.inl h)
    · subst h; exact .inr (.inr rfl)
  simp
  omega

theorem trim_ruleName (r : Rule) : trim r.name = r.name :=
  trim_of_no_ws fun c hc => isRuleChar_not_ws (r.name_chars.1 c hc)

theorem mem_replaceGroupRules {l : List Str} {n : Str} :
    n ∈ replaceGroupRules l ↔ ∃ i ∈ l,
      (trim i = cs! "ALL" ∧ ∃ r : Rule, r.name = n) ∨
      (trim i ≠ cs! "ALL" ∧ ∃ c : Category, trim i = c.name ∧ ∃ r : Rule, c ∈ r.categories ∧ r.name = n) ∨
      (trim i ≠ cs! "ALL" ∧ (∀ c : Category, trim i ≠ c.name) ∧ n = trim i) := by
  unfold replaceGroupRules
  rw [List.mem_flatMap]
  refine exists_congr fun i => and_congr_right fun _ => ?_
  simp only []
  by_cases hA : trim i = cs! "ALL"
  · rw [if_pos hA]
    simp only [List.mem_map, hA, true_and, ne_eq, not_true_eq_false, false_and, or_false]
    exact ⟨fun ⟨r, _, h⟩ => ⟨r, h⟩, fun ⟨r, h⟩ => ⟨r, r.mem_all, h⟩⟩
  · rw [if_neg hA]
    simp only [hA, false_and, ne_eq, not_false_eq_true, true_and, false_or]
    by_cases hC : (Category.all.map Category.name).contains (trim i)
    · rw [if_pos hC]
      simp only [List.contains_iff_mem, List.mem_map] at hC
      obtain ⟨c, _, hc⟩ := hC
      have hp : Category.parse (trim i) = some c := Category.parse_eq_some.mpr hc
      rw [hp]
      simp only [List.mem_map, List.mem_filter, Rule.hasCategory, List.contains_iff_mem]
      constructor
      · rintro ⟨r, ⟨_, h1⟩, h2⟩; exact .inl ⟨c, hc.symm, r, h1, h2⟩
      · rintro (⟨c', hc', r, h1, h2⟩ | ⟨h1, _⟩)
        · have : Category.parse (trim i) = some c' := Category.parse_eq_some.mpr hc'.symm
          rw [hp] at this; cases this
          exact ⟨r, ⟨r.mem_all, h1⟩, h2⟩
        · exact absurd hc.symm (h1 c)
    · rw [if_neg hC]
      have hno : ∀ c : Category, trim i ≠ c.name := by
        intro c hc
        apply hC
        simp only [List.contains_iff_mem, List.mem_map]
        exact ⟨c, c.mem_all, hc.symm⟩
      simp only [List.mem_singleton]
      constructor
      · intro h; exact .inr ⟨hno, h⟩
      · rintro (⟨c, hc, _⟩ | ⟨_, h⟩)
        · exact absurd hc (hno c)
        · exact h

theorem mem_names_iff (s : Str) : (Rule.all.map Rule.name).contains s = true ↔ ∃ r : Rule, s = r.name := by
  simp only [List.contains_iff_mem, List.mem_map]
  exact ⟨fun ⟨r, _, h⟩ => ⟨r, h.symm⟩, fun ⟨r, h⟩ => ⟨r, r.mem_all, h.symm⟩⟩

theorem hasInvalidRules_iff (l : List Str) :
    hasInvalidRules (replaceGroupRules l) = true ↔ ∃ i ∈ l, ¬ Known i := by
  unfold hasInvalidRules
  simp only [List.any_eq_true, Bool.or_eq_true, Bool.not_eq_true']
  have key : ∀ n : Str, ((trim n).isEmpty = true ∨ (Rule.all.map Rule.name).contains (trim n) = false) ↔
      ¬ ∃ r : Rule, trim n = r.name := by
    intro n
    rw [← mem_names_iff]
    constructor
    · rintro (h | h) h'
      · obtain ⟨r, hr⟩ := (mem_names_iff _).mp h'
        rw [hr] at h
        exact r.name_chars.2 (List.isEmpty_iff.mp h)
      · rw [h] at h'; cases h'
    · intro h; right; simpa using h
  constructor
  · rintro ⟨n, hn, hbad⟩
    rw [key] at hbad
    obtain ⟨i, hi, h⟩ := mem_replaceGroupRules.mp hn
    refine ⟨i, hi, ?_⟩
    rcases h with ⟨_, r, hr⟩ | ⟨_, c, _, r, _, hr⟩ | ⟨hA, hC, rfl⟩
    · exact absurd ⟨r, by rw [← hr, trim_ruleName]⟩ hbad
    · exact absurd ⟨r, by rw [← hr, trim_ruleName]⟩ hbad
    · rintro (⟨r, hr⟩ | ⟨c, hc⟩ | h)
      · exact hbad ⟨r, by rw [trim_trim, hr]⟩
      · exact hC c hc
      · exact hA h
  · rintro ⟨i, hi, hbad⟩
    refine ⟨trim i, mem_replaceGroupRules.mpr ⟨i, hi, .inr (.inr ⟨?_, ?_, rfl⟩)⟩, (key _).mpr ?_⟩
    · exact fun h => hbad (.inr (.inr h))
    · exact fun c h => hbad (.inr (.inl ⟨c, h⟩))
    · rintro ⟨r, hr⟩; exact hbad (.inl ⟨r, by rw [← trim_trim, hr]⟩)

theorem name_not_all (r : Rule) : r.name ≠ cs! "ALL" := by cases r <;> decide
theorem name_not_category (r : Rule) (c : Category) : r.name ≠ c.name := by
  intro h
  have h1 := (r.name_chars).1
  rw [h] at h1
  revert h1
  cases c <;> decide

/-- What the list parser returns on success. -/
theorem parseList_ok {l out : List Str} (h : parseList l = .ok out) :
    (∀ i ∈ l, Known i) ∧ ∀ r : Rule, r.name ∈ out ↔ Names l r := by
  unfold parseList at h
  simp only [] at h
  split at h
  · cases h
  · rename_i hv
    have hk : ∀ i ∈ l, Known i := by
      intro i hi
      apply Classical.byContradiction
      intro hn
      exact hv ((hasInvalidRules_iff l).mpr ⟨i, hi, hn⟩)
    refine ⟨hk, ?_⟩
    cases h
    intro r
    simp only [List.mem_map, List.mem_filter, List.any_eq_true, decide_eq_true_eq]
    constructor
    · rintro ⟨r', ⟨_, n, hn, hnr⟩, hr'⟩
      have : r' = r := Rule.name_inj hr'
      subst this
      obtain ⟨i, hi, h⟩ := mem_replaceGroupRules.mp hn
      refine ⟨i, hi, ?_⟩
      rcases h with ⟨hA, _⟩ | ⟨_, c, hc, r2, hr2, hr2n⟩ | ⟨_, _, h⟩
      · exact .inr (.inl hA)
      · have : r2 = r' := Rule.name_inj (hr2n.trans hnr)
        subst this
        exact .inr (.inr ⟨c, hr2, hc⟩)
      · exact .inl (by rw [← h, hnr])
    · rintro ⟨i, hi, h⟩
      refine ⟨r, ⟨r.mem_all, r.name, mem_replaceGroupRules.mpr ⟨i, hi, ?_⟩, rfl⟩, rfl⟩
      rcases h with h | h | ⟨c, hc, h⟩
      · exact .inr (.inr ⟨h ▸ name_not_all r, fun c hc => name_not_category r c (h.symm.trans hc), h.symm⟩)
      · exact .inl ⟨h, r, rfl⟩
      · refine .inr (.inl ⟨?_, c, h, r, hc, rfl⟩)
        rw [h]; cases c <;> decide

theorem parseList_error {l : List Str} {e : Fail} (h : parseList l = .error e) :
    e = .unknownRules ∧ ∃ i ∈ l, ¬ Known i := by
  unfold parseList at h
  simp only [] at h
  split at h
  · rename_i hv; cases h; exact ⟨rfl, (hasInvalidRules_iff l).mp hv⟩
  · cases h

theorem parseList_ok_of_known {l : List Str} (h : ∀ i ∈ l, Known i) : ∃ out, parseList l = .ok out := by
  cases hp : parseList l with
  | ok out => exact ⟨out, rfl⟩
  | error e =>
    obtain ⟨_, i, hi, hn⟩ := parseList_error hp
    exact absurd (h i hi) hn

/-- The common shape of the two optional list parsers. -/
def OptOk (items : Option (List Str)) (out : Option (List Str)) : Prop :=
  match items, out with
  | none, none => True
  | some l, some o => (∀ i ∈ l, Known i) ∧ ∀ r : Rule, r.name ∈ o ↔ Names l r
  | _, _ => False

theorem parseTomlList_ok {l out} (h : parseTomlList l = .ok out) : OptOk l out := by
  unfold parseTomlList at h
  split at h
  · cases h; trivial
  · split at h
    · rename_i hp; cases h; exact parseList_ok hp
    · cases h

theorem parseCliList_eq (s : Str) : parseCliList s = parseTomlList (cliItems s) := by
  unfold parseCliList parseTomlList cliItems
  cases s <;> simp

theorem parseCliList_ok {s out} (h : parseCliList s = .ok out) : OptOk (cliItems s) out := by
  rw [parseCliList_eq] at h; exact parseTomlList_ok h

theorem parseTomlList_error {l e} (h : parseTomlList l = .error e) :
    e = .unknownRules ∧ ∃ l', l = some l' ∧ ∃ i ∈ l', ¬ Known i := by
  unfold parseTomlList at h
  split at h
  · cases h
  · split at h
    · cases h
    · rename_i hp; cases h
      obtain ⟨h1, h2⟩ := parseList_error hp
      exact ⟨h1, _, rfl, h2⟩

theorem OptOk_known {l out} (h : OptOk l out) {l'} (hl : l = some l') : ∀ i ∈ l', Known i := by
  subst hl
  cases out with
  | none => exact h.elim
  | some o => exact h.1

theorem OptOk_getD {l out} (h : OptOk l out) (r : Rule) :
    r.name ∈ out.getD [] ↔ ∃ l', l = some l' ∧ Names l' r := by
  cases l with
  | none => cases out with
    | none => simp
    | some o => exact h.elim
  | some l' => cases out with
    | none => exact h.elim
    | some o => simpa using h.2 r

end Jarl
