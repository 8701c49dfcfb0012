import Verif.Spec.Directive
namespace Jarl
open Spec

theorem ruleChar_not_ws {c : Char} (h : isRuleChar c = true) : isWs c = false := by
  have hc : c = '_' → isWs c = false := by rintro rfl; decide
  unfold isRuleChar at h
  simp only [Bool.or_eq_true, Bool.and_eq_true, decide_eq_true_eq] at h
  rcases h with h | h
  · unfold isWs
    simp only [Bool.or_eq_false_iff, Bool.and_eq_false_iff, decide_eq_false_iff_not, beq_eq_false_iff_ne]
    omega
  · exact hc h

theorem name_no_ws (r : Rule) : ∀ c ∈ r.name, isWs c = false :=
  fun c hc => ruleChar_not_ws (r.name_chars.1 c hc)

theorem name_no_colon (r : Rule) : ':' ∉ r.name := by
  intro h
  have := r.name_chars.1 _ h
  exact absurd this (by decide)

theorem blank_no_colon {w : Str} (h : Blank w) : ':' ∉ w := by
  intro hc; exact absurd (h _ hc) (by decide)

theorem trim_wrap {w1 w2 n : Str} (h1 : Blank w1) (h2 : Blank w2) (hn : ∀ c ∈ n, isWs c = false) :
    trim (w1 ++ n ++ w2) = n := by
  cases n with
  | nil =>
    rw [trim_eq_nil]
    intro c hc
    simp at hc
    rcases hc with h | h
    · exact h1 _ h
    · exact h2 _ h
  | cons c cs =>
    unfold trim
    rw [List.append_assoc, trimStart_ws_append h1, List.cons_append, trimStart_of_head (hn c (by simp)),
      ← List.cons_append, trimEnd_append_ws h2]
    have := trim_of_no_ws hn
    unfold trim at this
    rwa [trimStart_of_head (hn c (by simp))] at this

theorem trim_decomp (s : Str) : ∃ w1 w2, Blank w1 ∧ Blank w2 ∧ s = w1 ++ trim s ++ w2 := by
  obtain ⟨w1, h1, h2⟩ := trimStart_spec s
  obtain ⟨w2, h3, h4⟩ := trimEnd_spec (trimStart s)
  refine ⟨w1, w2, h2, h4, ?_⟩
  unfold trim
  rw [List.append_assoc, ← h3]
  exact h1

theorem trim_eq_name {s : Str} {r : Rule} :
    trim s = r.name ↔ ∃ w1 w2, Blank w1 ∧ Blank w2 ∧ s = w1 ++ r.name ++ w2 := by
  constructor
  · intro h
    obtain ⟨w1, w2, h1, h2, h3⟩ := trim_decomp s
    rw [h] at h3
    exact ⟨w1, w2, h1, h2, h3⟩
  · rintro ⟨w1, w2, h1, h2, rfl⟩
    exact trim_wrap h1 h2 (name_no_ws r)

theorem name_no_colon_wrap {w1 w2 : Str} (r : Rule) (h1 : Blank w1) (h2 : Blank w2) :
    ':' ∉ w1 ++ r.name ++ w2 := by
  simp only [List.mem_append, not_or]
  exact ⟨⟨blank_no_colon h1, name_no_colon r⟩, blank_no_colon h2⟩

/-- How a text splits at the first colon. -/
theorem colon_cases (t : Str) :
    (splitFirst ':' t = none ∧ ':' ∉ t) ∨
    (∃ a b, splitFirst ':' t = some (a, b) ∧ t = a ++ ':' :: b ∧ ':' ∉ a) := by
  cases h : splitFirst ':' t with
  | none => exact .inl ⟨rfl, splitFirst_none.mp h⟩
  | some p => obtain ⟨a, b⟩ := p; exact .inr ⟨a, b, rfl, splitFirst_iff.mp h⟩

theorem first_colon_unique {a b : Str} {a' e' : Str} (h : a ++ ':' :: b = a' ++ e') (ha : ':' ∉ a)
    (ha' : ':' ∉ a') (he : e' = [] ∨ ∃ f, e' = ':' :: f) : a' = a ∧ e' = ':' :: b := by
  rcases he with rfl | ⟨f, rfl⟩
  · exfalso; apply ha'; rw [List.append_nil] at h; rw [← h]; simp
  · have h1 : splitFirst ':' (a ++ ':' :: b) = some (a, b) := splitFirst_iff.mpr ⟨rfl, ha⟩
    rw [h] at h1
    have h2 : splitFirst ':' (a' ++ ':' :: f) = some (a', f) := splitFirst_iff.mpr ⟨rfl, ha'⟩
    rw [h1] at h2
    cases h2; exact ⟨rfl, rfl⟩

theorem parseRule_valid {t : Str} {r : Rule} :
    parseRuleWithExplanation t = .valid r ↔ Explained r t := by
  unfold parseRuleWithExplanation Explained
  rcases colon_cases t with ⟨h, hn⟩ | ⟨a, b, h, ht, ha⟩
  · rw [h]
    constructor
    · intro h'; simp only at h'; repeat' split at h'
      all_goals cases h'
    · rintro ⟨w1, w2, e, _, _, _, rfl⟩; exact absurd hn (by simp)
  · rw [h]
    constructor
    · intro h'
      simp only at h'
      split at h'
      · cases h'
      · split at h'
        · cases h'
        · rename_i r' hr
          split at h'
          · cases h'
          · rename_i he
            cases h'
            obtain ⟨w1, w2, h1, h2, h3⟩ := trim_eq_name.mp (Rule.fromName_eq_some.mp hr).symm
            refine ⟨w1, w2, b, h1, h2, ?_, by rw [ht, h3]⟩
            intro hb; exact he (trim_eq_nil.mpr hb)
    · rintro ⟨w1, w2, e, h1, h2, h3, h4⟩
      obtain ⟨h5, h6⟩ := first_colon_unique (ht.symm.trans h4) ha (name_no_colon_wrap r h1 h2) (.inr ⟨e, rfl⟩)
      cases h6
      have h7 : trim a = r.name := trim_eq_name.mpr ⟨w1, w2, h1, h2, h5.symm⟩
      simp only [h7, r.name_chars.2, if_false, Rule.fromName_eq_some.mpr rfl]
      rw [if_neg]
      intro he; exact h3 (trim_eq_nil.mp he)

theorem parseRule_missing {t : Str} :
    parseRuleWithExplanation t = .missingExplanation ↔ Unexplained t := by
  unfold parseRuleWithExplanation Unexplained
  rcases colon_cases t with ⟨h, hn⟩ | ⟨a, b, h, ht, ha⟩
  · rw [h]
    constructor
    · intro h'
      simp only at h'
      split at h'
      · cases h'
      · split at h'
        · rename_i r hr
          obtain ⟨w1, w2, h1, h2, h3⟩ := trim_eq_name.mp (Rule.fromName_eq_some.mp hr).symm
          exact ⟨r, w1, w2, [], h1, h2, by simpa using h3, .inl rfl⟩
        · cases h'
    · rintro ⟨r, w1, w2, e, h1, h2, h3, h4⟩
      rcases h4 with rfl | ⟨e', _, rfl⟩
      · have h7 : trim t = r.name := trim_eq_name.mpr ⟨w1, w2, h1, h2, by simpa using h3⟩
        simp only [h7, r.name_chars.2, if_false, Rule.fromName_eq_some.mpr rfl]
      · exact absurd hn (by rw [h3]; simp)
  · rw [h]
    constructor
    · intro h'
      simp only at h'
      split at h'
      · cases h'
      · split at h'
        · cases h'
        · rename_i r hr
          split at h'
          · rename_i he
            obtain ⟨w1, w2, h1, h2, h3⟩ := trim_eq_name.mp (Rule.fromName_eq_some.mp hr).symm
            exact ⟨r, w1, w2, ':' :: b, h1, h2, by rw [ht, h3], .inr ⟨b, trim_eq_nil.mp he, rfl⟩⟩
          · cases h'
    · rintro ⟨r, w1, w2, e, h1, h2, h3, h4⟩
      obtain ⟨h5, h6⟩ := first_colon_unique (ht.symm.trans h3) ha (name_no_colon_wrap r h1 h2)
        (h4.imp id (fun ⟨e', _, h⟩ => ⟨e', h⟩))
      rcases h4 with rfl | ⟨e', he', rfl⟩
      · cases h6
      · cases h6
        have h7 : trim a = r.name := trim_eq_name.mpr ⟨w1, w2, h1, h2, h5.symm⟩
        simp only [h7, r.name_chars.2, if_false, Rule.fromName_eq_some.mpr rfl]
        rw [if_pos (trim_eq_nil.mpr he')]

/-- The name part `n` of a misnamed text, as the parser sees it. -/
theorem misnamed_iff {n : Str} :
    (trim n ≠ [] ∧ Rule.fromName (trim n) = none) ↔
    (¬ Blank n ∧ ∀ (r : Rule) (w1 w2 : Str), Blank w1 → Blank w2 → n ≠ w1 ++ r.name ++ w2) := by
  constructor
  · rintro ⟨h1, h2⟩
    refine ⟨fun h => h1 (trim_eq_nil.mpr h), fun r w1 w2 hw1 hw2 he => ?_⟩
    exact Rule.fromName_eq_none.mp h2 r (trim_eq_name.mpr ⟨w1, w2, hw1, hw2, he⟩).symm
  · rintro ⟨h1, h2⟩
    refine ⟨fun h => h1 (trim_eq_nil.mp h), Rule.fromName_eq_none.mpr fun r hr => ?_⟩
    obtain ⟨w1, w2, hw1, hw2, he⟩ := trim_eq_name.mp hr.symm
    exact h2 r w1 w2 hw1 hw2 he

theorem misnamed_none {t : Str} (hn : ':' ∉ t) :
    Misnamed t ↔ trim t ≠ [] ∧ Rule.fromName (trim t) = none := by
  rw [misnamed_iff]
  unfold Misnamed
  constructor
  · rintro ⟨n, e, h1, h2, h3, h4⟩
    rcases h3 with rfl | ⟨e', rfl⟩
    · rw [List.append_nil] at h1; subst h1; exact h4
    · exact absurd hn (by rw [h1]; simp)
  · intro h; exact ⟨t, [], by simp, hn, .inl rfl, h⟩

theorem misnamed_some {a b : Str} (ha : ':' ∉ a) :
    Misnamed (a ++ ':' :: b) ↔ trim a ≠ [] ∧ Rule.fromName (trim a) = none := by
  rw [misnamed_iff]
  unfold Misnamed
  constructor
  · rintro ⟨n, e, h1, h2, h3, h4⟩
    obtain ⟨rfl, _⟩ := first_colon_unique h1 ha h2 h3
    exact h4
  · intro h; exact ⟨a, ':' :: b, rfl, ha, .inr ⟨b, rfl⟩, h⟩

theorem parseRule_misnamed {t : Str} :
    parseRuleWithExplanation t = .invalidRuleName ↔ Misnamed t := by
  unfold parseRuleWithExplanation
  rcases colon_cases t with ⟨h, hn⟩ | ⟨a, b, h, ht, ha⟩
  · rw [h, misnamed_none hn]
    simp only
    split
    · rename_i hnil; simp [hnil]
    · rename_i hnil
      split <;> rename_i h' <;> simp [h', hnil]
  · rw [h]
    subst ht
    rw [misnamed_some ha]
    simp only
    split
    · rename_i hnil; simp [hnil]
    · rename_i hnil
      split
      · rename_i h'; simp [h', hnil]
      · rename_i h'; simp only [h']; split <;> simp

theorem parseEnd_valid {t : Str} {d : LintDirective} :
    parseEnd t = some (.valid d) ↔ ∃ r, d = .ignoreEnd r ∧ Named r t := by
  unfold parseEnd Named parseRuleOnly
  rcases colon_cases t with ⟨h, hn⟩ | ⟨a, b, h, ht, ha⟩
  · rw [h]
    simp only
    constructor
    · intro h'
      split at h'
      · rename_i r hr
        split at hr
        · cases hr
        · cases h'
          obtain ⟨w1, w2, h1, h2, h3⟩ := trim_eq_name.mp (Rule.fromName_eq_some.mp hr).symm
          exact ⟨r, rfl, w1, w2, [], h1, h2, by simpa using h3, .inl rfl⟩
      · split at h' <;> cases h'
    · rintro ⟨r, rfl, w1, w2, e, h1, h2, h3, h4⟩
      rcases h4 with rfl | ⟨e', rfl⟩
      · have h7 : trim t = r.name := trim_eq_name.mpr ⟨w1, w2, h1, h2, by simpa using h3⟩
        simp only [h7, r.name_chars.2, if_false, Rule.fromName_eq_some.mpr rfl]
      · exact absurd hn (by rw [h3]; simp)
  · rw [h]
    simp only
    constructor
    · intro h'
      split at h'
      · rename_i r hr
        split at hr
        · cases hr
        · cases h'
          obtain ⟨w1, w2, h1, h2, h3⟩ := trim_eq_name.mp (Rule.fromName_eq_some.mp hr).symm
          exact ⟨r, rfl, w1, w2, ':' :: b, h1, h2, by rw [ht, h3], .inr ⟨b, rfl⟩⟩
      · split at h' <;> cases h'
    · rintro ⟨r, rfl, w1, w2, e, h1, h2, h3, h4⟩
      obtain ⟨h5, h6⟩ := first_colon_unique (ht.symm.trans h3) ha (name_no_colon_wrap r h1 h2) h4
      have h7 : trim a = r.name := trim_eq_name.mpr ⟨w1, w2, h1, h2, h5.symm⟩
      simp only [h7, r.name_chars.2, if_false, Rule.fromName_eq_some.mpr rfl]

theorem parseEnd_misnamed {t : Str} : parseEnd t = some .invalidRuleName ↔ Misnamed t := by
  unfold parseEnd parseRuleOnly
  rcases colon_cases t with ⟨h, hn⟩ | ⟨a, b, h, ht, ha⟩
  · rw [h, misnamed_none hn]
    simp only
    by_cases hnil : trim t = []
    · simp [hnil]
    · simp only [hnil, if_false]
      cases h' : Rule.fromName (trim t) <;> simp [hnil]
  · rw [h]
    subst ht
    rw [misnamed_some ha]
    simp only
    by_cases hnil : trim a = []
    · simp [hnil]
    · simp only [hnil, if_false]
      cases h' : Rule.fromName (trim a) <;> simp [hnil]

theorem parseEnd_not_other {t : Str} : parseEnd t ≠ some .blanket ∧ parseEnd t ≠ some .missingExplanation := by
  unfold parseEnd
  constructor <;> intro h <;> simp only at h <;> repeat' split at h
  all_goals cases h

theorem wrapRule_valid {mk : Rule → LintDirective} {p : RuleParse} {d : LintDirective} :
    wrapRule mk p = some (.valid d) ↔ ∃ r, p = .valid r ∧ d = mk r := by
  cases p <;> simp [wrapRule, eq_comm]

theorem wrapRule_missing {mk : Rule → LintDirective} {p : RuleParse} :
    wrapRule mk p = some .missingExplanation ↔ p = .missingExplanation := by
  cases p <;> simp [wrapRule]

theorem wrapRule_misnamed {mk : Rule → LintDirective} {p : RuleParse} :
    wrapRule mk p = some .invalidRuleName ↔ p = .invalidRuleName := by
  cases p <;> simp [wrapRule]

theorem wrapRule_blanket {mk : Rule → LintDirective} {p : RuleParse} :
    wrapRule mk p ≠ some .blanket := by
  cases p <;> simp [wrapRule]

/-- The marker and its flag. -/
def MarkerIs (m : Str) (pipe : Bool) : Prop := (pipe = false ∧ PlainMarker m) ∨ (pipe = true ∧ m = cs! "#| ")

theorem MarkerIs.any {m pipe} (h : MarkerIs m pipe) : AnyMarker m := by
  rcases h with ⟨_, h⟩ | ⟨_, h⟩
  · exact .inl h
  · exact .inr h

theorem MarkerIs.plain {m} (h : MarkerIs m false) : PlainMarker m := by
  rcases h with ⟨_, h⟩ | ⟨h, _⟩
  · exact h
  · cases h

theorem anyMarker_exists {m} (h : AnyMarker m) : ∃ p, MarkerIs m p := by
  rcases h with h | h
  · exact ⟨false, .inl ⟨rfl, h⟩⟩
  · exact ⟨true, .inr ⟨rfl, h⟩⟩

/-- A comment is handed to the word parser exactly with its marker and the text after `jarl-ignore`. -/
theorem parseComment_iff {s : Str} {x : DirectiveParse} :
    parseCommentDirective s = some x ↔
    ∃ w m pipe rest, Blank w ∧ MarkerIs m pipe ∧ s = w ++ m ++ cs! "jarl-ignore" ++ rest ∧
      parseAfterWord pipe rest = some x := by
  unfold parseCommentDirective
  constructor
  · intro h
    obtain ⟨w, hw1, hw2⟩ := trimStart_spec s
    split at h
    · cases h
    · rename_i t pipe hm
      split at h
      · cases h
      · rename_i rest hr
        have hr := stripPrefix_iff.mp hr
        subst hr
        unfold stripMarker at hm
        split at hm
        · rename_i r1 h1
          have h1 := stripPrefix_iff.mp h1
          cases hm
          exact ⟨w, _, true, rest, hw2, .inr ⟨rfl, rfl⟩, by rw [hw1, h1]; simp, h⟩
        · split at hm
          · rename_i r1 h1
            have h1 := stripPrefix_iff.mp h1
            cases hm
            exact ⟨w, _, false, rest, hw2, .inl ⟨rfl, .inr rfl⟩, by rw [hw1, h1]; simp, h⟩
          · split at hm
            · rename_i r1 h1
              have h1 := stripPrefix_iff.mp h1
              cases hm
              exact ⟨w, _, false, rest, hw2, .inl ⟨rfl, .inl rfl⟩, by rw [hw1, h1]; simp, h⟩
            · cases hm
  · rintro ⟨w, m, pipe, rest, hw, hm, rfl, hx⟩
    have hws : isWs '#' = false := by decide
    rw [List.append_assoc, List.append_assoc, trimStart_ws_append hw]
    rcases hm with ⟨rfl, rfl | rfl⟩ | ⟨rfl, rfl⟩ <;>
      simp only [List.cons_append, List.nil_append, trimStart_of_head hws, stripMarker, stripPrefix] <;> 
      simpa [stripPrefix] using hx

end Jarl
