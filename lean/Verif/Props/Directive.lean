import Verif.Lemmas.Directive
/-!
# C11: grammar of suppression comments
-/
namespace Jarl
open Spec

/-- A text that starts with a colon is parsed as having no rule. -/
theorem parseRule_colon {a : Str} (h : startsWith (cs! ":") a = true) : parseRuleWithExplanation a = .invalid := by
  obtain ⟨r, rfl⟩ := startsWith_iff.mp h
  simp [parseRuleWithExplanation, splitFirst, trim, trimStart, trimEnd]

/-- `parseAfterWord` as a table: what follows the word `jarl-ignore` determines the result. -/
inductive After : Bool → Str → Option DirectiveParse → Prop
  | file {a} : After false (cs! "-file " ++ a) (wrapRule .ignoreFile (parseRuleWithExplanation a))
  | start {a} : After false (cs! "-start " ++ a) (wrapRule .ignoreStart (parseRuleWithExplanation a))
  | stop {a} : After false (cs! "-end " ++ a) (parseEnd a)
  | ignore {a} : ¬ startsWith (cs! ":") a = true →
      After false (cs! " " ++ a) (wrapRule .ignore (parseRuleWithExplanation a))
  | blank1 : After false [] (some .blanket)
  | blank2 {a} : After false (cs! ":" ++ a) (some .blanket)
  | blank3 {a} : After false (cs! " :" ++ a) (some .blanket)
  | chunk {p a} : ¬ startsWith (cs! ":") a = true →
      After p (cs! "-chunk " ++ a) (wrapRule .ignoreChunk (parseRuleWithExplanation a))
  | cblank1 {p} : After p (cs! "-chunk") (some .blanket)
  | cblank2 {p a} : After p (cs! "-chunk:" ++ a) (some .blanket)
  | cblank3 {p a} : After p (cs! "-chunk :" ++ a) (some .blanket)

theorem after_sound {p rest x} (h : After p rest x) : parseAfterWord p rest = x := by
  cases h <;> simp_all [parseAfterWord, stripPrefix, startsWith]

theorem after_complete {p rest x} (h : parseAfterWord p rest = some x) : After p rest (some x) := by
  unfold parseAfterWord at h
  split at h
  · rename_i a ha
    have ha := stripPrefix_iff.mp ha
    split at h
    · cases h
    · rename_i hp; obtain rfl : p = false := by simpa using hp
      subst ha; rw [← h]; exact .file
  · split at h
    · rename_i a ha
      have ha := stripPrefix_iff.mp ha
      split at h
      · cases h
      · rename_i hp; obtain rfl : p = false := by simpa using hp
        subst ha; rw [← h]; exact .start
    · split at h
      · rename_i a ha
        have ha := stripPrefix_iff.mp ha
        split at h
        · cases h
        · rename_i hp; obtain rfl : p = false := by simpa using hp
          subst ha; rw [← h]; exact .stop
      · split at h
        · rename_i a ha
          have ha := stripPrefix_iff.mp ha
          split at h
          · cases h
          · rename_i hp
            have hp : p = false := by simpa using hp
            subst ha; subst hp
            split at h
            · rename_i hc
              obtain ⟨r, rfl⟩ := startsWith_iff.mp hc
              rw [← h]; exact .blank3
            · rename_i hc; rw [← h]; exact .ignore hc
        · split at h
          · rename_i hc
            split at h
            · cases h
            · rename_i hp
              have hp : p = false := by simpa using hp
              subst hp
              rcases hc with rfl | hc
              · rw [← h]; exact .blank1
              · obtain ⟨r, rfl⟩ := startsWith_iff.mp hc
                rw [← h]; exact .blank2
          · split at h
            · rename_i hc
              rcases hc with rfl | hc
              · rw [← h]; exact .cblank1
              · obtain ⟨r, rfl⟩ := startsWith_iff.mp hc
                rw [← h]; exact .cblank2
            · split at h
              · rename_i a ha
                have ha := stripPrefix_iff.mp ha
                subst ha
                split at h
                · rename_i hc
                  obtain ⟨r, rfl⟩ := startsWith_iff.mp hc
                  rw [← h]; exact .cblank3
                · rename_i hc; rw [← h]; exact .chunk hc
              · cases h

theorem no_colon_of_parse {a : Str} (h : parseRuleWithExplanation a ≠ .invalid) :
    ¬ startsWith (cs! ":") a = true := fun hc => h (parseRule_colon hc)

/-- **C11 (valid directives).** A comment is accepted as a directive exactly when it has the documented
form, and then denotes exactly that directive. -/
theorem C11_valid {s : Str} {d : LintDirective} :
    parseCommentDirective s = some (.valid d) ↔ ValidComment s d := by
  rw [parseComment_iff]
  constructor
  · rintro ⟨w, m, pipe, rest, hw, hm, rfl, hx⟩
    have key := after_complete hx
    clear hx
    generalize hy : some (DirectiveParse.valid d) = y at key
    cases key with
    | file =>
      obtain ⟨r, h1, rfl⟩ := wrapRule_valid.mp hy.symm
      simpa using ValidComment.file hw hm.plain (parseRule_valid.mp h1)
    | start =>
      obtain ⟨r, h1, rfl⟩ := wrapRule_valid.mp hy.symm
      simpa using ValidComment.start hw hm.plain (parseRule_valid.mp h1)
    | stop =>
      obtain ⟨r, rfl, h1⟩ := parseEnd_valid.mp hy.symm
      simpa using ValidComment.stop hw hm.plain h1
    | ignore =>
      obtain ⟨r, h1, rfl⟩ := wrapRule_valid.mp hy.symm
      simpa using ValidComment.ignore hw hm.plain (parseRule_valid.mp h1)
    | chunk =>
      obtain ⟨r, h1, rfl⟩ := wrapRule_valid.mp hy.symm
      simpa using ValidComment.chunk hw hm.any (parseRule_valid.mp h1)
    | _ => simp at hy
  · intro h
    cases h with
    | ignore hw hm he =>
      rename_i w m t r
      have := parseRule_valid.mpr he
      refine ⟨w, m, false, cs! " " ++ t, hw, .inl ⟨rfl, hm⟩, by simp, ?_⟩
      rw [after_sound (.ignore (no_colon_of_parse (by rw [this]; simp))), this]; rfl
    | file hw hm he =>
      rename_i w m t r
      refine ⟨w, m, false, cs! "-file " ++ t, hw, .inl ⟨rfl, hm⟩, by simp, ?_⟩
      rw [after_sound .file, parseRule_valid.mpr he]; rfl
    | start hw hm he =>
      rename_i w m t r
      refine ⟨w, m, false, cs! "-start " ++ t, hw, .inl ⟨rfl, hm⟩, by simp, ?_⟩
      rw [after_sound .start, parseRule_valid.mpr he]; rfl
    | stop hw hm he =>
      rename_i w m t r
      refine ⟨w, m, false, cs! "-end " ++ t, hw, .inl ⟨rfl, hm⟩, by simp, ?_⟩
      rw [after_sound .stop]; exact parseEnd_valid.mpr ⟨r, rfl, he⟩
    | chunk hw hm he =>
      rename_i w m t r
      have := parseRule_valid.mpr he
      obtain ⟨p, hp⟩ := anyMarker_exists hm
      refine ⟨w, m, p, cs! "-chunk " ++ t, hw, hp, by simp, ?_⟩
      rw [after_sound (.chunk (no_colon_of_parse (by rw [this]; simp))), this]; rfl

/-- A directive that needs a reason, seen by the word parser. -/
theorem needsReason_parse {m k t : Str} (h : NeedsReason m k)
    (hc : parseRuleWithExplanation t ≠ .invalid) :
    ∃ p mk rest, MarkerIs m p ∧ k ++ t = cs! "jarl-ignore" ++ rest ∧
      parseAfterWord p rest = wrapRule mk (parseRuleWithExplanation t) := by
  cases h with
  | ignore hm => exact ⟨false, .ignore, cs! " " ++ t, .inl ⟨rfl, hm⟩, by simp, after_sound (.ignore (no_colon_of_parse hc))⟩
  | file hm => exact ⟨false, .ignoreFile, cs! "-file " ++ t, .inl ⟨rfl, hm⟩, by simp, after_sound .file⟩
  | start hm => exact ⟨false, .ignoreStart, cs! "-start " ++ t, .inl ⟨rfl, hm⟩, by simp, after_sound .start⟩
  | chunk hm =>
    obtain ⟨p, hp⟩ := anyMarker_exists hm
    exact ⟨p, .ignoreChunk, cs! "-chunk " ++ t, hp, by simp, after_sound (.chunk (no_colon_of_parse hc))⟩

/-- **C11 (missing reason).** -/
theorem C11_unexplained {s : Str} :
    parseCommentDirective s = some .missingExplanation ↔ UnexplainedComment s := by
  rw [parseComment_iff]
  constructor
  · rintro ⟨w, m, pipe, rest, hw, hm, rfl, hx⟩
    have key := after_complete hx
    clear hx
    generalize hy : some DirectiveParse.missingExplanation = y at key
    cases key with
    | file =>
      have := parseRule_missing.mp (wrapRule_missing.mp hy.symm)
      exact ⟨w, m, _, _, hw, .file hm.plain, this, by simp⟩
    | start =>
      have := parseRule_missing.mp (wrapRule_missing.mp hy.symm)
      exact ⟨w, m, _, _, hw, .start hm.plain, this, by simp⟩
    | stop => exact absurd hy.symm parseEnd_not_other.2
    | ignore =>
      have := parseRule_missing.mp (wrapRule_missing.mp hy.symm)
      exact ⟨w, m, _, _, hw, .ignore hm.plain, this, by simp⟩
    | chunk =>
      have := parseRule_missing.mp (wrapRule_missing.mp hy.symm)
      exact ⟨w, m, _, _, hw, .chunk hm.any, this, by simp⟩
    | _ => simp at hy
  · rintro ⟨w, m, k, t, hw, hk, ht, rfl⟩
    have h1 := parseRule_missing.mpr ht
    obtain ⟨p, mk, rest, hm, hr, hp⟩ := needsReason_parse hk (t := t) (by rw [h1]; simp)
    refine ⟨w, m, p, rest, hw, hm, by simp only [List.append_assoc, hr], ?_⟩
    rw [hp, h1]; rfl

/-- **C11 (unknown rule).** -/
theorem C11_misnamed {s : Str} :
    parseCommentDirective s = some .invalidRuleName ↔ MisnamedComment s := by
  rw [parseComment_iff]
  constructor
  · rintro ⟨w, m, pipe, rest, hw, hm, rfl, hx⟩
    have key := after_complete hx
    clear hx
    generalize hy : some DirectiveParse.invalidRuleName = y at key
    cases key with
    | file =>
      have := parseRule_misnamed.mp (wrapRule_misnamed.mp hy.symm)
      exact ⟨w, m, _, _, hw, .inl (.file hm.plain), this, by simp⟩
    | start =>
      have := parseRule_misnamed.mp (wrapRule_misnamed.mp hy.symm)
      exact ⟨w, m, _, _, hw, .inl (.start hm.plain), this, by simp⟩
    | stop => exact ⟨w, m, _, _, hw, .inr ⟨hm.plain, rfl⟩, parseEnd_misnamed.mp hy.symm, by simp⟩
    | ignore =>
      have := parseRule_misnamed.mp (wrapRule_misnamed.mp hy.symm)
      exact ⟨w, m, _, _, hw, .inl (.ignore hm.plain), this, by simp⟩
    | chunk =>
      have := parseRule_misnamed.mp (wrapRule_misnamed.mp hy.symm)
      exact ⟨w, m, _, _, hw, .inl (.chunk hm.any), this, by simp⟩
    | _ => simp at hy
  · rintro ⟨w, m, k, t, hw, hk, ht, rfl⟩
    rcases hk with hk | ⟨hm, rfl⟩
    · have h1 := parseRule_misnamed.mpr ht
      obtain ⟨p, mk, rest, hm, hr, hp⟩ := needsReason_parse hk (t := t) (by rw [h1]; simp)
      refine ⟨w, m, p, rest, hw, hm, by simp only [List.append_assoc, hr], ?_⟩
      rw [hp, h1]; rfl
    · refine ⟨w, m, false, cs! "-end " ++ t, hw, .inl ⟨rfl, hm⟩, by simp, ?_⟩
      rw [after_sound .stop]; exact parseEnd_misnamed.mpr ht

/-- **C11 (no rule).** -/
theorem C11_blanket {s : Str} :
    parseCommentDirective s = some .blanket ↔ BlanketComment s := by
  rw [parseComment_iff]
  constructor
  · rintro ⟨w, m, pipe, rest, hw, hm, rfl, hx⟩
    have key := after_complete hx
    clear hx
    generalize hy : some DirectiveParse.blanket = y at key
    cases key with
    | stop => exact absurd hy.symm parseEnd_not_other.1
    | file => exact absurd hy.symm wrapRule_blanket
    | start => exact absurd hy.symm wrapRule_blanket
    | ignore => exact absurd hy.symm wrapRule_blanket
    | chunk => exact absurd hy.symm wrapRule_blanket
    | blank1 => exact ⟨w, m, _, hw, .inl ⟨hm.plain, rfl⟩, .inl (by simp)⟩
    | @blank2 a => exact ⟨w, m, _, hw, .inl ⟨hm.plain, rfl⟩, .inr ⟨a, .inl (by simp)⟩⟩
    | @blank3 a => exact ⟨w, m, _, hw, .inl ⟨hm.plain, rfl⟩, .inr ⟨a, .inr (by simp)⟩⟩
    | cblank1 => exact ⟨w, m, _, hw, .inr ⟨hm.any, rfl⟩, .inl (by simp)⟩
    | @cblank2 _ a => exact ⟨w, m, _, hw, .inr ⟨hm.any, rfl⟩, .inr ⟨a, .inl (by simp)⟩⟩
    | @cblank3 _ a => exact ⟨w, m, _, hw, .inr ⟨hm.any, rfl⟩, .inr ⟨a, .inr (by simp)⟩⟩
  · rintro ⟨w, m, k, hw, hk, hs⟩
    rcases hk with ⟨hm, rfl⟩ | ⟨hm, rfl⟩
    · rcases hs with rfl | ⟨t, rfl | rfl⟩
      · exact ⟨w, m, false, [], hw, .inl ⟨rfl, hm⟩, by simp, after_sound .blank1⟩
      · exact ⟨w, m, false, cs! ":" ++ t, hw, .inl ⟨rfl, hm⟩, by simp, after_sound .blank2⟩
      · exact ⟨w, m, false, cs! " :" ++ t, hw, .inl ⟨rfl, hm⟩, by simp, after_sound .blank3⟩
    · obtain ⟨p, hp⟩ := anyMarker_exists hm
      rcases hs with rfl | ⟨t, rfl | rfl⟩
      · exact ⟨w, m, p, cs! "-chunk", hw, hp, by simp, after_sound .cblank1⟩
      · exact ⟨w, m, p, cs! "-chunk:" ++ t, hw, hp, by simp, after_sound .cblank2⟩
      · exact ⟨w, m, p, cs! "-chunk :" ++ t, hw, hp, by simp, after_sound .cblank3⟩

theorem trimStart_blank_head {w : Str} {c : Char} {s : Str} (hw : Blank w) (hc : isWs c = false) :
    trimStart (w ++ c :: s) = c :: s := by
  rw [trimStart_ws_append hw, trimStart_of_head hc]

/-- **C11 (`#|` marker).** A comment that starts with `#|` is never a valid ignore, file, start or end
directive. -/
theorem C11_pipe_only_chunk {s w t : Str} {d : LintDirective} (hw : Blank w) (hs : s = w ++ cs! "#|" ++ t)
    (h : parseCommentDirective s = some (.valid d)) : ∃ r, d = .ignoreChunk r := by
  have hv := C11_valid.mp h
  have hh : isWs '#' = false := by decide
  have e1 : trimStart s = '#' :: '|' :: t := by
    rw [hs, List.append_assoc]; exact trimStart_blank_head hw hh
  have hplain : ∀ {w' m u : Str} {v : Str}, Blank w' → PlainMarker m → s = w' ++ m ++ ('j' :: u) ++ v → False := by
    intro w' m u v hw' hm he
    rw [he] at e1
    rcases hm with rfl | rfl <;>
      simp [trimStart_blank_head hw' hh] at e1
  cases hv with
  | ignore h1 h2 _ => exact (hplain h1 h2 rfl).elim
  | file h1 h2 _ => exact (hplain h1 h2 rfl).elim
  | start h1 h2 _ => exact (hplain h1 h2 rfl).elim
  | stop h1 h2 _ => exact (hplain h1 h2 rfl).elim
  | chunk _ _ _ => exact ⟨_, rfl⟩

/-- **C11 (array header).** -/
theorem C11_array_header {s : Str} :
    isQuartoHeader s = true ↔ ∃ w1 w2, Blank w1 ∧ Blank w2 ∧ s = w1 ++ cs! "#| jarl-ignore-chunk:" ++ w2 := by
  unfold isQuartoHeader
  rw [decide_eq_true_iff]
  constructor
  · intro h
    obtain ⟨w1, w2, h1, h2, h3⟩ := trim_decomp s
    rw [h] at h3
    exact ⟨w1, w2, h1, h2, h3⟩
  · rintro ⟨w1, w2, h1, h2, rfl⟩
    unfold trim
    rw [List.append_assoc, trimStart_ws_append h1]
    have : trimStart (cs! "#| jarl-ignore-chunk:" ++ w2) = cs! "#| jarl-ignore-chunk:" ++ w2 :=
      trimStart_of_head (by decide)
    rw [this, trimEnd_append_ws h2]
    exact trimEnd_of_last (s := cs! "#| jarl-ignore-chunk") (by decide)

theorem trimEnd_append_of_not_blank {a b : Str} (h : ¬ Blank b) : trimEnd (a ++ b) = a ++ trimEnd b := by
  unfold trimEnd
  rw [List.reverse_append, List.dropWhile_append, if_neg]
  · simp
  · intro he
    rw [List.isEmpty_iff, dropWhile_eq_nil] at he
    exact h (fun c hc => he c (by simpa using hc))

theorem explained_trimStart {r : Rule} {t : Str} : Explained r (trimStart t) ↔ Explained r t := by
  obtain ⟨w, h1, h2⟩ := trimStart_spec t
  constructor
  · rintro ⟨w1, w2, e, a, b, c, d⟩
    refine ⟨w ++ w1, w2, e, ?_, b, c, by rw [h1, d]; simp⟩
    intro x hx
    rcases List.mem_append.mp hx with h | h
    · exact h2 _ h
    · exact a _ h
  · rintro ⟨w1, w2, e, a, b, c, d⟩
    refine ⟨[], w2, e, by intro x hx; simp at hx, b, c, ?_⟩
    rw [d, List.append_assoc, List.append_assoc, trimStart_ws_append a]
    have hn := r.name_chars.2
    cases hname : r.name with
    | nil => exact absurd hname hn
    | cons x xs =>
      rw [List.cons_append, trimStart_of_head (name_no_ws r x (by rw [hname]; simp))]
      simp

theorem splitFirst_blank_append {w t : Str} (hw : Blank w) :
    splitFirst ':' (w ++ t) = (splitFirst ':' t).map (fun p => (w ++ p.1, p.2)) := by
  cases h : splitFirst ':' t with
  | none =>
    rw [Option.map_none, splitFirst_none, List.mem_append, not_or]
    exact ⟨blank_no_colon hw, splitFirst_none.mp h⟩
  | some p =>
    obtain ⟨a, b⟩ := p
    obtain ⟨h1, h2⟩ := splitFirst_iff.mp h
    rw [Option.map_some, splitFirst_iff]
    refine ⟨by rw [h1]; simp, ?_⟩
    rw [List.mem_append, not_or]
    exact ⟨blank_no_colon hw, h2⟩

theorem splitFirst_append_blank {w t : Str} (hw : Blank w) :
    splitFirst ':' (t ++ w) = (splitFirst ':' t).map (fun p => (p.1, p.2 ++ w)) := by
  cases h : splitFirst ':' t with
  | none =>
    rw [Option.map_none, splitFirst_none, List.mem_append, not_or]
    exact ⟨splitFirst_none.mp h, blank_no_colon hw⟩
  | some p =>
    obtain ⟨a, b⟩ := p
    obtain ⟨h1, h2⟩ := splitFirst_iff.mp h
    rw [Option.map_some, splitFirst_iff]
    exact ⟨by rw [h1]; simp, h2⟩

theorem trim_blank_append {w t : Str} (hw : Blank w) : trim (w ++ t) = trim t := by
  unfold trim; rw [trimStart_ws_append hw]

theorem trim_append_blank {w t : Str} (hw : Blank w) : trim (t ++ w) = trim t := by
  by_cases ht : Blank t
  · rw [trim_eq_nil.mpr ht, trim_eq_nil]
    intro c hc
    rcases List.mem_append.mp hc with h | h
    · exact ht c h
    · exact hw c h
  · have : trimStart (t ++ w) = trimStart t ++ w := by
      unfold trimStart
      rw [List.dropWhile_append, if_neg]
      rw [List.isEmpty_iff, dropWhile_eq_nil]
      exact ht
    unfold trim
    rw [this, trimEnd_append_ws hw]

theorem parseRule_blank_append {w t : Str} (hw : Blank w) :
    parseRuleWithExplanation (w ++ t) = parseRuleWithExplanation t := by
  unfold parseRuleWithExplanation
  rw [splitFirst_blank_append hw]
  cases splitFirst ':' t with
  | none => simp only [Option.map_none, trim_blank_append hw]
  | some p => simp only [Option.map_some, trim_blank_append hw]

theorem parseRule_append_blank {w t : Str} (hw : Blank w) :
    parseRuleWithExplanation (t ++ w) = parseRuleWithExplanation t := by
  unfold parseRuleWithExplanation
  rw [splitFirst_append_blank hw]
  cases splitFirst ':' t with
  | none => simp only [Option.map_none, trim_append_blank hw]
  | some p => simp only [Option.map_some, trim_append_blank hw]

theorem parseRule_blank {t : Str} (hw : Blank t) : parseRuleWithExplanation t = .invalid := by
  unfold parseRuleWithExplanation
  rw [splitFirst_none.mpr (blank_no_colon hw)]
  simp [trim_eq_nil.mpr hw]

/-- What an array item is parsed to. -/
theorem parseItem_iff {s : Str} {p : DirectiveParse} :
    parseQuartoItem s = some p ↔
    ∃ t, ItemText s t ∧ wrapRule .ignoreChunk (parseRuleWithExplanation t) = some p := by
  unfold parseQuartoItem ItemText
  constructor
  · intro h
    obtain ⟨w, w', hw, hw', hs⟩ := trim_decomp s
    split at h
    · cases h
    · rename_i rest h1
      have h1 := stripPrefix_iff.mp h1
      split at h
      · cases h
      · rename_i rest2 h2
        have h2 := stripPrefix_iff.mp h2
        obtain ⟨w1, h3, h4⟩ := trimStart_spec rest
        split at h
        · cases h
        · rename_i h5
          simp only at h
          split at h
          · cases h
          · rename_i hne
            obtain ⟨w2, h7, h8⟩ := trimStart_spec rest2
            cases hr : rest2 with
            | nil => exfalso; apply hne; rw [hr]; rfl
            | cons c cs =>
              rw [hr] at h5 h
              have hc : isWs c = true := by
                simpa [startsWithWs] using h5
              refine ⟨cs ++ w', ⟨w, w1, c, hw, h4, hc, ?_⟩, ?_⟩
              · conv => lhs; rw [hs, h1, h3, h2, hr]
                simp
              · rw [parseRule_append_blank hw']
                obtain ⟨w3, h9, h10⟩ := trimStart_spec (c :: cs)
                rw [← h]
                congr 1
                conv => rhs; rw [← parseRule_blank_append h10, ← h9]
                exact (parseRule_blank_append (w := [c]) (by intro x hx; simp at hx; rw [hx]; exact hc)).symm
  · rintro ⟨t, ⟨w, w1, c, hw, h1, hc, rfl⟩, hp⟩
    have hws : isWs '#' = false := by decide
    have hd : isWs '-' = false := by decide
    have ht : ¬ Blank t := by
      intro hb
      rw [parseRule_blank hb] at hp
      cases hp
    have e1 : trim (w ++ cs! "#|" ++ w1 ++ '-' :: c :: t) = cs! "#|" ++ (w1 ++ ('-' :: c :: trimEnd t)) := by
      unfold trim
      have e2 : w ++ cs! "#|" ++ w1 ++ '-' :: c :: t = w ++ '#' :: (('|' :: w1) ++ ('-' :: c :: t)) := by simp
      rw [e2, trimStart_blank_head hw hws]
      have e3 : '#' :: (('|' :: w1) ++ ('-' :: c :: t)) = ('#' :: ('|' :: w1 ++ ['-', c])) ++ t := by simp
      rw [e3, trimEnd_append_of_not_blank ht]
      simp
    rw [e1, stripPrefix_append]
    simp only
    rw [trimStart_ws_append h1, trimStart_of_head hd]
    have e4 : stripPrefix (cs! "-") ('-' :: c :: trimEnd t) = some (c :: trimEnd t) := stripPrefix_append _ _
    rw [e4]
    simp only [startsWithWs, hc]
    obtain ⟨w3, h9, h10⟩ := trimStart_spec (c :: trimEnd t)
    obtain ⟨w4, h11, h12⟩ := trimEnd_spec t
    have hparse : parseRuleWithExplanation (trimStart (c :: trimEnd t)) = parseRuleWithExplanation t := by
      rw [← parseRule_blank_append h10, ← h9]
      have : parseRuleWithExplanation (c :: trimEnd t) = parseRuleWithExplanation (trimEnd t) :=
        parseRule_blank_append (w := [c]) (by intro x hx; simp at hx; rw [hx]; exact hc)
      rw [this, ← parseRule_append_blank h12, ← h11]
    rw [hparse, hp]
    have hne : trimStart (c :: trimEnd t) ≠ [] := by
      intro hn
      rw [hn] at hparse
      rw [← hparse] at hp
      cases hp
    simp [hne]

/-- **C11 (array items).** The lines accepted after the array header. -/
theorem C11_array_item {s : Str} {d : LintDirective} :
    parseQuartoItem s = some (.valid d) ↔ ∃ r, d = .ignoreChunk r ∧ ValidItem s r := by
  unfold parseQuartoItem
  constructor
  · intro h
    obtain ⟨w, w', hw, hw', hs⟩ := trim_decomp s
    split at h
    · cases h
    · rename_i rest h1
      have h1 := stripPrefix_iff.mp h1
      split at h
      · cases h
      · rename_i rest2 h2
        have h2 := stripPrefix_iff.mp h2
        obtain ⟨w1, h3, h4⟩ := trimStart_spec rest
        split at h
        · cases h
        · rename_i h5
          simp only at h
          split at h
          · cases h
          · rename_i hne
            obtain ⟨r, h6, rfl⟩ := wrapRule_valid.mp h
            have h6 := parseRule_valid.mp h6
            obtain ⟨w2, h7, h8⟩ := trimStart_spec rest2
            have hw2 : w2 ≠ [] := by
              rintro rfl
              rw [List.nil_append] at h7
              cases hr : rest2 with
              | nil => apply hne; rw [hr]; rfl
              | cons c cs =>
                have hc := head_trimStart (h7.symm.trans hr)
                rw [hr] at h5
                simp [startsWithWs, hc] at h5
            refine ⟨r, rfl, w, w1, w2, trimStart rest2 ++ w', hw, h4, h8, hw2, ?_, ?_⟩
            · obtain ⟨a, b, e, ha, hb, he, ht⟩ := h6
              refine ⟨a, b, e ++ w', ha, hb, ?_, by rw [ht]; simp⟩
              intro hx; exact he (fun c hc => hx c (by simp [hc]))
            · conv => lhs; rw [hs, h1, h3, h2, h7]
              simp
  · rintro ⟨r, rfl, w, w1, w2, t, hw, h1, h2, hne, ⟨a, b, e, ha, hb, he, rfl⟩, rfl⟩
    have hws : isWs '#' = false := by decide
    have hd : isWs '-' = false := by decide
    have e1 : trim (w ++ cs! "#|" ++ w1 ++ cs! "-" ++ w2 ++ (a ++ r.name ++ b ++ ':' :: e)) =
        cs! "#|" ++ (w1 ++ (cs! "-" ++ (w2 ++ (a ++ r.name ++ b ++ ':' :: trimEnd e)))) := by
      unfold trim
      have e2 : w ++ cs! "#|" ++ w1 ++ cs! "-" ++ w2 ++ (a ++ r.name ++ b ++ ':' :: e) =
        w ++ '#' :: (('|' :: w1) ++ (cs! "-" ++ (w2 ++ (a ++ r.name ++ b ++ [':'])) ++ e)) := by simp
      rw [e2, trimStart_blank_head hw hws]
      have e3 : '#' :: (('|' :: w1) ++ (cs! "-" ++ (w2 ++ (a ++ r.name ++ b ++ [':'])) ++ e)) =
        ('#' :: (('|' :: w1) ++ (cs! "-" ++ (w2 ++ (a ++ r.name ++ b ++ [':']))))) ++ e := by simp
      rw [e3, trimEnd_append_of_not_blank he]
      simp
    rw [e1, stripPrefix_append]
    simp only
    rw [trimStart_ws_append h1]
    have e4 : trimStart (cs! "-" ++ (w2 ++ (a ++ r.name ++ b ++ ':' :: trimEnd e))) =
      cs! "-" ++ (w2 ++ (a ++ r.name ++ b ++ ':' :: trimEnd e)) := trimStart_of_head hd
    rw [e4, stripPrefix_append]
    simp only
    have hex : Explained r (w2 ++ (a ++ r.name ++ b ++ ':' :: trimEnd e)) := by
      refine ⟨w2 ++ a, b, trimEnd e, ?_, hb, ?_, by simp⟩
      · intro c hc
        rcases List.mem_append.mp hc with h | h
        · exact h2 _ h
        · exact ha _ h
      · intro hbl
        obtain ⟨x, hx1, hx2⟩ := trimEnd_spec e
        apply he
        rw [hx1]
        intro c hc
        rcases List.mem_append.mp hc with h | h
        · exact hbl _ h
        · exact hx2 _ h
    have hex' := parseRule_valid.mpr (explained_trimStart.mpr hex)
    cases w2 with
    | nil => exact absurd rfl hne
    | cons c cs =>
      have hc : isWs c = true := h2 c (by simp)
      rw [if_neg (by simp [startsWithWs, hc]), if_neg, hex']
      · rfl
      · intro hnil
        rw [hnil] at hex'
        simp [parseRuleWithExplanation, splitFirst, trim, trimStart, trimEnd] at hex'

/-! ### Concrete cases -/

example : ValidComment (cs! "  # jarl-ignore any_is_na: on purpose") (.ignore .anyIsNa) :=
  C11_valid.mp (by decide +kernel)
example : ValidComment (cs! "#jarl-ignore-end any_is_na") (.ignoreEnd .anyIsNa) := C11_valid.mp (by decide +kernel)
example : UnexplainedComment (cs! "# jarl-ignore any_is_na:  ") := C11_unexplained.mp (by decide +kernel)
example : MisnamedComment (cs! "# jarl-ignore-file foo: bar") := C11_misnamed.mp (by decide +kernel)
example : BlanketComment (cs! "#| jarl-ignore-chunk: any_is_na") := C11_blanket.mp (by decide +kernel)
example : ValidItem (cs! "#|   - any_is_na: reason") .anyIsNa := by
  obtain ⟨r, h1, h2⟩ := (C11_array_item (s := cs! "#|   - any_is_na: reason") (d := .ignoreChunk .anyIsNa)).mp (by decide +kernel)
  cases h1; exact h2

end Jarl
