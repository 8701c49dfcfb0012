import Verif.Props.Output
/-!
# C61, C62: the sections behind the diagnostics
-/
namespace Jarl
open Spec

/-! ### Lines -/

theorem splitOn_cut (c : Char) (s t : Str) : splitOn c (s ++ c :: t) = splitOn c s ++ splitOn c t := by
  induction s with
  | nil => simp [splitOn]
  | cons d s ih =>
    simp only [List.cons_append, splitOn]
    by_cases h : d = c
    · simp [h, ih]
    · rw [if_neg h, if_neg h, ih]
      cases hs : splitOn c s with
      | nil => exact absurd hs (splitOn_ne_nil c s)
      | cons a l => rfl

theorem splitOn_line (s t : Str) : splitOn '\n' (line s ++ t) = splitOn '\n' s ++ splitOn '\n' t := by
  rw [line, List.append_assoc]
  exact splitOn_cut _ _ _

theorem splitOn_lineNo {s : Str} (h : '\n' ∉ s) (t : Str) : splitOn '\n' (line s ++ t) = s :: splitOn '\n' t := by
  rw [splitOn_line, splitOn_no h]
  rfl

theorem splitOn_flatLine (t : Str) : ∀ l : List Str,
    splitOn '\n' (l.flatMap line ++ t) = l.flatMap (splitOn '\n') ++ splitOn '\n' t
  | [] => rfl
  | a :: l => by
    rw [List.flatMap_cons, List.append_assoc, splitOn_line, splitOn_flatLine t l]
    simp

/-! ### C61 -/

theorem fixable_safe (d : Diagnostic) : d.hasSafeFix = fixable .safe d := by
  unfold Diagnostic.hasSafeFix fixable
  cases h1 : d.fix.toSkip
  · cases h2 : d.fix.content with
    | nil => simp
    | cons c cs =>
      cases h3 : Rule.fromName d.name with
      | none =>
        have := Rule.fromName_eq_none.mp h3
        simp [this]
      | some r =>
        have hr := Rule.fromName_eq_some.mp h3
        have : (∃ x ∈ Rule.all, x.name = d.name ∧ x.fixStatus = .safe) ↔ r.fixStatus = .safe := by
          constructor
          · rintro ⟨x, _, hx, hs⟩
            have := Rule.fromName_eq_some.mpr hx
            rw [h3] at this
            cases this
            exact hs
          · exact fun hs => ⟨r, Rule.mem_all r, hr, hs⟩
        have hb : Rule.all.any (fun r => decide (r.name = d.name ∧ r.fixStatus = .safe)) = decide (r.fixStatus = .safe) := by
          rw [Bool.eq_iff_iff]; simpa using this
        rw [hb]; simp
  · simp

theorem fixable_unsafe (d : Diagnostic) : d.hasUnsafeFix = fixable .unsafe_ d := by
  unfold Diagnostic.hasUnsafeFix fixable
  cases h1 : d.fix.toSkip
  · cases h2 : d.fix.content with
    | nil => simp
    | cons c cs =>
      cases h3 : Rule.fromName d.name with
      | none =>
        have := Rule.fromName_eq_none.mp h3
        simp [this]
      | some r =>
        have hr := Rule.fromName_eq_some.mp h3
        have : (∃ x ∈ Rule.all, x.name = d.name ∧ x.fixStatus = .unsafe_) ↔ r.fixStatus = .unsafe_ := by
          constructor
          · rintro ⟨x, _, hx, hs⟩
            have := Rule.fromName_eq_some.mpr hx
            rw [h3] at this
            cases this
            exact hs
          · exact fun hs => ⟨r, Rule.mem_all r, hr, hs⟩
        have hb : Rule.all.any (fun r => decide (r.name = d.name ∧ r.fixStatus = .unsafe_)) = decide (r.fixStatus = .unsafe_) := by
          rw [Bool.eq_iff_iff]; simpa using this
        rw [hb]; simp
  · simp

theorem fixLines_eq (s u : Nat) : fixLines s u = (fixSentence s u).flatMap line := by
  unfold fixLines
  match s, u with
  | 0, 0 => rfl
  | 0, 1 => rfl
  | 0, u + 2 => simp [fixSentence, digits]
  | s + 1, 0 => simp [fixSentence, digits]
  | s + 1, 1 => simp [fixSentence, digits]
  | s + 1, u + 2 => simp [fixSentence, digits]

theorem header_is (title : Str) : ∃ l, sectionHeader title = line l ∧ IsHeader title l := ⟨_, rfl, _, rfl⟩

theorem header_no {title l : Str} (h : IsHeader title l) (ht : '\n' ∉ title) : '\n' ∉ l := by
  obtain ⟨n, rfl⟩ := h
  simp only [List.mem_append, List.mem_replicate, not_or]
  exact ⟨⟨⟨by decide, ht⟩, by decide⟩, fun h => absurd h.2 (by decide)⟩

theorem fixSentence_no (s u : Nat) : ∀ l ∈ fixSentence s u, '\n' ∉ l := by
  have hd : ∀ n, '\n' ∉ Nat.toDigits 10 n := fun n => not_mem_digits (by decide) n
  match s, u with
  | 0, 0 => intro l h; cases h
  | 0, 1 => decide
  | 0, u + 2 => simp [fixSentence, hd]
  | s + 1, 0 => simp [fixSentence, hd]
  | s + 1, 1 => simp [fixSentence, hd]
  | s + 1, u + 2 => simp [fixSentence, hd]

/-- What is printed behind the diagnostics. -/
theorem human_output {env : OutEnv} {order : List (Str × Nat × Bool) → List (Str × Nat × Bool)} {args : OutArgs}
    {items : List ResolvedItem} {rs : FileResults} {o : CliOut} (h : Reporting args rs)
    (hf : args.format = .full ∨ args.format = .concise) (ho : cliReport args.toCheckArgs items rs = .ok o)
    {body err : Str} (he : emit env args.format o.diagnostics o.errors = some ⟨body, err⟩) :
    checkOutput env order args items rs = some ⟨body ++ (summary env o.diagnostics (!o.errors.isEmpty) ++
      (section_ (cs! "Warnings") (warnings args items (allDiagnostics rs)) ++ section_ (cs! "Notes") (notes args))), err⟩ := by
  rw [checkOutput_reporting h ho, he]
  have : args.format.human = true := by rcases hf with e | e <;> rw [e] <;> rfl
  simp [this]

theorem status_success {args : CheckArgs} {items : List ResolvedItem} {rs : FileResults} {o : CliOut}
    (ha : args.addJarlIgnore = none) (hs : args.statistics = false) (ho : cliReport args items rs = .ok o) :
    o.status = .success ↔ o.errors = [] ∧ o.diagnostics = [] := by
  unfold cliReport at ho
  simp only [ha, hs] at ho
  cases ho
  simp only [Bool.false_eq_true, if_false]
  have hk : hideUnused args items (allDiagnostics rs) = [] ↔ flatSorted (hideUnused args items (allDiagnostics rs)) = [] := by
    unfold flatSorted
    have hne : ∀ x ∈ hideUnused args items (allDiagnostics rs), x.2 ≠ [] := by
      intro x hx
      unfold hideUnused at hx
      split at hx
      · have := (List.mem_filter.mp hx).2
        intro e
        simp [e] at this
      · unfold allDiagnostics at hx
        obtain ⟨r, _, hr⟩ := List.mem_filterMap.mp hx
        split at hr
        · split at hr
          · cases hr
          · rename_i ds _ hds
            cases hr
            intro e
            simp at e
            simp [e] at hds
        · cases hr
    constructor
    · intro e; rw [e]; simp
    · intro e
      have e' := (List.mergeSort_perm ((hideUnused args items (allDiagnostics rs)).flatMap (·.2)) diagLe).length_eq
      rw [e] at e'
      cases hx : hideUnused args items (allDiagnostics rs) with
      | nil => rfl
      | cons x l =>
        rw [hx] at e' hne
        have := hne x (by simp)
        have hp := List.length_pos_iff.mpr this
        simp at e'
        omega
  cases he : allErrors rs with
  | cons e l => simp
  | nil =>
    simp only [List.isEmpty_nil, Bool.not_true, Bool.false_eq_true, if_false, true_and]
    rw [← hk]
    cases hideUnused args items (allDiagnostics rs) <;> simp

/-- **C61.** In the formats for humans the diagnostics are followed by a summary. If there were none and no file failed,
which is when the exit status is success, it says that all checks passed. If there were diagnostics, it gives their number
and the numbers of safe and unsafe fixes among them, and, beyond the number set in the environment, a hint. If files
failed and nothing else was found, there is no summary. -/
theorem C61_summary {env : OutEnv} {order : List (Str × Nat × Bool) → List (Str × Nat × Bool)} {args : OutArgs}
    {items : List ResolvedItem} {rs : FileResults} {o : CliOut} (h : Reporting args rs)
    (hf : args.format = .full ∨ args.format = .concise) (ho : cliReport args.toCheckArgs items rs = .ok o)
    {body err : Str} (he : emit env args.format o.diagnostics o.errors = some ⟨body, err⟩) :
    ∃ tail rest, checkOutput env order args items rs = some ⟨body ++ tail, err⟩ ∧
      (o.status = .success → ∃ header, IsHeader (cs! "Summary") header ∧
        splitOn '\n' tail = header :: cs! "All checks passed!" :: rest) ∧
      (o.diagnostics ≠ [] → ∃ header, IsHeader (cs! "Summary") header ∧
        splitOn '\n' tail = [] :: header :: foundSentence o.diagnostics.length ::
          (fixSentence (howMany .safe o.diagnostics) (howMany .unsafe_ o.diagnostics) ++
            (if env.hint < (o.diagnostics.length : Int) then [cs! "More than " ++ intDigits env.hint ++
              cs! " errors reported, use `--statistics` to get the count by rule."] else []) ++ rest)) ∧
      (o.diagnostics = [] → o.errors ≠ [] → splitOn '\n' tail = rest) ∧
      rest = splitOn '\n' (section_ (cs! "Warnings") (warnings args items (allDiagnostics rs)) ++
        section_ (cs! "Notes") (notes args)) := by
  refine ⟨_, _, human_output h hf ho he, ?_, ?_, ?_, rfl⟩
  · intro hs
    obtain ⟨h1, h2⟩ := (status_success h.2.2 h.2.1 ho).mp hs
    obtain ⟨l, hl, hl'⟩ := header_is (cs! "Summary")
    refine ⟨l, hl', ?_⟩
    rw [h1, h2]
    simp only [summary, List.length_nil, Nat.lt_irrefl, if_false, List.isEmpty_nil, Bool.not_true, Bool.false_eq_true, hl,
      List.append_assoc]
    rw [splitOn_lineNo (header_no hl' (by decide)), splitOn_lineNo (by decide)]
  · intro hne
    obtain ⟨l, hl, hl'⟩ := header_is (cs! "Summary")
    refine ⟨l, hl', ?_⟩
    have hpos : 0 < o.diagnostics.length := List.length_pos_iff.mpr hne
    have hfound : (if 1 < o.diagnostics.length then line (cs! "Found " ++ digits o.diagnostics.length ++ cs! " errors.")
        else line (cs! "Found 1 error.")) = line (foundSentence o.diagnostics.length) := by
      unfold foundSentence
      by_cases h1 : o.diagnostics.length = 1
      · rw [if_pos h1, if_neg (by omega)]
      · rw [if_neg h1, if_pos (by omega)]; rfl
    have hfn : '\n' ∉ foundSentence o.diagnostics.length := by
      have hd : ∀ n, '\n' ∉ Nat.toDigits 10 n := fun n => not_mem_digits (by decide) n
      unfold foundSentence
      split <;> simp [hd]
    have hsafe : (o.diagnostics.filter Diagnostic.hasSafeFix).length = howMany .safe o.diagnostics := by
      unfold howMany; rw [show Diagnostic.hasSafeFix = fixable .safe from funext fixable_safe]
    have huns : (o.diagnostics.filter Diagnostic.hasUnsafeFix).length = howMany .unsafe_ o.diagnostics := by
      unfold howMany; rw [show Diagnostic.hasUnsafeFix = fixable .unsafe_ from funext fixable_unsafe]
    simp only [summary, hpos, if_true, hl, hfound, hsafe, huns, fixLines_eq]
    simp only [List.append_assoc]
    rw [splitOn_lineNo (by simp), splitOn_lineNo (header_no hl' (by decide)), splitOn_lineNo hfn, splitOn_flatLine]
    have hflat : ∀ l : List Str, (∀ x ∈ l, '\n' ∉ x) → l.flatMap (splitOn '\n') = l := by
      intro l
      induction l with
      | nil => intro _; rfl
      | cons a l ih =>
        intro hx
        rw [List.flatMap_cons, splitOn_no (hx a (by simp)), ih (fun x hm => hx x (by simp [hm]))]
        rfl
    rw [hflat _ (fixSentence_no _ _)]
    split
    · rw [splitOn_lineNo]
      · simp
      · have hi : '\n' ∉ intDigits env.hint := by
          unfold intDigits
          split
          · simp only [List.mem_cons, not_or]; exact ⟨by decide, not_mem_digits (by decide) _⟩
          · exact not_mem_digits (by decide) _
        simp [hi]
    · simp
  · intro h1 h2
    have : o.errors.isEmpty = false := by cases he : o.errors with | nil => exact absurd he h2 | cons a l => rfl
    simp [summary, h1, this]

/-- **C61**, consequence: no diagnostic is counted both as safely and as unsafely fixable. -/
theorem C61_disjoint (ds : List Diagnostic) : howMany .safe ds + howMany .unsafe_ ds ≤ ds.length := by
  unfold howMany
  induction ds with
  | nil => simp
  | cons d ds ih =>
    have : ¬ (fixable .safe d = true ∧ fixable .unsafe_ d = true) := by
      rw [← fixable_safe, ← fixable_unsafe]
      unfold Diagnostic.hasSafeFix Diagnostic.hasUnsafeFix
      cases Rule.fromName d.name with
      | none => simp
      | some r =>
        by_cases hc : (d.fix.toSkip || d.fix.content.isEmpty) = true
        · simp [hc]
        · simp only [hc]
          rintro ⟨h1, h2⟩
          simp at h1 h2
          rw [h1] at h2
          cases h2
    simp only [List.filter_cons, List.length_cons]
    split <;> split
    · exact absurd ⟨by assumption, by assumption⟩ this
    all_goals (try simp only [List.length_cons]); omega

end Jarl
