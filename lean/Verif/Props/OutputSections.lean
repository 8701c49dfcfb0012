import Verif.Props.OutputFalse
/-!
# C61, C62: the sections behind the summary; C30: the text of the table
-/
namespace Jarl
open Spec

theorem notShown_iff (args : OutArgs) (items : List ResolvedItem) (rs : FileResults) (n : Nat) :
    NotShown args items rs n ↔ unusedHidden args.toCheckArgs items (allDiagnostics rs) = true ∧ n = unusedCount (allDiagnostics rs) := by
  have hcount : unusedCount (allDiagnostics rs) = countOf (cs! "unused_function") (found rs) := by
    unfold unusedCount countOf
    rw [flatMap_allDiagnostics]
    rfl
  unfold NotShown unusedHidden
  rw [Bool.and_eq_true, Bool.not_eq_true', ← Bool.not_eq_true, explicitlySelected_iff, decide_eq_true_iff, hcount]
  constructor
  · rintro ⟨t, ht, rfl, hlt, hn⟩
    have := Threshold_unique ht (thresholdIgnore_spec items)
    subst this
    exact ⟨⟨hn, hlt⟩, rfl⟩
  · rintro ⟨⟨hn, hlt⟩, rfl⟩
    exact ⟨_, thresholdIgnore_spec items, rfl, hlt, hn⟩

theorem section_lines (title : Str) (l : List Str) (t : Str) (ht : '\n' ∉ title) :
    ∃ ls, IsSection title l ls ∧ splitOn '\n' (section_ title l ++ t) = ls ++ splitOn '\n' t := by
  unfold section_
  cases l with
  | nil => exact ⟨[], ⟨fun _ => rfl, fun h => absurd rfl h⟩, by simp⟩
  | cons a l =>
    obtain ⟨hd, hhd, hhd'⟩ := header_is title
    refine ⟨[] :: hd :: (a :: l).flatMap (splitOn '\n'), ⟨fun h => (by cases h), fun _ => ⟨hd, hhd', rfl⟩⟩, ?_⟩
    simp only [List.isEmpty_cons, Bool.false_eq_true, if_false, hhd, List.append_assoc]
    rw [splitOn_lineNo (by simp), splitOn_lineNo (header_no hhd' ht), splitOn_flatLine]
    rfl

theorem deprecations_mem (args : OutArgs) (items : List ResolvedItem) (w : Str) :
    w ∈ (explicitNames args items).filterMap deprecationWarning ↔
      ∃ r repl, r.deprecation = some repl ∧ NamedIn args items r.name ∧ w = deprecatedSentence r r.deprecatedSince repl := by
  rw [List.mem_filterMap]
  constructor
  · rintro ⟨n, hn, hw⟩
    unfold deprecationWarning at hw
    split at hw
    · cases hw
    · rename_i r hr
      split at hw
      · cases hw
      · rename_i repl hrepl
        cases hw
        have hname := Rule.fromName_eq_some.mp hr
        subst hname
        refine ⟨r, repl, hrepl, (explicitNames_mem args items ?_).mp hn, rfl⟩
        cases r <;> simp [Rule.name]
  · rintro ⟨r, repl, hr, hn, rfl⟩
    refine ⟨r.name, (explicitNames_mem args items ?_).mpr hn, ?_⟩
    · cases r <;> simp [Rule.name]
    · have : Rule.fromName r.name = some r := Rule.fromName_eq_some.mpr rfl
      unfold deprecationWarning
      rw [this]
      simp only [hr]
      rfl

theorem warnings_are (args : OutArgs) (items : List ResolvedItem) (rs : FileResults) :
    WarningsAre args items rs (warnings args items (allDiagnostics rs)) := by
  refine ⟨_, _, _, _, rfl, rfl, ?_, ?_, ?_, ?_, deprecations_mem args items⟩
  · intro n hn
    obtain ⟨h1, rfl⟩ := (notShown_iff ..).mp hn
    rw [if_pos h1]
    refine ⟨_, rfl, ?_⟩
    have e1 : digits (unusedCount (allDiagnostics rs)) ++ cs! " `unused_function` diagnostics hidden (likely false positives).\nTo show them:\n  - set 'threshold-ignore' in `[lint.unused_function]` in jarl.toml,\n  - or explicitly include 'unused_function' in the set of rules." =
          hiddenSentence (unusedCount (allDiagnostics rs)) ++ '\n' :: cs! "To show them:\n  - set 'threshold-ignore' in `[lint.unused_function]` in jarl.toml,\n  - or explicitly include 'unused_function' in the set of rules." := by
          simp [hiddenSentence, digits]
    have hno : '\n' ∉ hiddenSentence (unusedCount (allDiagnostics rs)) := by
      have := not_mem_digits (c := '\n') (by decide) (unusedCount (allDiagnostics rs))
      unfold digits at this
      simp [hiddenSentence, this]
    rw [e1, splitOn_cut, splitOn_no hno]
    rfl
  · intro hn
    rw [if_neg]
    intro h
    exact hn ⟨_, (notShown_iff ..).mpr ⟨h, rfl⟩⟩
  · generalize args.oldSyntax = l
    induction l with
    | nil => rfl
    | cons b l ih =>
      cases b
      · simpa using ih
      · simp only [List.filter_cons, id, if_true, List.map_cons, List.count_cons_self, List.replicate_succ]
        rw [← ih]
  · rw [count_deprecations _ (explicitNames_nodup args items)]
    split <;> simp

theorem notes_are (args : OutArgs) : NotesAre args (notes args) := by
  unfold NotesAre notes
  cases args.timing <;> cases args.parentConfig <;> rfl

/-- **C61, C62.** Behind the summary (`before`, see `C61_summary`) there is nothing but the section of warnings, with
exactly the warnings there are reasons for, and the section of notes; a section without entries is not printed. -/
theorem C62_sections {env : OutEnv} {order : List (Str × Nat × Bool) → List (Str × Nat × Bool)} {args : OutArgs}
    {items : List ResolvedItem} {rs : FileResults} {o : CliOut} (h : Reporting args rs)
    (hf : args.format = .full ∨ args.format = .concise) (ho : cliReport args.toCheckArgs items rs = .ok o)
    {body err : Str} (he : emit env args.format o.diagnostics o.errors = some ⟨body, err⟩) :
    ∃ tail rest, checkOutput env order args items rs = some ⟨body ++ tail, err⟩ ∧
      (o.status = .success → ∃ header, IsHeader (cs! "Summary") header ∧
        splitOn '\n' tail = header :: cs! "All checks passed!" :: rest) ∧
      (o.diagnostics ≠ [] → ∃ header, IsHeader (cs! "Summary") header ∧
        splitOn '\n' tail = [] :: header :: foundSentence o.diagnostics.length ::
          (fixSentence (howMany .safe o.diagnostics) (howMany .unsafe_ o.diagnostics) ++
            (if env.hint < (o.diagnostics.length : Int) then [cs! "More than " ++ intDigits env.hint ++
              cs! " errors reported, use `--statistics` to get the count by rule."] else []) ++ rest)) ∧
      (o.diagnostics = [] → o.errors ≠ [] → splitOn '\n' tail = rest) ∧
      ∃ ws ns lw ln, WarningsAre args items rs ws ∧ NotesAre args ns ∧ IsSection (cs! "Warnings") ws lw ∧
        IsSection (cs! "Notes") ns ln ∧ rest = lw ++ ln ++ [[]] := by
  obtain ⟨tail, rest, h1, h2, h3, h4, h5⟩ := C61_summary (env := env) (order := order) h hf ho he
  refine ⟨tail, rest, h1, h2, h3, h4, warnings args items (allDiagnostics rs), notes args, ?_⟩
  obtain ⟨lw, hlw, e1⟩ := section_lines (cs! "Warnings") (warnings args items (allDiagnostics rs))
    (section_ (cs! "Notes") (notes args)) (by decide)
  obtain ⟨ln, hln, e2⟩ := section_lines (cs! "Notes") (notes args) [] (by decide)
  refine ⟨lw, ln, warnings_are args items rs, notes_are args, hlw, hln, ?_⟩
  rw [h5, e1]
  rw [List.append_nil] at e2
  rw [e2, List.append_assoc]
  rfl

/-! ### Statistics -/

theorem trimStart_blanks (n : Nat) {s : Str} (h : ∀ c, s.head? = some c → isWs c = false) :
    trimStart (List.replicate n ' ' ++ s) = s := by
  induction n with
  | zero =>
    cases s with
    | nil => rfl
    | cons c r => simp [trimStart, h c rfl]
  | succ n ih =>
    rw [List.replicate_succ]
    have : isWs ' ' = true := by decide
    unfold trimStart at ih ⊢
    rw [List.cons_append, List.dropWhile_cons, this, if_pos rfl, ih]

/-- The line without its end. -/
def statText (e : Str × Nat × Bool) : Str :=
  right5 (digits e.2.1) ++ cs! " [" ++ (if e.2.2 then cs! "*" else cs! " ") ++ cs! "] " ++ e.1

theorem statText_read (e : Str × Nat × Bool) : readStat (statText e) = some e := by
  obtain ⟨k, n, b⟩ := e
  have e1 : statText (k, n, b) = List.replicate (5 - (digits n).length) ' ' ++ (digits n ++ ' ' :: '[' ::
      ((if b then cs! "*" else cs! " ") ++ ']' :: ' ' :: k)) := by
    simp [statText, right5]
  have hhead : ∀ c, (digits n ++ ' ' :: '[' :: ((if b then cs! "*" else cs! " ") ++ ']' :: ' ' :: k)).head? = some c →
      isWs c = false := by
    intro c hc
    cases e : digits n with
    | nil => exact absurd e (digits_ne_nil n)
    | cons x r =>
      rw [e] at hc
      simp at hc
      subst hc
      exact isWs_digit (digits_digit (n := n) (by rw [e]; simp))
  have h1 : ¬ Occurs [' ', '['] (digits n ++ [' ']) := by
    intro hx
    exact not_mem_digits (by decide) _ (occurs2_mem (occurs2_snoc (by decide) hx)).1
  rw [e1]
  unfold readStat
  rw [trimStart_blanks _ hhead, cut2_append _ h1]
  simp only [bind, Option.bind]
  rw [cut2_append]
  · cases b <;> simp [readNat_digits, pure]
  · intro hx
    have := (occurs2_mem (occurs2_snoc (by decide) hx)).1
    cases b <;> simp at this

theorem statText_no {e : Str × Nat × Bool} (h : '\n' ∉ e.1) : '\n' ∉ statText e := by
  obtain ⟨k, n, b⟩ := e
  simp only [statText, right5, List.mem_append, not_or]
  refine ⟨⟨⟨⟨⟨?_, not_mem_digits (by decide) _⟩, by decide⟩, ?_⟩, by decide⟩, h⟩
  · simp [List.mem_replicate]
  · cases b <;> simp

theorem allShown (args : OutArgs) (items : List ResolvedItem) (rs : FileResults) :
    AllShown args items rs (flatSorted (hideUnused args.toCheckArgs items (allDiagnostics rs))) := by
  have hperm : (flatSorted (hideUnused args.toCheckArgs items (allDiagnostics rs))).Perm
    ((hideUnused args.toCheckArgs items (allDiagnostics rs)).flatMap (·.2)) := List.mergeSort_perm _ _
  rw [flatMap_hideUnused, flatMap_allDiagnostics] at hperm
  constructor
  · intro n hn
    obtain ⟨h1, _⟩ := (notShown_iff ..).mp hn
    rw [if_pos h1] at hperm
    exact hperm
  · intro hn
    rw [if_neg] at hperm
    · exact hperm
    · intro h
      exact hn ⟨_, (notShown_iff ..).mpr ⟨h, rfl⟩⟩

/-- **C30.** What `--statistics` prints (without colours): if nothing is to be reported, that all checks passed; else the
table of the rules, and what its stars mean, and the jarl.toml in use if it is in another directory. -/
theorem C30_printed {env : OutEnv} {order : List (Str × Nat × Bool) → List (Str × Nat × Bool)} {args : OutArgs}
    {items : List ResolvedItem} {rs : FileResults} (hrs : rs ≠ []) (hs : args.statistics = true)
    (horder : ∀ l, (order l).Perm l) (hc : env.colors = false) (hd : ∀ d ∈ found rs, OfRule d) :
    ∃ ds out, AllShown args items rs ds ∧ checkOutput env order args items rs = some ⟨out, []⟩ ∧
      (ds = [] → splitOn '\n' out = [cs! "All checks passed!", []]) ∧
      (ds ≠ [] → ∃ table rest, TableOf ds table ∧ splitOn '\n' out = table ++
          [[], cs! "Rules with `[*]` have an automatic fix."] ++ rest ∧
        (args.parentConfig = none → rest = [[]]) ∧
        ∀ p, args.parentConfig = some p → '\n' ∉ p → rest = [[], cs! "Used '" ++ p ++ cs! "'", []]) := by
  refine ⟨_, statisticsText env args (flatSorted (hideUnused args.toCheckArgs items (allDiagnostics rs)))
      (order (countRules (flatSorted (hideUnused args.toCheckArgs items (allDiagnostics rs))))),
    allShown args items rs, ?_, ?_, ?_⟩
  · have : rs.isEmpty = false := by cases rs with | nil => exact absurd rfl hrs | cons _ _ => rfl
    simp [checkOutput, this, hs]
  · intro he
    rw [he]
    show splitOn '\n' (line (cs! "All checks passed!")) = _
    decide +kernel
  · intro hne
    have hall := allShown args items rs
    generalize flatSorted (hideUnused args.toCheckArgs items (allDiagnostics rs)) = ds at hall hne
    have hmem : ∀ d ∈ ds, d ∈ found rs := by
      intro d hd
      by_cases hn : ∃ n, NotShown args items rs n
      · obtain ⟨n, hn⟩ := hn
        exact (List.mem_filter.mp ((hall.1 n hn).mem_iff.mp hd)).1
      · exact (hall.2 hn).mem_iff.mp hd
    obtain ⟨s1, s2, s3, s4, s5⟩ := C30_statistics ds (horder (countRules ds))
    generalize hes : statisticsLines (order (countRules ds)) = es at s1 s2 s3 s4 s5
    have hno : ∀ e ∈ es, '\n' ∉ statText e := by
      intro e he
      obtain ⟨d, hd', hk⟩ := (s2 e.1).mp (List.mem_map.mpr ⟨e, he, rfl⟩)
      apply statText_no
      rw [← hk]
      exact not_mem_name (by decide) (hd d (hmem d hd'))
    have hlines : es.flatMap (statLine env) = (es.map statText).flatMap line := by
      rw [List.flatMap_map]
      congr 1
      funext e
      simp [statLine, paint, hc, statText]
    have hemp : ds.isEmpty = false := by cases ds with | nil => exact absurd rfl hne | cons _ _ => rfl
    have hflat : ∀ l : List Str, (∀ x ∈ l, '\n' ∉ x) → l.flatMap (splitOn '\n') = l := by
      intro l
      induction l with
      | nil => intro _; rfl
      | cons a l ih =>
        intro hx
        rw [List.flatMap_cons, splitOn_no (hx a (by simp)), ih (fun x hm => hx x (by simp [hm]))]
        rfl
    refine ⟨es.map statText, splitOn '\n' (match args.parentConfig with | some p => line [] ++ line (cs! "Used '" ++ p ++ cs! "'") | none => []),
      ⟨es, ?_, s1, s2, ?_, s4, s5⟩, ?_, ?_, ?_⟩
    · rw [List.map_map]
      exact List.map_congr_left (fun e _ => statText_read e)
    · intro e he
      have := s3 e he
      rw [← show Diagnostic.hasSafeFix = fixable .safe from funext fixable_safe]
      exact this
    · unfold statisticsText
      rw [hemp, hes, hlines]
      simp only [Bool.false_eq_true, if_false, List.append_assoc]
      rw [splitOn_flatLine, hflat _ (fun x hx => by
        obtain ⟨e, he, rfl⟩ := List.mem_map.mp hx
        exact hno e he), splitOn_lineNo (by simp), splitOn_lineNo (by decide)]
      rfl
    · intro h
      rw [h]
      rfl
    · intro p h hp
      rw [h]
      show splitOn '\n' (line [] ++ line (cs! "Used '" ++ p ++ cs! "'")) = _
      have := splitOn_lineNo (s := cs! "Used '" ++ p ++ cs! "'") (by simp [hp]) []
      rw [List.append_nil] at this
      rw [splitOn_lineNo (by simp), this]
      rfl

theorem readVal_blanks (f n : Nat) (s : Str) : readVal f (List.replicate n ' ' ++ s) = readVal f s := by
  induction n with
  | zero => rfl
  | succ n ih => rw [List.replicate_succ, List.cons_append, readVal_blank, ih]

/-- **F33.** With `--statistics`, `--output-format json` is silently passed over: what is printed is never JSON. -/
theorem C60_false_statistics {env : OutEnv} {order : List (Str × Nat × Bool) → List (Str × Nat × Bool)} {args : OutArgs}
    {items : List ResolvedItem} {rs : FileResults} (hrs : rs ≠ []) (hs : args.statistics = true)
    (horder : ∀ l, (order l).Perm l) (hc : env.colors = false) :
    ∃ out, checkOutput env order args items rs = some ⟨out, []⟩ ∧ readJson out = none := by
  have he : rs.isEmpty = false := by cases rs with | nil => exact absurd rfl hrs | cons _ _ => rfl
  refine ⟨statisticsText env args (flatSorted (hideUnused args.toCheckArgs items (allDiagnostics rs)))
      (order (countRules (flatSorted (hideUnused args.toCheckArgs items (allDiagnostics rs))))), by simp [checkOutput, he, hs], ?_⟩
  generalize flatSorted (hideUnused args.toCheckArgs items (allDiagnostics rs)) = ds
  cases ds with
  | nil =>
    show readJson (line (cs! "All checks passed!")) = none
    decide +kernel
  | cons d ds =>
    obtain ⟨_, s2, _⟩ := C30_statistics (d :: ds) (horder (countRules (d :: ds)))
    unfold statisticsText
    simp only [List.isEmpty_cons, Bool.false_eq_true, if_false]
    cases hes : statisticsLines (order (countRules (d :: ds))) with
    | nil =>
      rw [hes] at s2
      have := (s2 d.name).mpr ⟨d, by simp, rfl⟩
      cases this
    | cons e es =>
      obtain ⟨k, n, b⟩ := e
      simp only [List.flatMap_cons, statLine, paint, hc, Bool.false_eq_true, if_false, right5, line, List.append_assoc]
      unfold readJson
      rw [readVal_blanks, show digits n = (Json.num n).pretty 0 by rw [Json.pretty], readVal_pretty]
      · have : ∀ t : Str, skip (cs! " [" ++ t) ≠ [] := by intro t; simp [skip, jsonWs]
        simp only [if_neg (this _)]
      · simp only [List.length_append]; omega
      · intro c hc
        simp at hc
        subst hc
        decide

/-! ### Examples -/

/-- Two diagnostics of a rule, one of another. -/
def exCounted : FileResults := [(cs! "R/a.R", .ok [exOut (cs! "R/a.R"), exOut (cs! "R/a.R"), exChunk])]

theorem exCounted_rules : ∀ d ∈ found exCounted, OfRule d := by
  intro d hd
  simp only [found, exCounted, List.flatMap_cons, List.flatMap_nil, List.append_nil, List.mem_cons, List.not_mem_nil, or_false] at hd
  rcases hd with rfl | rfl | rfl
  · exact ⟨.anyIsNa, by decide +kernel⟩
  · exact ⟨.anyIsNa, by decide +kernel⟩
  · exact ⟨.invalidChunkSuppression, by decide +kernel⟩

example := C30_printed (env := plainEnv) (order := id) (args := { statistics := true }) (items := []) (rs := exCounted)
  (by simp [exCounted]) rfl (fun l => .refl l) rfl exCounted_rules

example : statLine plainEnv (cs! "any_is_na", 12, true) = cs! "   12 [*] any_is_na\n" := by decide +kernel

example (order) := C62_sections (env := plainEnv) (order := order) (args := { format := .concise, assignment := true }) (items := [])
  (rs := exPrinted) (o := ⟨.error, [(cs! "b.R", .parse)], [exOut (cs! "R/a.R")]⟩) ⟨by simp [exPrinted], rfl, rfl⟩ (.inr rfl) (exReport .concise).2
  (body := cs! "R/a.R [2:5] any_is_na `any(is.na(...))` is inefficient. Use `anyNA(...)` instead.\n")
  (err := cs! "Error: Failed to parse b.R due to syntax errors.\n") (by decide +kernel)

end Jarl
