import Verif.Props.OutputSummary
/-!
# C62: warnings about deprecated rules
-/
namespace Jarl
open Spec

/-! ### The set of names -/

theorem setInsert_mem (s x : Str) : ∀ l, x ∈ setInsert s l ↔ x = s ∨ x ∈ l
  | [] => by simp [setInsert]
  | t :: ts => by
    unfold setInsert
    cases h : strCmp s t with
    | lt => simp
    | eq =>
      have := (strCmp_decides.eq_iff s t).mp h
      subst this
      simp
    | gt =>
      simp only [List.mem_cons, setInsert_mem s x ts]
      constructor
      · rintro (h | h | h) <;> simp [h]
      · rintro (h | h | h) <;> simp [h]

theorem setInsert_sorted (s : Str) : ∀ {l : List Str}, l.Pairwise StrLt → (setInsert s l).Pairwise StrLt
  | [], _ => by simp [setInsert]
  | t :: ts, h => by
    obtain ⟨h1, h2⟩ := List.pairwise_cons.mp h
    unfold setInsert
    cases hc : strCmp s t with
    | lt =>
      have hst := (strCmp_decides.lt_iff s t).mp hc
      refine List.pairwise_cons.mpr ⟨?_, h⟩
      intro x hx
      rcases List.mem_cons.mp hx with rfl | hx
      · exact hst
      · exact strCmp_decides.trans _ _ _ hst (h1 x hx)
    | eq => exact h
    | gt =>
      have hst := (strCmp_decides.gt_iff s t).mp hc
      refine List.pairwise_cons.mpr ⟨?_, setInsert_sorted s h2⟩
      intro x hx
      rcases (setInsert_mem s x ts).mp hx with rfl | hx
      · exact hst
      · exact h1 x hx

theorem foldl_setInsert : ∀ (l set : List Str), set.Pairwise StrLt →
    (l.foldl (fun set n => setInsert n set) set).Pairwise StrLt ∧
    ∀ x, x ∈ l.foldl (fun set n => setInsert n set) set ↔ x ∈ l ∨ x ∈ set
  | [], set, h => ⟨h, by simp⟩
  | a :: l, set, h => by
    obtain ⟨h1, h2⟩ := foldl_setInsert l (setInsert a set) (setInsert_sorted a h)
    refine ⟨h1, fun x => ?_⟩
    rw [List.foldl_cons, h2, setInsert_mem]
    simp only [List.mem_cons]
    constructor
    · rintro (h | h | h) <;> simp [h]
    · rintro ((h | h) | h) <;> simp [h]

theorem explicitNames_nodup (args : OutArgs) (items : List ResolvedItem) : (explicitNames args items).Nodup := by
  have h := (foldl_setInsert (([args.select, args.extendSelect, args.ignore].flatMap (fun s =>
    ((splitOn ',' s).map trim).filter (fun n => !n.isEmpty))) ++ items.flatMap (fun i => [i.linter.select,
    i.linter.extendSelect, i.linter.ignore].flatMap (fun l => l.getD []))) [] .nil).1
  refine List.Pairwise.imp ?_ h
  intro a b hab e
  subst e
  have h1 := (strCmp_decides.lt_iff a a).mpr hab
  have h2 := (strCmp_decides.eq_iff a a).mpr rfl
  rw [h1] at h2
  cases h2

theorem explicitNames_mem (args : OutArgs) (items : List ResolvedItem) {name : Str} (hn : name ≠ []) :
    name ∈ explicitNames args items ↔ NamedIn args items name := by
  unfold explicitNames
  simp only []
  rw [(foldl_setInsert _ [] .nil).2]
  simp only [List.mem_append, List.mem_flatMap, List.not_mem_nil, or_false, List.mem_filter, List.mem_map]
  unfold NamedIn
  constructor
  · rintro (⟨l, hl, ⟨s, hs, rfl⟩, _⟩ | ⟨i, hi, o, ho, hx⟩)
    · exact .inl ⟨l, by simpa using hl, s, hs, rfl⟩
    · refine .inr ⟨i, hi, ?_⟩
      cases o with
      | none => simp at hx
      | some l =>
        refine ⟨l, ?_, by simpa using hx⟩
        simp only [List.mem_cons, List.not_mem_nil, or_false] at ho
        rcases ho with h | h | h <;> simp [← h]
  · rintro (⟨l, hl, s, hs, rfl⟩ | ⟨i, hi, l, hl, hx⟩)
    · refine .inl ⟨l, by simpa using hl, ⟨s, hs, rfl⟩, ?_⟩
      cases ht : trim s with
      | nil => exact absurd ht hn
      | cons a b => rfl
    · refine .inr ⟨i, hi, some l, ?_, by simpa using hx⟩
      simp only [List.mem_cons, List.not_mem_nil, or_false]
      rcases hl with h | h | h <;> simp [h]

/-! ### The warnings -/

/-- The only warning there can be. -/
def browserWarning : Str := cs! "Rule `browser` is deprecated since v0.5.0. Use `undesirable_function` instead."

theorem deprecationWarning_eq (n : Str) : deprecationWarning n = if n = cs! "browser" then some browserWarning else none := by
  unfold deprecationWarning
  by_cases h : n = cs! "browser"
  · subst h
    decide +kernel
  · rw [if_neg h]
    cases hr : Rule.fromName n with
    | none => rfl
    | some r =>
      have hn := Rule.fromName_eq_some.mp hr
      cases r <;> first | rfl | exact absurd hn.symm h

theorem count_deprecations (names : List Str) (h : names.Nodup) :
    (names.filterMap deprecationWarning) = if cs! "browser" ∈ names then [browserWarning] else [] := by
  induction names with
  | nil => rfl
  | cons a l ih =>
    obtain ⟨h1, h2⟩ := List.nodup_cons.mp h
    rw [List.filterMap_cons, deprecationWarning_eq, ih h2]
    by_cases ha : a = cs! "browser"
    · subst ha
      simp [h1]
    · have : (cs! "browser" ∈ a :: l) ↔ cs! "browser" ∈ l := by
        simp only [List.mem_cons]
        exact ⟨fun h => h.resolve_left (fun e => ha e.symm), .inr⟩
      simp only [this]
      rw [if_neg ha]

theorem notBrowser {x : Str} (h1 : '\n' ∉ x) (h2 : x.head? ≠ some 'R') : browserWarning ∉ splitOn '\n' x := by
  rw [splitOn_no h1, List.mem_singleton]
  rintro rfl
  exact h2 rfl

/-- The lines of the summary. -/
theorem summary_quiet (env : OutEnv) (ds : List Diagnostic) (b : Bool) (t : Str) :
    (splitOn '\n' (summary env ds b ++ t)).count browserWarning = (splitOn '\n' t).count browserWarning := by
  have key : ∀ (x : Str), '\n' ∉ x → x.head? ≠ some 'R' → ∀ t,
      (splitOn '\n' (line x ++ t)).count browserWarning = (splitOn '\n' t).count browserWarning := by
    intro x h1 h2 t
    rw [splitOn_line, List.count_append, List.count_eq_zero.mpr (notBrowser h1 h2), Nat.zero_add]
  obtain ⟨l, hl, hl'⟩ := header_is (cs! "Summary")
  have hh : ∀ t, (splitOn '\n' (line l ++ t)).count browserWarning = (splitOn '\n' t).count browserWarning := by
    intro t
    refine key l (header_no hl' (by decide)) ?_ t
    obtain ⟨n, rfl⟩ := hl'
    simp
  have hdig : ∀ n, '\n' ∉ digits n := fun n => not_mem_digits (by decide) n
  have hdigR : ∀ (n : Nat) (s : Str), (digits n ++ s).head? ≠ some 'R' := by
    intro n s
    cases e : digits n with
    | nil => exact absurd e (digits_ne_nil n)
    | cons c r =>
      have : c.isDigit = true := digits_digit (n := n) (by rw [e]; simp)
      rintro h
      simp at h
      rw [h] at this
      simp at this
  have hfix : ∀ s u t, (splitOn '\n' (fixLines s u ++ t)).count browserWarning = (splitOn '\n' t).count browserWarning := by
    intro s u t
    rw [fixLines_eq]
    match s, u with
    | 0, 0 => rfl
    | 0, 1 =>
      simp only [fixSentence, List.flatMap_cons, List.flatMap_nil, List.append_nil]
      exact key _ (by decide) (by decide) t
    | 0, u + 2 =>
      simp only [fixSentence, List.flatMap_cons, List.flatMap_nil, List.append_nil]
      exact key _ (by simp [hdig]) (hdigR (u + 2) _) t
    | s + 1, 0 =>
      simp only [fixSentence, List.flatMap_cons, List.flatMap_nil, List.append_nil]
      exact key _ (by simp [hdig]) (hdigR (s + 1) _) t
    | s + 1, 1 =>
      simp only [fixSentence, List.flatMap_cons, List.flatMap_nil, List.append_nil]
      exact key _ (by simp [hdig]) (hdigR (s + 1) _) t
    | s + 1, u + 2 =>
      simp only [fixSentence, List.flatMap_cons, List.flatMap_nil, List.append_nil]
      refine key _ ?_ ?_ t
      · have h1 := hdig (s + 1); have h2 := hdig (u + 2); unfold digits at h1 h2; simp [h1, h2]
      · have := hdigR (s + 1) (cs! " fixable with the `--fix` option (" ++ Nat.toDigits 10 (u + 2) ++
          cs! " hidden fixes can be enabled with the `--unsafe-fixes` option).")
        simpa [digits] using this
  unfold summary
  simp only [hl]
  split
  · simp only [List.append_assoc]
    rw [key [] (by simp) (by simp), hh]
    have h3 : ∀ t, (splitOn '\n' ((if env.hint < (ds.length : Int) then line (cs! "More than " ++ (intDigits env.hint ++ cs! " errors reported, use `--statistics` to get the count by rule.")) else []) ++ t)).count browserWarning =
        (splitOn '\n' t).count browserWarning := by
      intro t
      split
      · refine key _ ?_ (by simp) t
        have hi : '\n' ∉ intDigits env.hint := by
          unfold intDigits
          split
          · simp only [List.mem_cons, not_or]; exact ⟨by decide, not_mem_digits (by decide) _⟩
          · exact not_mem_digits (by decide) _
        simp [hi]
      · rfl
    split
    · rw [key _ (by simp [hdig]) (by simp), hfix, h3]
    · rw [key _ (by decide) (by decide), hfix, h3]
  · split
    · rfl
    · rw [List.append_assoc, hh, key _ (by decide) (by decide)]

/-- **C62.** In the formats for humans, behind the diagnostics, there is exactly one line that warns about a deprecated
rule if the rule is named in a list of rules on the command line or in a jarl.toml, and no such line otherwise. -/
theorem C62_deprecated {env : OutEnv} {order : List (Str × Nat × Bool) → List (Str × Nat × Bool)} {args : OutArgs}
    {items : List ResolvedItem} {rs : FileResults} {o : CliOut} (h : Reporting args rs)
    (hf : args.format = .full ∨ args.format = .concise) (ho : cliReport args.toCheckArgs items rs = .ok o)
    {body err : Str} (he : emit env args.format o.diagnostics o.errors = some ⟨body, err⟩)
    (hnt : ∀ t, args.timing = some t → '\n' ∉ t) (hnp : ∀ p, args.parentConfig = some p → '\n' ∉ p)
    {r : Rule} {repl : Str} (hr : r.deprecation = some repl) :
    ∃ tail, checkOutput env order args items rs = some ⟨body ++ tail, err⟩ ∧
      let warning := cs! "Rule `" ++ r.name ++ cs! "` is deprecated since v" ++ r.deprecatedSince ++ cs! ". Use `" ++ repl ++
        cs! "` instead."
      (NamedIn args items r.name → (splitOn '\n' tail).count warning = 1) ∧
      (¬ NamedIn args items r.name → warning ∉ splitOn '\n' tail) := by
  have hb : r = .browser ∧ repl = cs! "undesirable_function" := by
    cases r <;> simp [Rule.deprecation] at hr
    exact ⟨rfl, hr.symm⟩
  obtain ⟨rfl, rfl⟩ := hb
  refine ⟨_, human_output h hf ho he, ?_⟩
  have hw : (cs! "Rule `" ++ Rule.browser.name ++ cs! "` is deprecated since v" ++ Rule.browser.deprecatedSince ++ cs! ". Use `" ++
      cs! "undesirable_function" ++ cs! "` instead.") = browserWarning := by decide +kernel
  simp only [hw]
  have hcount : (splitOn '\n' (summary env o.diagnostics (!o.errors.isEmpty) ++ (section_ (cs! "Warnings") (warnings args items
      (allDiagnostics rs)) ++ section_ (cs! "Notes") (notes args)))).count browserWarning =
      if cs! "browser" ∈ explicitNames args items then 1 else 0 := by
    rw [summary_quiet]
    have hsec : ∀ (title : Str) (l : List Str) (t : Str), '\n' ∉ title →
        (splitOn '\n' (section_ title l ++ t)).count browserWarning =
          (l.flatMap (splitOn '\n')).count browserWarning + (splitOn '\n' t).count browserWarning := by
      intro title l t ht
      unfold section_
      cases l with
      | nil => simp
      | cons a l =>
        obtain ⟨hd, hhd, hhd'⟩ := header_is title
        simp only [List.isEmpty_cons, Bool.false_eq_true, if_false, hhd, List.append_assoc]
        rw [splitOn_lineNo (by simp), splitOn_lineNo (header_no hhd' ht), splitOn_flatLine]
        have h1 : hd ≠ browserWarning := by
          obtain ⟨n, rfl⟩ := hhd'
          intro e
          cases e
        rw [List.count_cons_of_ne (by decide), List.count_cons_of_ne h1, List.count_append]
    have hnotes : (splitOn '\n' (section_ (cs! "Notes") (notes args))).count browserWarning = 0 := by
      have := hsec (cs! "Notes") (notes args) [] (by decide)
      rw [List.append_nil] at this
      rw [this]
      have hz : ((notes args).flatMap (splitOn '\n')).count browserWarning = 0 := by
        rw [List.count_eq_zero, List.mem_flatMap]
        rintro ⟨x, hx, hm⟩
        unfold notes at hx
        rcases List.mem_append.mp hx with hx | hx
        · cases ht : args.timing with
          | none => rw [ht] at hx; cases hx
          | some t =>
            rw [ht] at hx
            simp only [List.mem_singleton] at hx
            subst hx
            exact notBrowser (by simp [hnt t ht]) (by simp) hm
        · cases ht : args.parentConfig with
          | none => rw [ht] at hx; cases hx
          | some t =>
            rw [ht] at hx
            simp only [List.mem_singleton] at hx
            subst hx
            exact notBrowser (by simp [hnp t ht]) (by simp) hm
      rw [hz]
      decide
    rw [hsec _ _ _ (by decide), hnotes, Nat.add_zero]
    unfold warnings
    rw [count_deprecations _ (explicitNames_nodup args items)]
    simp only [List.flatMap_append, List.count_append]
    have z1 : ((if args.assignment then [cs! "`--assignment` is deprecated. Use `[lint.assignment]` in jarl.toml instead."] else []).flatMap (splitOn '\n')).count browserWarning = 0 := by
      split <;> decide +kernel
    have z3 : (((args.oldSyntax.filter id).map (fun _ => cs! "Argument `assignment` in `[lint]` is deprecated. Use `[lint.assignment]` with `operator` instead.")).flatMap (splitOn '\n')).count browserWarning = 0 := by
      rw [List.count_eq_zero, List.mem_flatMap]
      rintro ⟨x, hx, hm⟩
      obtain ⟨_, _, rfl⟩ := List.mem_map.mp hx
      exact notBrowser (by decide) (by decide) hm
    have z2 : ((if unusedHidden args.toCheckArgs items (allDiagnostics rs) then
        [digits (unusedCount (allDiagnostics rs)) ++ cs! " `unused_function` diagnostics hidden (likely false positives).\nTo show them:\n  - set 'threshold-ignore' in `[lint.unused_function]` in jarl.toml,\n  - or explicitly include 'unused_function' in the set of rules."]
        else []).flatMap (splitOn '\n')).count browserWarning = 0 := by
      split
      · rw [List.count_eq_zero, List.flatMap_cons, List.flatMap_nil, List.append_nil]
        have e1 : digits (unusedCount (allDiagnostics rs)) ++ cs! " `unused_function` diagnostics hidden (likely false positives).\nTo show them:\n  - set 'threshold-ignore' in `[lint.unused_function]` in jarl.toml,\n  - or explicitly include 'unused_function' in the set of rules." =
          (digits (unusedCount (allDiagnostics rs)) ++ cs! " `unused_function` diagnostics hidden (likely false positives).") ++ '\n' :: cs! "To show them:\n  - set 'threshold-ignore' in `[lint.unused_function]` in jarl.toml,\n  - or explicitly include 'unused_function' in the set of rules." := by
          simp
        rw [e1, splitOn_cut, List.mem_append, not_or]
        constructor
        · refine notBrowser ?_ ?_
          · have := not_mem_digits (c := '\n') (by decide) (unusedCount (allDiagnostics rs))
            simp [this]
          · cases e : digits (unusedCount (allDiagnostics rs)) with
            | nil => exact absurd e (digits_ne_nil _)
            | cons c t =>
              have : c.isDigit = true := digits_digit (n := unusedCount (allDiagnostics rs)) (by rw [e]; simp)
              intro hc
              simp at hc
              rw [hc] at this
              simp at this
        · decide +kernel
      · rfl
    rw [z1, z2, z3]
    split <;> decide +kernel
  have hmem := explicitNames_mem args items (name := cs! "browser") (by decide)
  constructor
  · intro hn
    rw [hcount, if_pos (hmem.mpr hn)]
  · intro hn hx
    rw [if_neg (fun hm => hn (hmem.mp hm))] at hcount
    exact (List.count_eq_zero.mp hcount) hx

end Jarl
