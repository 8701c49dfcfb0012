import Verif.Props.OutputWarnings
/-!
# C58-C62: where the conditions come from, examples, and what is false without them
-/
namespace Jarl
open Spec

/-! ### Every diagnostic has a location -/

theorem getChecks_located {L : Lints} {pkg : PackageAnalysis} {cfg : Config} {file contents : Str} {ds : List Diagnostic}
    (h : getChecks L pkg cfg file contents = .ok ds) : ∀ d ∈ ds, d.location ≠ none := by
  have key : ∀ {nl : List Nat} {l out : List Diagnostic}, computeLocations nl l = .ok out → ∀ d ∈ out, d.location ≠ none := by
    intro nl l out h d hd
    obtain ⟨rfl, h2⟩ := computeLocations_ok h
    obtain ⟨d0, hd0, rfl⟩ := List.mem_map.mp hd
    have := h2 d0 hd0
    intro e
    have e' : findRowCol d0.range.start nl = none := e
    rw [e'] at this
    cases this
  unfold getChecks at h
  split at h
  · unfold getChecksRmd at h
    revert h
    generalize rmdStates L _ _ = st
    intro h
    cases st with
    | error e => cases h
    | ok st =>
      simp only [bind, Except.bind] at h
      split at h
      · cases h
      · exact key h
  · unfold getChecksR at h
    cases hc : checkerDiagnostics L pkg cfg file contents with
    | error e => rw [hc] at h; cases h
    | ok pd =>
      obtain ⟨p, ds0⟩ := pd
      rw [hc] at h
      simp only [bind, Except.bind] at h
      cases ht : p.listText with
      | none => rw [ht] at h; cases h
      | some t =>
        rw [ht] at h
        exact key h

/-- What holds of the diagnostics of every text holds of the diagnostics of a file. -/
theorem checkPath_of {P : Diagnostic → Prop} {L : Lints} {pkg : PackageAnalysis} {cfg : Config} {path : Str} {io : Io}
    {fuel : Nat} {d : Option Str} {ds : List Diagnostic}
    (hP : ∀ contents ds, getChecks L pkg cfg path contents = .ok ds → ∀ x ∈ ds, P x)
    (h : (checkPath L pkg cfg path io fuel d).2 = some (.ok ds)) : ∀ x ∈ ds, P x := by
  have hl : ∀ {e}, lintOnly L pkg cfg path io d = .ok e → ∀ x ∈ e, P x := by
    intro e he
    unfold lintOnly at he
    split at he
    · cases he
    · exact hP _ _ he
  unfold checkPath at h
  split at h
  · cases hx : hasRmdExtension path with
    | true =>
      unfold lintFix at h
      rw [hx] at h
      simp only [if_true, Option.some.injEq] at h
      exact hl h
    | false =>
      cases d with
      | none =>
        unfold lintFix at h
        rw [hx] at h
        cases fuel with
        | zero => simp [lintFixLoop] at h
        | succ f => simp [lintFixLoop, Io.read] at h
      | some a =>
        have ho : LoopEnd L pkg cfg path a (lintFix L pkg cfg path io fuel (some a)).1 (.ok ds) :=
          C21_fix_outcome (io := io) (fuel := fuel) hx (Prod.ext rfl h)
        generalize (lintFix L pkg cfg path io fuel (some a)).1 = d' at ho
        cases ho with
        | ok _ hg => exact hP _ _ hg
  · simp only [Option.some.injEq] at h
    exact hl h

/-- **C58-C62, no panic.** Printing the report of checked files never fails for want of a location: every format prints. -/
theorem C58_prints {L : Lints} {pkgOf : Str → PackageAnalysis} {cfgOf : Str → Config} {io : Str → Io} {fuel : Nat} {d : Disk}
    {res : Str → Except CheckErr (List Diagnostic)} {ps : List Str} {env : OutEnv}
    {order : List (Str × Nat × Bool) → List (Str × Nat × Bool)} {args : OutArgs} {items : List ResolvedItem}
    (hres : ∀ p ∈ ps, (checkPath L (pkgOf p) (cfgOf p) p (io p) fuel (d p)).2 = some (res p)) :
    checkOutput env order args items (ps.map (fun p => (p, res p))) ≠ none := by
  generalize hrs : ps.map (fun p => (p, res p)) = rs
  have hloc : ∀ x ∈ flatSorted (hideUnused args.toCheckArgs items (allDiagnostics rs)), x.location ≠ none := by
    intro x hx
    have hx' := (List.mergeSort_perm _ _).mem_iff.mp hx
    rw [flatMap_hideUnused] at hx'
    have hx2 : x ∈ found rs := by
      split at hx'
      · have := (List.mem_filter.mp hx').1
        rwa [flatMap_allDiagnostics] at this
      · rwa [flatMap_allDiagnostics] at hx'
    obtain ⟨p, ds, hm, hd⟩ := mem_found.mp hx2
    rw [← hrs] at hm
    obtain ⟨q, hq, e⟩ := List.mem_map.mp hm
    simp only [Prod.mk.injEq] at e
    obtain ⟨rfl, e⟩ := e
    have := hres q hq
    rw [e] at this
    exact checkPath_of (P := fun x => x.location ≠ none) (fun c l hg => getChecks_located hg) this x hd
  unfold checkOutput
  simp only []
  generalize flatSorted (hideUnused args.toCheckArgs items (allDiagnostics rs)) = ds at hloc ⊢
  have hall : ∀ (f : Diagnostic → Option Str), (∀ x, x.location ≠ none → f x ≠ none) → emitAll f ds ≠ none := by
    intro f hf
    clear hrs
    induction ds with
    | nil => simp [emitAll]
    | cons x l ih =>
      have h1 := hf x (hloc x (by simp))
      have h2 := ih (fun y hy => hloc y (by simp [hy]))
      rw [emitAll]
      cases e1 : f x with
      | none => exact absurd e1 h1
      | some a =>
        cases e2 : emitAll f l with
        | none => exact absurd e2 h2
        | some b => simp
  have hemit : ∀ format errs, emit env format ds errs ≠ none := by
    intro format errs
    cases format
    · show emitFull _ _ _ ≠ none
      unfold emitFull
      have := hall (fullBlock env) (fun x hx => by unfold fullBlock; simpa using hx)
      simpa using this
    · show emitConcise _ _ _ ≠ none
      unfold emitConcise
      have := hall (conciseLine env) (fun x hx => by unfold conciseLine; simpa using hx)
      simpa using this
    · show emitGithub _ ≠ none
      unfold emitGithub
      have := hall githubLine (fun x hx => by unfold githubLine; simpa using hx)
      simpa using this
    · simp [emit, emitJson]
  split
  · simp
  · split
    · simp
    · have := hemit args.format (allErrors rs)
      cases e : emit env args.format ds (allErrors rs) with
      | none => exact absurd e this
      | some s => simp only []; split <;> simp

/-! ### Errors -/

/-- **C58, errors.** With the formats for humans, standard error has a line for every file that failed, which names the
file (unless it was version control that stopped the run). -/
theorem C58_errors {env : OutEnv} {order : List (Str × Nat × Bool) → List (Str × Nat × Bool)} {args : OutArgs}
    {items : List ResolvedItem} {rs : FileResults} {o : CliOut} {s : Streams} (h : Reporting args rs)
    (hf : args.format = .full ∨ args.format = .concise) (ho : cliReport args.toCheckArgs items rs = .ok o)
    (hs : checkOutput env order args items rs = some s) {p : Str} {e : CheckErr} (he : (p, e) ∈ o.errors)
    (hv : e ≠ .vcs ∧ e ≠ .panic) : Occurs p s.err := by
  have hl : Occurs p (errLines env o.errors) := by
    unfold errLines
    obtain ⟨a, b, hab⟩ := List.append_of_mem he
    rw [hab, List.flatMap_append, List.flatMap_cons]
    have : Occurs p (line (paint env (cs! "1;31") (cs! "Error") ++ cs! ": " ++ errShown env p e)) := by
      have h1 : Occurs p (errShown env p e) := by
        cases e with
        | read => exact ⟨cs! "Failed to read file: ", [], by simp [errShown, errChain]⟩
        | write => exact ⟨cs! "Failed to write file: ", [], by simp [errShown, errChain]⟩
        | parse => exact ⟨cs! "Failed to parse ", cs! " due to syntax errors.", by simp [errShown, errChain]⟩
        | lint => exact ⟨cs! "Failed to get checks for file: ", [], by simp [errShown, errChain]⟩
        | vcs => exact absurd rfl hv.1
        | panic => exact absurd rfl hv.2
      exact occurs_mono h1
    rw [← List.append_assoc]
    exact occurs_mono this
  rw [checkOutput_reporting h ho] at hs
  cases hx : emit env args.format o.diagnostics o.errors with
  | none => rw [hx] at hs; cases hs
  | some t =>
    rw [hx] at hs
    have hh : args.format.human = true := by rcases hf with e | e <;> rw [e] <;> rfl
    simp only [hh, if_true] at hs
    cases hs
    show Occurs p t.err
    rcases hf with hf | hf
    · rw [hf] at hx
      have hx' : emitFull env o.diagnostics o.errors = some t := hx
      unfold emitFull at hx'
      cases ha : emitAll (fullBlock env) o.diagnostics with
      | none => rw [ha] at hx'; cases hx'
      | some q =>
        rw [ha] at hx'
        cases hx'
        have := occurs_mono (a := []) (b := (if !o.errors.isEmpty && !o.diagnostics.isEmpty then ['\n'] else []) ++
          fullWarnings env o.diagnostics) hl
        simpa using this
    · rw [hf] at hx
      have hx' : emitConcise env o.diagnostics o.errors = some t := hx
      unfold emitConcise at hx'
      cases ha : emitAll (conciseLine env) o.diagnostics with
      | none => rw [ha] at hx'; cases hx'
      | some q => rw [ha] at hx'; cases hx'; exact hl

/-- **F34, false for GitHub.** If all files failed, nothing at all is printed, although the exit status is that of an
error. -/
theorem C59_false_errors {env : OutEnv} {order : List (Str × Nat × Bool) → List (Str × Nat × Bool)} {args : OutArgs}
    {items : List ResolvedItem} {rs : FileResults} (h : Reporting args rs) (hf : args.format = .github)
    (hr : ∀ r ∈ rs, Failed r) :
    ∃ o, cliReport args.toCheckArgs items rs = .ok o ∧ o.status = .error ∧
      checkOutput env order args items rs = some ⟨[], []⟩ := by
  have hd : allDiagnostics rs = [] := by
    unfold allDiagnostics
    rw [List.filterMap_eq_nil_iff]
    intro r hx
    obtain ⟨e, he⟩ := hr r hx
    simp [he]
  have he : (allErrors rs).isEmpty = false := by
    rw [allErrors_isEmpty]
    cases rs with
    | nil => exact absurd rfl h.1
    | cons r l => exact ⟨r, by simp, hr r (by simp)⟩
  have hflat : flatSorted (hideUnused args.toCheckArgs items []) = [] := by
    unfold hideUnused flatSorted
    split <;> simp
  have ho : cliReport args.toCheckArgs items rs = .ok ⟨.error, allErrors rs, []⟩ := by
    unfold cliReport
    simp [h.2.1, h.2.2, hd, he, hflat]
  refine ⟨_, ho, rfl, ?_⟩
  rw [checkOutput_reporting h ho, hf]
  rfl

/-! ### Examples -/

/-- No colours, in the directory `/home/me`. -/
def plainEnv : OutEnv where
  noColor := true
  colors := false
  cwd := cs! "/home/me"
  read _ := .error (cs! "No such file")
  render _ _ _ _ _ := []
  hint := 15
  detail _ _ := cs! "?"

/-- The same with its output in a pipe: `NO_COLOR` is not set. -/
def pipedEnv : OutEnv := { plainEnv with noColor := false }

def exOut (file : Str) : Diagnostic where
  name := cs! "any_is_na"
  body := cs! "`any(is.na(...))` is inefficient."
  suggestion := some (cs! "Use `anyNA(...)` instead.")
  filename := file
  range := ⟨5, 18⟩
  location := some (2, 4)
  fix := ⟨cs! "anyNA(x)", 5, 18, false⟩

/-- A comment of the kind that has a suggestion with line breaks. -/
def exChunk : Diagnostic :=
  { Diagnostic.new (cs! "invalid_chunk_suppression") (cs! "This `jarl-ignore-chunk` comment is wrongly formatted.")
      (some (cs! "Use the YAML array form instead:\n#| jarl-ignore-chunk:\n#|   - <rule>: <reason>")) ⟨5, 18⟩ .empty with
    filename := cs! "a.Rmd", location := some (2, 4) }

theorem occurs_dec {p s : Str} (h : containsSub p s = false) : ¬ Occurs p s := by
  rintro ⟨a, b, e⟩
  rw [containsSub_iff.mpr ⟨a, b, e⟩] at h
  cases h

theorem exOut_concise : Concise plainEnv.cwd (exOut (cs! "R/a.R")) :=
  ⟨by decide, ⟨.anyIsNa, by decide +kernel⟩, by decide +kernel, by decide, occurs_dec (by decide), by decide⟩

theorem exOut_safe : GithubSafe (exOut (cs! "R/a.R")) :=
  ⟨by decide, ⟨.anyIsNa, by decide +kernel⟩, ⟨⟨by decide, by decide⟩, by decide, by decide, occurs_dec (by decide)⟩,
    ⟨by decide +kernel, by decide +kernel⟩,
    ⟨occurs_dec (by decide +kernel), occurs_dec (by decide +kernel), occurs_dec (by decide +kernel)⟩⟩

/-- The conditions of C58, C59 and C60 are met by a run with a diagnostic and an error. -/
def exPrinted : FileResults := [(cs! "R/a.R", .ok [exOut (cs! "R/a.R")]), (cs! "b.R", .error .parse)]

theorem exReport (f : OutputFormat) :
    Reporting { format := f } exPrinted ∧
    cliReport ({ format := f } : OutArgs).toCheckArgs [] exPrinted =
      .ok ⟨.error, [(cs! "b.R", .parse)], [exOut (cs! "R/a.R")]⟩ := by
  constructor
  · exact ⟨by simp [exPrinted], rfl, rfl⟩
  · simp [cliReport, exPrinted, allDiagnostics, allErrors, hideUnused, unusedHidden, explicitlySelected, thresholdIgnore,
      unusedCount, flatSorted]
    decide +kernel

example (order) : ∃ out err ls rest, checkOutput plainEnv order { format := .concise } [] exPrinted = some ⟨out, err⟩ ∧
    splitOn '\n' out = ls ++ rest ∧ ls.length = 1 ∧ (∀ x ∈ ls.zip [exOut (cs! "R/a.R")], ShowsLine plainEnv.cwd x.1 x.2) ∧
    ([exOut (cs! "R/a.R")] ≠ [] → rest.head? = some []) :=
  C58_concise (exReport .concise).1 rfl (exReport .concise).2 rfl rfl
    (fun d hd => by rw [List.mem_singleton.mp hd]; exact exOut_concise)

example (order) : ∃ out, checkOutput plainEnv order { format := .github } [] exPrinted = some ⟨out, []⟩ ∧
    commands out = [annotation (exOut (cs! "R/a.R")) 2 5 (cs! "`any(is.na(...))` is inefficient. Use `anyNA(...)` instead.")] :=
  C59_github (exReport .github).1 rfl (exReport .github).2 (fun d hd => by rw [List.mem_singleton.mp hd]; exact exOut_safe)

example (order) : ∃ out, checkOutput plainEnv order { format := .json } [] exPrinted = some ⟨out, []⟩ ∧
    readReport out = some ([exOut (cs! "R/a.R")],
      [(cs! "b.R", cs! "Failed to get checks for file: b.R: Failed to parse b.R due to syntax errors.")]) :=
  C60_json (exReport .json).1 rfl (exReport .json).2

example : emit plainEnv .concise [exOut (cs! "R/a.R")] [] =
    some ⟨cs! "R/a.R [2:5] any_is_na `any(is.na(...))` is inefficient. Use `anyNA(...)` instead.\n", []⟩ := by decide +kernel

/-! ### What is false without the conditions -/

/-- **F35.** The comments with a wrong `jarl-ignore-chunk` are reported with a suggestion of three lines. -/
theorem C58_false_lines {rules : List Rule} {m : Manager} {exprs unreach : List Diagnostic}
    {dups unused : List (Str × Range × Str)} (hr : .invalidChunkSuppression ∈ rules) (hm : m.invalidChunk ≠ []) :
    ∃ d ∈ rawDiagnostics rules m exprs unreach dups unused, OfRule d ∧ '\n' ∈ explanation d := by
  cases e : m.invalidChunk with
  | nil => exact absurd e hm
  | cons rg l =>
    have hd : Diagnostic.new Rule.invalidChunkSuppression.name (cs! "This `jarl-ignore-chunk` comment is wrongly formatted.")
        (some (cs! "Use the YAML array form instead:\n#| jarl-ignore-chunk:\n#|   - <rule>: <reason>")) rg .empty ∈
        rawDiagnostics rules m exprs unreach dups unused := by
      unfold rawDiagnostics
      simp only [List.mem_append]
      iterate 8 (apply Or.inl)
      apply Or.inr
      unfold gate
      rw [if_pos hr, e]
      exact List.mem_cons_self
    refine ⟨_, hd, ⟨.invalidChunkSuppression, rfl⟩, ?_⟩
    simp [explanation, Diagnostic.new]

/-- **F35.** In the concise format such a diagnostic takes three lines, the first with a part of its text. -/
theorem C58_false_one_line : (emit plainEnv .concise [exChunk] []).map (fun s => (splitOn '\n' s.out).map readConcise) =
    some [some ⟨cs! "a.Rmd", 2, 5, cs! "invalid_chunk_suppression",
      cs! "This `jarl-ignore-chunk` comment is wrongly formatted. Use the YAML array form instead:"⟩, none, none, none] := by
  decide +kernel

/-- **F35.** GitHub shows the first line of its text. -/
theorem C59_false_one_line : (emit plainEnv .github [exChunk] []).map (fun s => (commands s.out).map Command.data) =
    some [cs! "a.Rmd:2:5 [invalid_chunk_suppression] This `jarl-ignore-chunk` comment is wrongly formatted. Use the YAML array form instead:"] := by
  decide +kernel

/-- **F36.** The runner reads another file name if there is a comma in it. -/
theorem C59_false_comma : (emit plainEnv .github [exOut (cs! "R/a,b.R")] []).map (fun s =>
    (commands s.out).map (fun c => c.props.lookup (cs! "file"))) = some [some (cs! "R/a")] := by
  decide +kernel

/-- **F36.** With `::` in the file name, the row is lost too. -/
theorem C59_false_colons : (emit plainEnv .github [exOut (cs! "R/a::b.R")] []).map (fun s =>
    (commands s.out).map (fun c => (c.props.lookup (cs! "file"), c.props.lookup (cs! "line")))) =
    some [(some (cs! "R/a"), none)] := by
  decide +kernel

/-- **F37.** Without `NO_COLOR` the rule is wrapped in the escape sequences of a link even if nothing else is coloured,
for instance in a pipe: what is read is not a rule of jarl. -/
theorem C58_false_link : (emit pipedEnv .concise [exOut (cs! "R/a.R")] []).map (fun s =>
    (splitOn '\n' s.out).map (fun l => (readConcise l).map (fun x => Rule.fromName x.rule))) = some [some none, none] := by
  decide +kernel

/-- **F38.** The titles of the sections are not 57 characters wide, as documented, but 49: the width is counted in bytes. -/
theorem C61_false_width : (sectionHeader (cs! "Summary")).length = 49 + 1 ∧ (sectionHeader (cs! "Notes")).length = 49 + 1 := by
  decide +kernel

end Jarl
