import Verif.Props.RunEditor
import Verif.Props.RunExamples
/-!
# C73: concrete cases, and where the editor and the command line differ
-/
namespace Jarl
open Spec

/-- The number of reports the editor shows. -/
def shownCount : LspRes (List LspDiag) → Option Nat
  | .ok l => some l.length
  | _ => none

/-! ## A case of the theorem -/

def twoEditorOrder : PkgOrder := ⟨[[cs! "p"]], [[cs! "p", cs! "R"]], [[cs! "p", cs! "R"]]⟩

theorem two_editor {f : DPath} (h : f = fA ∨ f = fB) : PossibleEditor twoWorld f twoEditorOrder := by
  intro s cfg paths _ hp
  have hpaths : paths = [fA, fB] := by
    rcases h with rfl | rfl <;> exact (Option.some.inj hp).symm
  subst hpaths
  generalize hb : decide (Rule.unusedFunction ∈ cfg.rulesToApply) = b
  refine ⟨?_, ?_, ?_⟩
  · have : packageRoots twoWorld.pkgFs [fA, fB] = [[cs! "p"]] := by decide +kernel
    rw [this]
    exact ⟨by decide, fun _ => Iff.rfl⟩
  · rw [hb]
    refine enumerates_list (P := fun f : SharedFile => f.scope = .r) (key := (·.rootKey)) (show List.Nodup [_] by simp) ?_ ?_
    · cases b <;> decide +kernel
    · cases b <;> decide +kernel
  · refine ⟨by decide, fun k => ?_⟩
    have h1 : ∀ f ∈ sharedData twoWorld.alnum true twoWorld.pkgFs [[cs! "p"]] [fA, fB], f.rootKey = [cs! "p", cs! "R"] := by decide +kernel
    have h2 : ∃ f ∈ sharedData twoWorld.alnum true twoWorld.pkgFs [[cs! "p"]] [fA, fB], f.rootKey = [cs! "p", cs! "R"] := by decide +kernel
    constructor
    · intro hk
      have : k = [cs! "p", cs! "R"] := by simpa [twoEditorOrder] using hk
      rw [this]; exact h2
    · rintro ⟨f, hf, rfl⟩
      rw [h1 f hf]; simp [twoEditorOrder]

theorem two_descriptions {d : DPath} (h : HasDescription twoWorld d) : d = [cs! "p"] ∨ d = [cs! "q"] := by
  obtain ⟨t, ht⟩ := h
  have := mem_allPaths (fsOk_ok twoTree (by decide +kernel)) ht []
  have hall : ∀ q ∈ allPaths [] twoTree, q.getLast? = some (cs! "DESCRIPTION") → q.dropLast = [cs! "p"] ∨ q.dropLast = [cs! "q"] := by decide +kernel
  have := hall _ this (by simp)
  simpa using this

/-- **C73**, a concrete case: for `p/R/b.R`, which redefines a function of `p/R/a.R` and has an unused function, all hypotheses are met. -/
theorem C73_example (enc : Enc) : ∃ out, runCheck twoWorld twoArgs twoOrder1 = .ok out ∧
    ((∃ e, (cs! "p/R/b.R", e) ∈ out.errors ∧
      (editorLint twoWorld twoEditorOrder fB (cs! "foo <- function() 2\nbar <- function() 3\n") enc = .err ∨
       editorLint twoWorld twoEditorOrder fB (cs! "foo <- function() 2\nbar <- function() 3\n") enc = .panic)) ∨
    ∃ shown, (WithoutUnused shown).Perm (WithoutUnused (ForFile (cs! "p/R/b.R") out.diagnostics)) ∧
      ((∀ d ∈ shown, CutsAt (cs! "foo <- function() 2\nbar <- function() 3\n") d.range.start d.range.stop) →
        ∃ ls, editorLint twoWorld twoEditorOrder fB (cs! "foo <- function() 2\nbar <- function() 3\n") enc = .ok ls ∧
          Each (Shows enc (cs! "foo <- function() 2\nbar <- function() 3\n")) shown ls)) := by
  cases hrun : runCheck twoWorld twoArgs twoOrder1 with
  | error e =>
    have : (runCheck twoWorld twoArgs twoOrder1).toOption.isSome = true := by decide +kernel
    rw [hrun] at this; cases this
  | ok out =>
    refine ⟨out, rfl, ?_⟩
    have hrel : relText twoWorld.cwd fB = cs! "p/R/b.R" := by decide +kernel
    have hsome : ∀ d ∈ [[cs! "p", cs! "R"], [cs! "p", cs! "tests"], [cs! "q", cs! "R"]],
        twoWorld.exists (d ++ [cs! "DESCRIPTION"]) = false := by decide +kernel
    have := C73_editor_partial two_ok two_apart (a := twoArgs) two_separate rfl rfl rfl two_discovered two_run1 hrun
      (f := fB) (by
        rw [two_found]
        intro g hg hd
        have hd := exists_iff.mpr hd
        simp only [List.mem_cons, List.not_mem_nil, or_false] at hg
        rcases hg with rfl | rfl | rfl | rfl
        · rw [hsome _ (by simp [fA])] at hd; cases hd
        · rw [hsome _ (by simp [fB])] at hd; cases hd
        · rw [hsome _ (by simp [fT])] at hd; cases hd
        · rw [hsome _ (by simp [fC])] at hd; cases hd)
      (by rw [two_found]; simp)
      ⟨⟨[cs! "p"], by simp [twoArgs], ⟨⟨[cs! "R", cs! "b.R"], rfl⟩, by
          intro e h1 _ _ ht
          exfalso
          apply ht
          show (if e = [cs! "q"] then _ else none) = none
          rw [if_neg]
          rintro rfl
          revert h1
          decide⟩, fun c hc => (by cases hc)⟩, fun c hc => (by cases hc), .inr rfl⟩
      (.package [cs! "p"] (cs! "b.R") rfl (.inl ⟨[cs! "p", cs! "R"], cs! "b", rfl, by decide, by decide⟩) ⟨.file, rfl⟩ (by
        intro r' hr' hpre
        rcases two_descriptions hr' with h | h
        · exact h
        · rw [h] at hpre; exact absurd hpre (by decide)))
      (s := none) rfl rfl rfl (two_editor (.inr rfl)) enc
    rw [hrel] at this
    rcases this with h | ⟨shown, h1, _, h3⟩
    · exact .inl h
    · exact .inr ⟨shown, h1, h3⟩

/-! ## Where they differ -/

/-- Only `unused_function`, by name. -/
def onlyUnused : JarlSettings := { defaultSettings with linter := { defaultSettings.linter with select := some [cs! "unused_function"] } }

def testsWorld : FileWorld := listWorld (.dir [(cs! "p", .dir [(cs! "DESCRIPTION", .file), (cs! "NAMESPACE", .file), (cs! "jarl.toml", .file),
    (cs! "R", .dir [(cs! "a.R", .file)]), (cs! "tests", .dir [(cs! "t.R", .file)])])]) [
  ([cs! "p", cs! "DESCRIPTION"], cs! "Package: p\n"),
  ([cs! "p", cs! "NAMESPACE"], cs! "export(foo)\n"),
  ([cs! "p", cs! "R", cs! "a.R"], cs! "foo <- function() 1\n"),
  ([cs! "p", cs! "tests", cs! "t.R"], cs! "helper <- function() 2\n")]
  (fun d => if d = [cs! "p"] then some (some onlyUnused) else none) .anyIsNa

def testsOrder : RunOrder where
  files := [fA, fT]
  groups := [(some [cs! "p"], [fA, fT])]
  pkg _ := twoEditorOrder

/-- **C73 fails** for tests: `jarl check p` reports the unused function of `p/tests/t.R`; in the editor no file has a report. -/
theorem C73_false_tests :
    foundFiles testsWorld { paths := [[cs! "p"]] } [([cs! "p"], onlyUnused)] = [fA, fT] ∧
    (runCheck testsWorld { paths := [[cs! "p"]] } testsOrder).toOption.map (·.status) = some .failure ∧
    shownCount (editorLint testsWorld twoEditorOrder fT (cs! "helper <- function() 2\n") .utf16) = some 0 ∧
    shownCount (editorLint testsWorld twoEditorOrder fA (cs! "foo <- function() 1\n") .utf16) = some 0 := by decide +kernel

/-- The group of the rule, not its name, and at most one report. -/
def fewUnused : JarlSettings := { defaultSettings with
  linter := { defaultSettings.linter with extendSelect := some [cs! "CORR"], ignore := some [cs! "duplicated_function_definition"] }, threshold := 1 }

def thresholdWorld : FileWorld := listWorld (.dir [(cs! "jarl.toml", .file),
    (cs! "p", .dir [(cs! "DESCRIPTION", .file), (cs! "NAMESPACE", .file), (cs! "R", .dir [(cs! "a.R", .file)])]),
    (cs! "q", .dir [(cs! "DESCRIPTION", .file), (cs! "NAMESPACE", .file), (cs! "R", .dir [(cs! "c.R", .file)])])]) [
  ([cs! "p", cs! "DESCRIPTION"], cs! "Package: p\n"),
  ([cs! "p", cs! "NAMESPACE"], cs! "\n"),
  ([cs! "p", cs! "R", cs! "a.R"], cs! "foo <- function() 1\n"),
  ([cs! "q", cs! "DESCRIPTION"], cs! "Package: q\n"),
  ([cs! "q", cs! "NAMESPACE"], cs! "\n"),
  ([cs! "q", cs! "R", cs! "c.R"], cs! "bar <- function() 1\n")]
  (fun d => if d = [] then some (some fewUnused) else none) .grepv

def thresholdOrder : RunOrder where
  files := [fA, fC]
  groups := [(some [], [fA, fC])]
  pkg _ := ⟨[[cs! "p"], [cs! "q"]], [[cs! "p", cs! "R"], [cs! "q", cs! "R"]], [[cs! "p", cs! "R"], [cs! "q", cs! "R"]]⟩


/-- **C73 fails** for `unused_function` when it is not named: the command line counts the reports of all packages, the editor those of one package; so
each of two packages has a report in the editor, and `jarl check` prints nothing. -/
theorem C73_false_threshold :
    foundFiles thresholdWorld { paths := [[]] } [([], fewUnused)] = [fA, fC] ∧
    (runCheck thresholdWorld { paths := [[]] } thresholdOrder).toOption.map (·.status) = some .success ∧
    shownCount (editorLint thresholdWorld twoEditorOrder fA (cs! "foo <- function() 1\n") .utf16) = some 1 := by decide +kernel

/-! ## The threshold of the editor -/

def manyWorld : FileWorld := listWorld (.dir [(cs! "jarl.toml", .file),
    (cs! "p", .dir [(cs! "DESCRIPTION", .file), (cs! "NAMESPACE", .file), (cs! "R", .dir [(cs! "a.R", .file), (cs! "b.R", .file)])])]) [
  ([cs! "p", cs! "DESCRIPTION"], cs! "Package: p\n"),
  ([cs! "p", cs! "NAMESPACE"], cs! "\n"),
  ([cs! "p", cs! "R", cs! "a.R"], cs! "foo <- function() 1\n"),
  ([cs! "p", cs! "R", cs! "b.R"], cs! "bar <- function() 1\n")]
  (fun d => if d = [] then some (some fewUnused) else none) .grepv

def getOk {ε α} [Inhabited α] : Except ε α → α
  | .ok a => a
  | .error _ => default

theorem eq_ok_getOk {ε α} [Inhabited α] {x : Except ε α} (h : x.toOption.isSome = true) : x = .ok (getOk x) := by
  cases x with
  | ok _ => rfl
  | error _ => cases h

instance : Inhabited Config := ⟨⟨[], [], false, false, none, false, false, [], none, .arrow⟩⟩

/-- The configuration and the reports of `p/R/a.R`. -/
def manyCfg : Config := getOk (configOf manyWorld {} (some fewUnused) [fA])
def manyReports : List Diagnostic :=
  getOk (getChecks (manyWorld.lints fewUnused) (analysisOf manyWorld fewUnused manyCfg twoEditorOrder [fA, fB] fA) manyCfg (relText manyWorld.cwd fA)
      (cs! "foo <- function() 1\n"))

/-- There is a list of the files with reports of `unused_function`. -/
theorem exists_enum {w : FileWorld} {s : JarlSettings} {cfg : Config} {o : PkgOrder} {paths : List DPath} :
    ∃ l, Enumerates l (fun p => (analysisOf w s cfg o paths p).unused [] ≠ []) := by
  refine ⟨(((unusedMap w s cfg o paths).map MapOp.path).eraseDups).filter (fun p => !((analysisOf w s cfg o paths p).unused []).isEmpty),
    List.Nodup.sublist List.filter_sublist (mem_eraseDups_nodup _ _ (Nat.le_refl _)), ?_⟩
  intro p
  rw [List.mem_filter, List.mem_eraseDups]
  constructor
  · rintro ⟨_, h⟩ e
    rw [e] at h; cases h
  · intro h
    refine ⟨?_, by
      cases hu : (analysisOf w s cfg o paths p).unused [] with
      | nil => exact absurd hu h
      | cons _ _ => rfl⟩
    apply Classical.byContradiction
    intro hno
    apply h
    have : entryAfter p (unusedMap w s cfg o paths) = [] := by
      rw [entryAfter_filter]
      have : (unusedMap w s cfg o paths).filter (fun op => op.path = p) = [] := by
        rw [List.filter_eq_nil_iff]
        intro op hop he
        exact hno (List.mem_map.mpr ⟨op, hop, by simpa using he⟩)
      rw [this]; rfl
    simp [analysisOf, this]

/-- **C73** (what the editor hides), a concrete case: two files of a package have one unused function each, `threshold-ignore` is 1, so the report of the open
file, `p/R/a.R`, is hidden; all hypotheses of `C73_editor_hides` are met. -/
theorem C73_hides_example : manyReports.length = 1 ∧
    editorLint manyWorld twoEditorOrder fA (cs! "foo <- function() 1\n") .utf16 = .ok [] := by
  refine ⟨by decide +kernel, ?_⟩
  obtain ⟨l, hl⟩ := exists_enum (w := manyWorld) (s := fewUnused) (cfg := manyCfg) (o := twoEditorOrder) (paths := [fA, fB])
  have htot := editorTotal (f := fA) (by decide +kernel : siblingRFiles manyWorld fA = some [fA, fB]) hl
  have h2 : (editorAnalysis manyWorld fewUnused manyCfg twoEditorOrder fA).2 = 2 := by decide +kernel
  have hrange : manyReports.map (fun d => (d.range.start, d.range.stop)) = [(0, 3)] := by decide +kernel
  have hw : WithoutUnused manyReports = [] := by
    have : ∀ d ∈ manyReports, d.name = cs! "unused_function" := by decide +kernel
    exact List.filter_eq_nil_iff.mpr (fun d hd => by simp [this d hd])
  obtain ⟨xs, hx, _, hhide⟩ := C73_editor_hides (w := manyWorld) (f := fA) (s := some fewUnused) (cfg := manyCfg) (paths := [fA, fB]) (o := twoEditorOrder)
    (content := cs! "foo <- function() 1\n") (enc := .utf16)
    (by
      unfold editorConfig
      have : editorSettings manyWorld.configFs fA = some (some fewUnused) := rfl
      rw [this]
      simp only [Option.some.injEq, Prod.mk.injEq, true_and]
      exact eq_ok_getOk (by decide +kernel))
    (by decide +kernel) (by decide +kernel) (ds := manyReports)
    (eq_ok_getOk (by decide +kernel))
    (by
      intro d hd
      have := List.mem_map_of_mem (f := fun d : Diagnostic => (d.range.start, d.range.stop)) hd
      rw [hrange] at this
      simp only [List.mem_singleton, Prod.mk.injEq] at this
      exact ⟨[], cs! "foo", cs! " <- function() 1\n", rfl, this.1, this.2⟩)
    (t := 1) (.inr ⟨_, rfl, rfl⟩) hl
  have := hhide ⟨by
    rintro ⟨x, l, hx, h, hl⟩
    have hx := Option.some.inj hx
    subst hx
    rcases h with h | h
    · cases h
    · have : l = [cs! "CORR"] := (Option.some.inj h).symm
      subst this
      revert hl
      decide, by
    show 1 < (l.map (fun p => ((analysisOf manyWorld fewUnused manyCfg twoEditorOrder [fA, fB] p).unused []).length)).sum
    rw [← htot, h2]; decide⟩
  rw [hw] at this
  cases this
  exact hx

end Jarl
