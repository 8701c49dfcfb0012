import Verif.Props.RunRefused
import Verif.Props.RunExamples
/-!
# C74: concrete runs that fix files
-/
namespace Jarl
open Spec

/-- Lints that report an `x` at the start of a text, with the fix `y`. -/
def fixLints : Lints where
  parse s := some ⟨.mk ⟨0, blen s⟩ false [] [] [] [], some s⟩
  expressions inp s := .ok (match s with
    | 'x' :: _ => if Rule.anyDuplicated ∈ inp.ruleSet then [Diagnostic.new Rule.anyDuplicated.name [] none ⟨0, 1⟩ ⟨cs! "y", 0, 1, false⟩] else []
    | _ => [])
  unreachable _ _ := .ok []

def oneRule : JarlSettings := { defaultSettings with linter := { defaultSettings.linter with select := some [cs! "any_duplicated"] } }
def badRule : JarlSettings := { defaultSettings with linter := { defaultSettings.linter with select := some [cs! "no_such_rule"] } }

def gA : DPath := [cs! "p", cs! "a.R"]
def gC : DPath := [cs! "q", cs! "c.R"]
def gD : DPath := [cs! "q", cs! "d.Rmd"]

/-- Two directories with their own jarl.toml; `q`: the settings of the second. -/
def fixWorld (q : JarlSettings) : FileWorld := { listWorld (.dir [
    (cs! "p", .dir [(cs! "jarl.toml", .file), (cs! "a.R", .file)]),
    (cs! "q", .dir [(cs! "jarl.toml", .file), (cs! "c.R", .file), (cs! "d.Rmd", .file)])]) [
  (gA, cs! "x\n"), (gC, cs! "x\nx\n"), (gD, cs! "```{r}\nx\n```\n")]
  (fun d => if d = [cs! "p"] then some (some oneRule) else if d = [cs! "q"] then some (some q) else none) .anyDuplicated
  with lints := fun _ => fixLints }

def fixArgs : RunArgs := { paths := [[cs! "p"], [cs! "q"]], config := { fix := true } }
def fixItems (q : JarlSettings) : List (DPath × JarlSettings) := [([cs! "p"], oneRule), ([cs! "q"], q)]

def fixOrder1 : RunOrder where
  files := [gA, gC, gD]
  groups := [(some [cs! "p"], [gA]), (some [cs! "q"], [gC, gD])]
  pkg _ := ⟨[], [], []⟩

def fixOrder2 : RunOrder where
  files := [gA, gC, gD]
  groups := [(some [cs! "q"], [gC, gD]), (some [cs! "p"], [gA])]
  pkg _ := ⟨[], [], []⟩

/-- One repository; a file is unchanged if it has the text that was committed. -/
def committed (t0 : DPath → Option Str) : GitOn := fun t =>
  ⟨fun _ => some [], fun _ => some [(some (cs! "p/a.R"), t gA = t0 gA), (some (cs! "q/c.R"), t gC = t0 gC), (some (cs! "q/d.Rmd"), t gD = t0 gD)]⟩

/-- Only `p` is in a repository. -/
def onlyP : GitOn := fun _ => ⟨fun n => if n = cs! "p/a.R" then some [] else none, fun _ => some []⟩

theorem fix_discovered (q : JarlSettings) : discoverSettings (fixWorld q).configFs fixArgs.paths = some (fixItems q) := by rfl

theorem fix_found : foundFiles (fixWorld oneRule) fixArgs (fixItems oneRule) = [gA, gC, gD] := by decide +kernel

/-- What is printed, without the diagnostics. -/
def statusAndErrors (r : Option (Except Unit CliOut)) : Option (Option (ExitStatus × List (Str × CheckErr))) :=
  r.map (fun r => match r with
    | .ok o => some (o.status, o.errors)
    | .error _ => none)

theorem fix_order1 : PossibleOrder (fixWorld oneRule) fixArgs (fixItems oneRule) fixOrder1 where
  files := by rw [fix_found]; exact .refl _
  groups := by
    have : groupFiles (fixItems oneRule) fixOrder1.files = fixOrder1.groups := by decide +kernel
    rw [this]

theorem fix_order2 : PossibleOrder (fixWorld oneRule) fixArgs (fixItems oneRule) fixOrder2 where
  files := by rw [fix_found]; exact .refl _
  groups := by
    have : groupFiles (fixItems oneRule) fixOrder2.files = fixOrder1.groups := by decide +kernel
    rw [this]
    exact .swap _ _ _

/-! ## Where the claims fail -/

/-- **C75 fails** in a project with two configuration files. Everything is committed, so git allows all files to be fixed. The files of one configuration are fixed;
now the repository is dirty, and jarl refuses to check the files of the other one: "… uncommitted changes, so no fixes were applied". The hash map decides which. -/
theorem C75_false_own_changes :
    (∀ cfg, VcsAllows (committed (fixWorld oneRule).text (fixWorld oneRule).text) cfg [cs! "p/a.R", cs! "q/c.R", cs! "q/d.Rmd"]) ∧
    (let r := runFix (fixWorld oneRule) (committed (fixWorld oneRule).text) fixArgs fixOrder1 (fun _ => Io.good) 3
     r.1 gA = some (cs! "y\n") ∧ r.1 gC = some (cs! "x\nx\n") ∧ statusAndErrors r.2 = some (some (.error, [(cs! "q/c.R", .vcs)]))) ∧
    (let r := runFix (fixWorld oneRule) (committed (fixWorld oneRule).text) fixArgs fixOrder2 (fun _ => Io.good) 3
     r.1 gA = some (cs! "x\n") ∧ r.1 gC = some (cs! "y\nx\n") ∧ statusAndErrors r.2 = some (some (.error, [(cs! "p/a.R", .vcs)]))) := by
  refine ⟨?_, by decide +kernel, by decide +kernel⟩
  intro cfg
  refine .inr ⟨fun _ _ => ⟨[], rfl⟩, .inr (fun n _ r hr => ?_)⟩
  refine ⟨_, rfl, ?_⟩
  intro e he _
  simp only [List.mem_cons, List.not_mem_nil, or_false] at he
  rcases he with rfl | rfl | rfl <;> simp

/-- **C75 fails** for files of another configuration that are in no repository: `p/a.R` is fixed although jarl reports for `q/c.R` that no version control was found
"so no fixes were applied". -/
theorem C75_false_uncovered :
    (∀ cfg, cfg.allowNoVcs = false → ¬ VcsAllows (onlyP (fixWorld oneRule).text) cfg [cs! "p/a.R", cs! "q/c.R", cs! "q/d.Rmd"]) ∧
    (let r := runFix (fixWorld oneRule) onlyP fixArgs fixOrder1 (fun _ => Io.good) 3
     r.1 gA = some (cs! "y\n") ∧ statusAndErrors r.2 = some (some (.error, [(cs! "q/c.R", .vcs)]))) := by
  refine ⟨?_, by decide +kernel⟩
  rintro cfg h (h' | ⟨h', _⟩)
  · rw [h] at h'; cases h'
  · obtain ⟨r, hr⟩ := h' (cs! "q/c.R") (by simp)
    revert hr
    show ¬ (if cs! "q/c.R" = cs! "p/a.R" then some [] else none) = some r
    rw [if_neg (by decide)]
    simp

/-- **C75 fails** if a configuration file is not valid (it names an unknown rule): the command ends with an error, but it may have fixed files before. -/
theorem C75_false_config :
    (let r := runFix (fixWorld badRule) (committed (fixWorld badRule).text) fixArgs fixOrder1 (fun _ => Io.good) 3
     r.1 gA = some (cs! "y\n") ∧ statusAndErrors r.2 = some none) ∧
    (let r := runFix (fixWorld badRule) (committed (fixWorld badRule).text) fixArgs fixOrder2 (fun _ => Io.good) 3
     r.1 gA = some (cs! "x\n") ∧ statusAndErrors r.2 = some none) := ⟨by decide +kernel, by decide +kernel⟩

/-! ## Cases of the theorems -/

def dirtyArgs : RunArgs := { fixArgs with config := { fix := true, allowDirty := true } }

theorem fix_ok : OkWorld (fixWorld oneRule) where
  tree := fsOk_ok _ (by decide +kernel)
  text p s hp := by
    have : OkWorld (listWorld (fixWorld oneRule).tree [(gA, cs! "x\n"), (gC, cs! "x\nx\n"), (gD, cs! "```{r}\nx\n```\n")] (fun _ => none) .anyDuplicated) :=
      listWorld_ok (by decide +kernel) (by
        intro e he
        simp only [List.mem_cons, List.not_mem_nil, or_false] at he
        rcases he with rfl | rfl | rfl <;> rfl)
    exact this.text p s hp
  order := pathLe_order

theorem fix_named : NoDescriptionNamed dirtyArgs := by
  unfold NoDescriptionNamed
  decide

theorem fix_plain : PlainConfigs (fixWorld oneRule) dirtyArgs (fixItems oneRule) := by
  intro f hf
  have hf : f ∈ [gA, gC, gD] := fix_found ▸ hf
  have h : ∀ f ∈ [gA, gC, gD], (configOf (fixWorld oneRule) dirtyArgs.config (settingsFor (fixItems oneRule) f)
      (sameConfig (fixItems oneRule) (foundFiles (fixWorld oneRule) dirtyArgs (fixItems oneRule)) f)).toOption.map (·.rulesToApply) = some [.anyDuplicated] := by decide +kernel
  have := h f hf
  cases hc : configOf (fixWorld oneRule) dirtyArgs.config (settingsFor (fixItems oneRule) f)
      (sameConfig (fixItems oneRule) (foundFiles (fixWorld oneRule) dirtyArgs (fixItems oneRule)) f) with
  | error e => rw [hc] at this; cases this
  | ok cfg =>
    rw [hc] at this
    have hr : cfg.rulesToApply = [.anyDuplicated] := by simpa [Except.toOption] using this
    exact ⟨cfg, hc, by rw [hr]; simp, by rw [hr]; simp⟩

theorem fix_version : OneVersion (fixWorld oneRule) dirtyArgs (foundFiles (fixWorld oneRule) dirtyArgs (fixItems oneRule)) := by
  have e : foundFiles (fixWorld oneRule) dirtyArgs (fixItems oneRule) = [gA, gC, gD] := fix_found
  rw [e]
  exact oneVersion_dir [] (by decide +kernel)

theorem fix_allowed : AlwaysAllowed (fixWorld oneRule) (committed (fixWorld oneRule).text) dirtyArgs (foundFiles (fixWorld oneRule) dirtyArgs (fixItems oneRule)) :=
  .inr ⟨rfl, fun _ _ _ => ⟨[], rfl⟩⟩

/-- **C74**, a concrete case: with `--allow-dirty` both files are fixed in both orders, the document is not, and the report is the same. -/
theorem C74_example : ∃ t r r', runFix (fixWorld oneRule) (committed (fixWorld oneRule).text) dirtyArgs fixOrder1 (fun _ => Io.good) 3 = (t, some r) ∧
    runFix (fixWorld oneRule) (committed (fixWorld oneRule).text) dirtyArgs fixOrder2 (fun _ => Io.good) 3 = (t, some r') ∧ SameReport r r' ∧
    t gA = some (cs! "y\n") ∧ t gC = some (cs! "y\nx\n") ∧ t gD = some (cs! "```{r}\nx\n```\n") := by
  cases h1 : runFix (fixWorld oneRule) (committed (fixWorld oneRule).text) dirtyArgs fixOrder1 (fun _ => Io.good) 3 with
  | mk t r =>
    cases h2 : runFix (fixWorld oneRule) (committed (fixWorld oneRule).text) dirtyArgs fixOrder2 (fun _ => Io.good) 3 with
    | mk t' r' =>
      have s1 : (runFix (fixWorld oneRule) (committed (fixWorld oneRule).text) dirtyArgs fixOrder1 (fun _ => Io.good) 3).2.isSome = true := by decide +kernel
      have s2 : (runFix (fixWorld oneRule) (committed (fixWorld oneRule).text) dirtyArgs fixOrder2 (fun _ => Io.good) 3).2.isSome = true := by decide +kernel
      rw [h1] at s1
      rw [h2] at s2
      cases r with
      | none => cases s1
      | some r =>
        cases r' with
        | none => cases s2
        | some r' =>
          obtain ⟨e, hr⟩ := C74_same_outcome fix_ok (a := dirtyArgs) ⟨by decide, by decide⟩ fix_named (fix_discovered oneRule) fix_version fix_plain
            (.inl fix_allowed) (o := fixOrder1) (o' := fixOrder2) ⟨fix_order1.files, fix_order1.groups⟩ ⟨fix_order2.files, fix_order2.groups⟩ h1 h2
          have e1 : (runFix (fixWorld oneRule) (committed (fixWorld oneRule).text) dirtyArgs fixOrder1 (fun _ => Io.good) 3).1 gA = some (cs! "y\n") := by decide +kernel
          have e2 : (runFix (fixWorld oneRule) (committed (fixWorld oneRule).text) dirtyArgs fixOrder1 (fun _ => Io.good) 3).1 gC = some (cs! "y\nx\n") := by decide +kernel
          have e3 : (runFix (fixWorld oneRule) (committed (fixWorld oneRule).text) dirtyArgs fixOrder1 (fun _ => Io.good) 3).1 gD = some (cs! "```{r}\nx\n```\n") := by decide +kernel
          rw [h1] at e1 e2 e3
          exact ⟨t, r, r', rfl, by rw [e], hr, e1, e2, e3⟩

/-- **C74** (the report is true), a concrete case: `jarl check` after the run prints the same report, with the order of the groups reversed. -/
theorem C74_recheck_example : ∃ t out, runFix (fixWorld oneRule) (committed (fixWorld oneRule).text) dirtyArgs fixOrder1 (fun _ => Io.good) 3 = (t, some (.ok out)) ∧
    out.status = .failure ∧ SameReport (.ok out) (runCheck { fixWorld oneRule with text := t } (WithoutFix dirtyArgs) fixOrder2) := by
  cases h1 : runFix (fixWorld oneRule) (committed (fixWorld oneRule).text) dirtyArgs fixOrder1 (fun _ => Io.good) 3 with
  | mk t r =>
    have s1 : statusAndErrors (runFix (fixWorld oneRule) (committed (fixWorld oneRule).text) dirtyArgs fixOrder1 (fun _ => Io.good) 3).2 = some (some (.failure, [])) := by
      decide +kernel
    rw [h1] at s1
    cases r with
    | none => cases s1
    | some r =>
      cases r with
      | error e => cases s1
      | ok out =>
        simp only [statusAndErrors, Option.map_some, Option.some.injEq, Prod.mk.injEq] at s1
        refine ⟨t, out, rfl, s1.1, ?_⟩
        refine C74_recheck fix_ok (a := dirtyArgs) ⟨by decide, by decide⟩ fix_named (fix_discovered oneRule) fix_version fix_plain (.inr (.inr ?_)) (.inl fix_allowed)
          ⟨fix_order1.files, fix_order1.groups⟩ ⟨fix_order2.files, fix_order2.groups⟩ h1 rfl rfl s1.2
        intro f hf cfg hc r hr
        have hf : f ∈ [gA, gC, gD] := fix_found ▸ hf
        have h : ∀ f ∈ [gA, gC, gD], (configOf (fixWorld oneRule) dirtyArgs.config (settingsFor (fixItems oneRule) f)
            (sameConfig (fixItems oneRule) (foundFiles (fixWorld oneRule) dirtyArgs (fixItems oneRule)) f)).toOption.map (·.rules) = some [.anyDuplicated] := by decide +kernel
        have := h f hf
        unfold ConfigFor at hc
        rw [hc] at this
        have hrs : cfg.rules = [.anyDuplicated] := by simpa [Except.toOption] using this
        rw [hrs, List.mem_singleton] at hr
        rw [hr]; rfl

/-- Some file of the repository has been changed. -/
def dirtyRepo : GitOn := fun _ => ⟨fun _ => some [], fun _ => some [(some (cs! "z.R"), false)]⟩

/-- **C75** (refused), a concrete case: the repository has uncommitted changes. -/
theorem C75_refused_example : ∃ out, runFix (fixWorld oneRule) dirtyRepo fixArgs fixOrder1 (fun _ => Io.good) 3 = ((fixWorld oneRule).text, some (.ok out)) ∧
    out.status = .error ∧ out.diagnostics = [] := by
  obtain ⟨out, h1, h2, h3, _⟩ := C75_refused_partial fix_ok (git := dirtyRepo) (a := fixArgs) (fix_discovered oneRule) fix_version fix_order1 (.inl rfl) rfl rfl
    (by rw [fix_found]; simp) (by
      intro f hf
      have hf : f ∈ [gA, gC, gD] := fix_found ▸ hf
      have h : ∀ f ∈ [gA, gC, gD], (configOf (fixWorld oneRule) fixArgs.config (settingsFor (fixItems oneRule) f)
          (sameConfig (fixItems oneRule) (foundFiles (fixWorld oneRule) fixArgs (fixItems oneRule)) f)).toOption.map (fun c => (c.allowNoVcs, c.allowDirty)) = some (false, false) := by
        decide +kernel
      have := h f hf
      cases hc : configOf (fixWorld oneRule) fixArgs.config (settingsFor (fixItems oneRule) f)
          (sameConfig (fixItems oneRule) (foundFiles (fixWorld oneRule) fixArgs (fixItems oneRule)) f) with
      | error e => rw [hc] at this; cases this
      | ok cfg =>
        rw [hc] at this
        simp only [Except.toOption, Option.map_some, Option.some.injEq, Prod.mk.injEq] at this
        refine ⟨cfg, hc, ?_⟩
        rintro (h | ⟨_, h | h⟩)
        · rw [this.1] at h; cases h
        · rw [this.2] at h; cases h
        · obtain ⟨entries, he, hall⟩ := h (relText (fixWorld oneRule).cwd f) (List.mem_map_of_mem (List.mem_filter.mpr ⟨fix_found ▸ hf, by simp⟩)) [] rfl
          cases he
          have := hall _ (List.mem_cons_self) rfl
          cases this) (io := fun _ => Io.good) (fuel := 3)
  exact ⟨out, h1, h2, h3⟩

/-- **C75** (changes are allowed), a concrete case: the run of `C75_false_own_changes`. `p/a.R` is changed; the repository was clean when git was asked for it. -/
theorem C75_changed_example : ∃ cfg t0, ConfigFor (fixWorld oneRule) fixArgs (fixItems oneRule) gA cfg ∧
    VcsAllows (committed (fixWorld oneRule).text t0) cfg [cs! "p/a.R"] := by
  obtain ⟨cfg, t0, h1, _, _, h4⟩ := C75_changed_partial fix_ok (git := committed (fixWorld oneRule).text) (a := fixArgs) fix_named (fix_discovered oneRule) fix_version fix_order1
    (io := fun _ => Io.good) (fuel := 3) (p := gA) (by decide +kernel)
  have e : (sameConfig (fixItems oneRule) (foundFiles (fixWorld oneRule) fixArgs (fixItems oneRule)) gA).map (relText (fixWorld oneRule).cwd) = [cs! "p/a.R"] := by
    decide +kernel
  exact ⟨cfg, t0, h1, e ▸ h4⟩

/-! ## A package -/

def pArgs : RunArgs := { paths := [[cs! "p"]], config := { fix := true, allowNoVcs := true, ignore := cs! "duplicated_function_definition" } }

def pOrder1 : RunOrder where
  files := [fA, fB, fT]
  groups := [(none, [fA, fB, fT])]
  pkg := twoOrder1.pkg

def pOrder2 : RunOrder where
  files := [fT, fB, fA]
  groups := [(none, [fT, fB, fA])]
  pkg := twoOrder1.pkg

theorem p_found : foundFiles twoWorld pArgs [] = [fA, fB, fT] := by decide +kernel

theorem p_run1 : PossibleRun twoWorld pArgs [] pOrder1 where
  files := by rw [p_found]; exact .refl _
  groups := .of_eq (by decide +kernel)
  pkg g hg cfg _ := by
    simp only [pOrder1, List.mem_cons, List.not_mem_nil, or_false] at hg
    rcases hg with rfl
    exact two_pkg1 (.inl rfl)

theorem p_run2 : PossibleRun twoWorld pArgs [] pOrder2 where
  files := by rw [p_found]; decide +kernel
  groups := .of_eq (by decide +kernel)
  pkg g hg cfg _ := by
    simp only [pOrder2, List.mem_cons, List.not_mem_nil, or_false] at hg
    rcases hg with rfl
    exact two_pkg1 (.inr rfl)

/-- **C74** (one configuration), a concrete case: a package with an unused function. -/
theorem C74_one_config_example (git : GitOn) : ∃ t r r', runFix twoWorld git pArgs pOrder1 (fun _ => Io.good) 3 = (t, some r) ∧
    runFix twoWorld git pArgs pOrder2 (fun _ => Io.good) 3 = (t, some r') ∧ SameReport r r' := by
  have key : ∀ o : RunOrder, PossibleRun twoWorld pArgs [] o → (o = pOrder1 ∨ o = pOrder2) → ∃ t r, runFix twoWorld git pArgs o (fun _ => Io.good) 3 = (t, some r) := by
    intro o _ ho
    have e : (runFix twoWorld git pArgs o (fun _ => Io.good) 3).2.isSome =
        (runFix twoWorld (fun _ => ⟨fun _ => none, fun _ => none⟩) pArgs o (fun _ => Io.good) 3).2.isSome := by
      have hcv : ∀ v v' cfg l, cfg.allowNoVcs = true → checkVersionControl v cfg l = checkVersionControl v' cfg l := by
        intro v v' cfg l h
        unfold checkVersionControl
        rw [if_pos h, if_pos h]
      have hfg : ∀ w s cfg po io fuel l, cfg.allowNoVcs = true → fixGroup w git s cfg po io fuel l = fixGroup w (fun _ => ⟨fun _ => none, fun _ => none⟩) s cfg po io fuel l := by
        intro w s cfg po io fuel l h
        unfold fixGroup
        split
        · rfl
        · rw [hcv _ (⟨fun _ => none, fun _ => none⟩ : Vcs) cfg _ h]
      have hgs : ∀ gs t, fixGroups twoWorld git pArgs [] o (fun _ => Io.good) 3 gs t =
          fixGroups twoWorld (fun _ => ⟨fun _ => none, fun _ => none⟩) pArgs [] o (fun _ => Io.good) 3 gs t := by
        intro gs
        induction gs with
        | nil => intro t; rfl
        | cons g gs ih =>
          intro t
          unfold fixGroups
          cases hc : configOf { twoWorld with text := t } pArgs.config (groupSettings [] g.1) g.2 with
          | error e => rfl
          | ok cfg =>
            simp only
            rw [hfg _ _ _ _ _ _ _ (configOf_flags hc).2.2.1]
            simp only [ih]
      unfold runFix
      have : discoverSettings twoWorld.configFs pArgs.paths = some [] := rfl
      rw [this]
      simp only [hgs]
    have hsome : (runFix twoWorld git pArgs o (fun _ => Io.good) 3).2.isSome = true := by
      rw [e]
      rcases ho with rfl | rfl <;> decide +kernel
    cases hx : runFix twoWorld git pArgs o (fun _ => Io.good) 3 with
    | mk t r =>
      rw [hx] at hsome
      cases r with
      | none => cases hsome
      | some r => exact ⟨t, r, rfl⟩
  obtain ⟨t, r, h1⟩ := key pOrder1 p_run1 (.inl rfl)
  obtain ⟨t', r', h2⟩ := key pOrder2 p_run2 (.inr rfl)
  obtain ⟨rfl, hr⟩ := C74_same_one_config two_ok two_apart (a := pArgs) ⟨by decide, by decide⟩ (items := []) rfl
    (oneVersion_dir [] (by rw [p_found]; decide +kernel)) (by intro f _ g _; rw [show ∀ p, resolvePath ([] : List (DPath × JarlSettings)) p = none from fun p => by simp [resolvePath]]; rw [show ∀ p, resolvePath ([] : List (DPath × JarlSettings)) p = none from fun p => by simp [resolvePath]]) (by
      rintro cfg ⟨f, _, hc⟩
      exact .inl (.inl (configOf_flags hc).2.2.1)) p_run1 p_run2 h1 h2
  exact ⟨t, r, r', h1, h2, hr⟩

/-- The same without `--allow-no-vcs`. -/
def pArgs' : RunArgs := { paths := [[cs! "p"]], config := { fix := true } }

/-- No repository. -/
def noRepo : GitOn := fun _ => ⟨fun _ => none, fun _ => none⟩

theorem demoLints_no_vcs (r : Rule) : NoVcsErrors (demoLints r) := by
  intro inp s
  constructor
  · show (Except.ok _ : Except CheckErr (List Diagnostic)) ≠ _
    nofun
  · show (Except.ok _ : Except CheckErr (List Diagnostic)) ≠ _
    nofun

/-- **C75** (one configuration), a concrete case: a package in no repository. -/
theorem C75_one_config_example : ∃ t out, runFix twoWorld noRepo pArgs' pOrder1 (fun _ => Io.good) 3 = (t, some (.ok out)) ∧ SaysRefused out ∧ t = twoWorld.text := by
  have h : statusAndErrors (runFix twoWorld noRepo pArgs' pOrder1 (fun _ => Io.good) 3).2 = some (some (.error, [(cs! "p/R/a.R", .vcs)])) := by decide +kernel
  cases hx : runFix twoWorld noRepo pArgs' pOrder1 (fun _ => Io.good) 3 with
  | mk t r =>
    rw [hx] at h
    rcases r with _ | _ | out
    · cases h
    · cases h
    · have hout : out.errors = [(cs! "p/R/a.R", .vcs)] := by
        simp only [statusAndErrors, Option.map_some, Option.some.injEq, Prod.mk.injEq] at h
        exact h.2
      have hs : SaysRefused out := ⟨(cs! "p/R/a.R", .vcs), by rw [hout]; simp, rfl⟩
      have hf : foundFiles twoWorld pArgs' [] = [fA, fB, fT] := p_found
      exact ⟨t, out, rfl, hs, ((C75_one_config two_ok (fun _ => demoLints_no_vcs _) (git := noRepo) (a := pArgs') (items := []) rfl
        (oneVersion_dir [] (by rw [hf]; decide +kernel))
        (by intro f _ g _; rw [show ∀ p, resolvePath ([] : List (DPath × JarlSettings)) p = none from fun p => by simp [resolvePath]]; rw [show ∀ p, resolvePath ([] : List (DPath × JarlSettings)) p = none from fun p => by simp [resolvePath]])
        ⟨p_run1.files, p_run1.groups⟩ rfl rfl hx).1 out rfl hs).1⟩

end Jarl
