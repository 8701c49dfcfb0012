import Verif.Props.RunVersion
/-!
# Whole runs: concrete worlds
-/
namespace Jarl
open Spec

/-! ## Worlds from lists -/

mutual
/-- A test for `OkTree`. -/
def fsOk : FsTree → Bool
  | .file => true
  | .dir es => decide ((es.map Prod.fst).Nodup) && fsOkIn es

def fsOkIn : List (Str × FsTree) → Bool
  | [] => true
  | (n, t) :: es => decide (n ≠ []) && !n.contains '/' && fsOk t && fsOkIn es
end

theorem fsOkIn_mem : ∀ {es : List (Str × FsTree)}, fsOkIn es = true → ∀ e ∈ es, (e.1 ≠ [] ∧ '/' ∉ e.1) ∧ fsOk e.2 = true
  | [], _, _, h => (nomatch h)
  | (n, t) :: es, h, e, he => by
    simp only [fsOkIn, Bool.and_eq_true, decide_eq_true_eq, Bool.not_eq_true', ← Bool.not_eq_true, List.contains_iff_mem] at h
    rcases List.mem_cons.mp he with rfl | he
    · exact ⟨⟨h.1.1.1, h.1.1.2⟩, h.1.2⟩
    · exact fsOkIn_mem h.2 e he

theorem fsOk_ok (t : FsTree) : fsOk t = true → OkTree t := by
  induction t using FsTree.ind with
  | hf => intro _; exact .file
  | hd es ih =>
    intro h
    simp only [fsOk, Bool.and_eq_true, decide_eq_true_eq] at h
    exact .dir h.1 (fun e he => (fsOkIn_mem h.2 e he).1) (fun e he => ih e he (fsOkIn_mem h.2 e he).2)

mutual
/-- All paths of a tree. -/
def allPaths (p : DPath) : FsTree → List DPath
  | .file => [p]
  | .dir es => p :: allPathsIn p es

def allPathsIn (p : DPath) : List (Str × FsTree) → List DPath
  | [] => []
  | (n, t) :: es => allPaths (p ++ [n]) t ++ allPathsIn p es
end

theorem mem_allPathsIn {p q : DPath} : ∀ {es : List (Str × FsTree)} {e : Str × FsTree}, e ∈ es → q ∈ allPaths (p ++ [e.1]) e.2 → q ∈ allPathsIn p es
  | (n, t) :: es, e, he, hq => by
    simp only [allPathsIn, List.mem_append]
    rcases List.mem_cons.mp he with rfl | he
    · exact .inl hq
    · exact .inr (mem_allPathsIn he hq)

theorem mem_allPaths {t : FsTree} (hok : OkTree t) {r : DPath} {u : FsTree} (h : t.at r = some u) (p : DPath) : p ++ r ∈ allPaths p t := by
  induction r generalizing t p with
  | nil => cases t <;> simp [allPaths]
  | cons n r ih =>
    cases hok with
    | file => simp [FsTree.at] at h
    | dir hnd _ hes =>
      obtain ⟨t', h1, h2⟩ := (FsTree.at_entry hnd).mp h
      have := ih (hes _ h1) h2 (p ++ [n])
      rw [show p ++ n :: r = p ++ [n] ++ r by simp]
      exact List.mem_cons_of_mem _ (mem_allPathsIn h1 this)

/-- Look up a text. -/
def textOf (l : List (DPath × Str)) (p : DPath) : Option Str := (l.find? (fun e => e.1 = p)).map Prod.snd

/-- Lints that report the first character of every non-empty text when the rule `r` runs. -/
def demoLints (r : Rule) : Lints where
  parse s := some ⟨.mk ⟨0, blen s⟩ false [] [] [] [], some s⟩
  expressions inp s := .ok (if r ∈ inp.ruleSet ∧ s ≠ [] then [Diagnostic.new r.name [] none ⟨0, 1⟩ .empty] else [])
  unreachable _ _ := .ok []

/-- A world without git, user configuration and regular expressions. -/
def listWorld (tree : FsTree) (texts : List (DPath × Str)) (config : DPath → Option (Option JarlSettings)) (r : Rule) : FileWorld where
  tree := tree
  text := textOf texts
  git _ _ := .none
  config := config
  userDir := none
  cwd := []
  lints _ := demoLints r
  first l := l.head?
  alnum := asciiAlnum
  le := pathLe
  re _ := none
  isMatch _ _ := false

theorem listWorld_ok {tree : FsTree} {texts : List (DPath × Str)} {config : DPath → Option (Option JarlSettings)} {r : Rule}
    (h : fsOk tree = true) (ht : ∀ e ∈ texts, IsFile tree e.1) : OkWorld (listWorld tree texts config r) where
  tree := fsOk_ok _ h
  text p s hp := by
    simp only [listWorld, textOf, Option.map_eq_some_iff] at hp
    obtain ⟨e, he, _⟩ := hp
    have h1 := List.find?_some he
    have h2 := ht e (List.mem_of_find?_eq_some he)
    simp only [decide_eq_true_eq] at h1
    rw [← h1]; exact h2
  order := pathLe_order

theorem listWorld_noPackageInR {tree : FsTree} {texts : List (DPath × Str)} {config : DPath → Option (Option JarlSettings)} {r : Rule}
    (h : fsOk tree = true)
    (hp : (allPaths [] tree).all (fun p => (allPaths [] tree).all (fun q => !(p.getLast? = some (cs! "DESCRIPTION")) ||
      !(q.getLast? = some (cs! "DESCRIPTION")) || !(p.dropLast ++ [cs! "R"]).isPrefixOf q.dropLast)) = true) :
    NoPackageInR (listWorld tree texts config r) := by
  rintro a b ⟨t, ha⟩ ⟨u, hb⟩ hpre
  have h1 := mem_allPaths (fsOk_ok _ h) ha []
  have h2 := mem_allPaths (fsOk_ok _ h) hb []
  have := List.all_eq_true.mp (List.all_eq_true.mp hp _ h1) _ h2
  simp at this
  rw [List.isPrefixOf_iff_prefix.mpr hpre] at this
  cases this

/-- The R version is not given; every directory of checked files that has a DESCRIPTION is `d`. -/
theorem oneVersion_dir {w : FileWorld} {a : RunArgs} {files : List DPath} (d : DPath)
    (h : ∀ f ∈ files, w.exists (f.dropLast ++ [cs! "DESCRIPTION"]) = true → f.dropLast = d) : OneVersion w a files :=
  .inr (fun f hf g hg h1 h2 => by rw [h f hf (exists_iff.mpr h1), h g hg (exists_iff.mpr h2)])

theorem enumerates_list {α β} [DecidableEq β] {l : List β} {data : List α} {key : α → β} {P : α → Prop} (hn : l.Nodup)
    (h1 : ∀ f ∈ data, P f → key f ∈ l) (h2 : ∀ k ∈ l, ∃ f ∈ data, P f ∧ key f = k) :
    Enumerates l (fun k => ∃ f ∈ data, P f ∧ key f = k) :=
  ⟨hn, fun k => ⟨h2 k, fun ⟨f, hf, hp, e⟩ => e ▸ h1 f hf hp⟩⟩

/-! ## Two packages, one with its own jarl.toml -/

def twoTree : FsTree := .dir [
  (cs! "p", .dir [(cs! "DESCRIPTION", .file), (cs! "NAMESPACE", .file),
    (cs! "R", .dir [(cs! "a.R", .file), (cs! "b.R", .file)]), (cs! "tests", .dir [(cs! "t.R", .file)])]),
  (cs! "q", .dir [(cs! "DESCRIPTION", .file), (cs! "jarl.toml", .file), (cs! "R", .dir [(cs! "c.R", .file)])])]

def twoWorld : FileWorld := listWorld twoTree [
  ([cs! "p", cs! "DESCRIPTION"], cs! "Package: p\n"),
  ([cs! "p", cs! "NAMESPACE"], cs! "export(foo)\n"),
  ([cs! "p", cs! "R", cs! "a.R"], cs! "foo <- function() 1\n"),
  ([cs! "p", cs! "R", cs! "b.R"], cs! "foo <- function() 2\nbar <- function() 3\n"),
  ([cs! "p", cs! "tests", cs! "t.R"], cs! "foo()\n"),
  ([cs! "q", cs! "R", cs! "c.R"], cs! "x\n")]
  (fun d => if d = [cs! "q"] then some (some defaultSettings) else none) .anyIsNa

def twoArgs : RunArgs := { paths := [[cs! "p"], [cs! "q"]] }

def twoItems : List (DPath × JarlSettings) := [([cs! "q"], defaultSettings)]

def fA : DPath := [cs! "p", cs! "R", cs! "a.R"]
def fB : DPath := [cs! "p", cs! "R", cs! "b.R"]
def fT : DPath := [cs! "p", cs! "tests", cs! "t.R"]
def fC : DPath := [cs! "q", cs! "R", cs! "c.R"]

/-- Two runs: the files and groups in opposite orders. -/
def twoOrder1 : RunOrder where
  files := [fA, fB, fT, fC]
  groups := [(none, [fA, fB, fT]), (some [cs! "q"], [fC])]
  pkg k := if k = none then ⟨[[cs! "p"]], [[cs! "p", cs! "R"]], [[cs! "p", cs! "R"]]⟩ else ⟨[[cs! "q"]], [[cs! "q", cs! "R"]], [[cs! "q", cs! "R"]]⟩

def twoOrder2 : RunOrder where
  files := [fC, fT, fB, fA]
  groups := [(some [cs! "q"], [fC]), (none, [fT, fB, fA])]
  pkg := twoOrder1.pkg

theorem two_ok : OkWorld twoWorld := listWorld_ok (by decide +kernel) (by
  intro e he
  simp only [List.mem_cons, List.not_mem_nil, or_false] at he
  rcases he with rfl | rfl | rfl | rfl | rfl | rfl <;> rfl)

theorem two_apart : NoPackageInR twoWorld := listWorld_noPackageInR (by decide +kernel) (by decide +kernel)

theorem two_found : foundFiles twoWorld twoArgs twoItems = [fA, fB, fT, fC] := by decide +kernel

theorem two_separate : Separate twoArgs.paths := ⟨by decide, by decide⟩

theorem two_pkg1 {cfg : Config} {paths : List DPath} (h : paths = [fA, fB, fT] ∨ paths = [fT, fB, fA]) :
    PossiblePkg twoWorld cfg paths (twoOrder1.pkg none) := by
  generalize hb : decide (Rule.unusedFunction ∈ cfg.rulesToApply) = b
  refine ⟨?_, ?_, ?_⟩
  · have : packageRoots twoWorld.pkgFs paths = [[cs! "p"]] := by
      rcases h with rfl | rfl <;> decide +kernel
    rw [this]
    exact ⟨by decide, fun _ => Iff.rfl⟩
  · rw [hb]
    refine enumerates_list (P := fun f : SharedFile => f.scope = .r) (key := (·.rootKey)) (show List.Nodup [_] by simp) ?_ ?_
    · rcases h with rfl | rfl <;> cases b <;> decide +kernel
    · rcases h with rfl | rfl <;> cases b <;> decide +kernel
  · refine ⟨by decide, fun k => ?_⟩
    have h1 : ∀ f ∈ sharedData twoWorld.alnum true twoWorld.pkgFs [[cs! "p"]] paths, f.rootKey = [cs! "p", cs! "R"] := by
      rcases h with rfl | rfl <;> decide +kernel
    have h2 : ∃ f ∈ sharedData twoWorld.alnum true twoWorld.pkgFs [[cs! "p"]] paths, f.rootKey = [cs! "p", cs! "R"] := by
      rcases h with rfl | rfl <;> decide +kernel
    constructor
    · intro hk
      have : k = [cs! "p", cs! "R"] := by simpa [twoOrder1] using hk
      rw [this]; exact h2
    · rintro ⟨f, hf, rfl⟩
      rw [h1 f hf]; simp [twoOrder1]

theorem two_pkg2 {cfg : Config} : PossiblePkg twoWorld cfg [fC] (twoOrder1.pkg (some [cs! "q"])) := by
  generalize hb : decide (Rule.unusedFunction ∈ cfg.rulesToApply) = b
  refine ⟨?_, ?_, ?_⟩
  · have : packageRoots twoWorld.pkgFs [fC] = [[cs! "q"]] := by decide +kernel
    rw [this]
    exact ⟨by decide, fun _ => Iff.rfl⟩
  · rw [hb]
    refine enumerates_list (P := fun f : SharedFile => f.scope = .r) (key := (·.rootKey)) (show List.Nodup [_] by simp) ?_ ?_
    · cases b <;> decide +kernel
    · cases b <;> decide +kernel
  · refine ⟨by decide, fun k => ?_⟩
    have h1 : ∀ f ∈ sharedData twoWorld.alnum true twoWorld.pkgFs [[cs! "q"]] [fC], f.rootKey = [cs! "q", cs! "R"] := by decide +kernel
    have h2 : ∃ f ∈ sharedData twoWorld.alnum true twoWorld.pkgFs [[cs! "q"]] [fC], f.rootKey = [cs! "q", cs! "R"] := by decide +kernel
    constructor
    · intro hk
      have : k = [cs! "q", cs! "R"] := by simpa [twoOrder1] using hk
      rw [this]; exact h2
    · rintro ⟨f, hf, rfl⟩
      rw [h1 f hf]; simp [twoOrder1]

theorem two_run1 : PossibleRun twoWorld twoArgs twoItems twoOrder1 where
  files := by rw [two_found]; exact .refl _
  groups := by
    have : groupFiles twoItems twoOrder1.files = twoOrder1.groups := by decide +kernel
    rw [this]
  pkg g hg cfg _ := by
    simp only [twoOrder1, List.mem_cons, List.not_mem_nil, or_false] at hg
    rcases hg with rfl | rfl
    · exact two_pkg1 (.inl rfl)
    · exact two_pkg2

theorem two_run2 : PossibleRun twoWorld twoArgs twoItems twoOrder2 where
  files := by rw [two_found]; decide +kernel
  groups := by
    have : groupFiles twoItems twoOrder2.files = twoOrder2.groups := by decide +kernel
    rw [this]
  pkg g hg cfg _ := by
    simp only [twoOrder2, List.mem_cons, List.not_mem_nil, or_false] at hg
    rcases hg with rfl | rfl
    · exact two_pkg2
    · exact two_pkg1 (.inr rfl)

/-- The items up to the settings, which have no decidable equality. -/
theorem two_discovered : discoverSettings twoWorld.configFs twoArgs.paths = some twoItems := by
  rfl

/-- **C72**, a concrete case: the orders differ, the report does not. -/
theorem C72_example : SameReport (runCheck twoWorld twoArgs twoOrder1) (runCheck twoWorld twoArgs twoOrder2) :=
  C72_same_report two_ok two_apart two_separate two_discovered
    (oneVersion_dir [] (by rw [two_found]; decide +kernel)) two_run1 two_run2

/-- The report of such runs is not trivial: a diagnostic is printed (here without the duplicated definitions, which need a sort). -/
theorem C72_example_status : (runCheck twoWorld { twoArgs with config := { ignore := cs! "duplicated_function_definition" } }
    twoOrder1).toOption.map (·.status) = some .failure := by decide +kernel

/-! ## Two directories with different DESCRIPTION files -/

theorem no_package {w : FileWorld} {cfg : Config} {paths : List DPath} (h : paths.filter (inPackageR w.pkgFs) = []) :
    PossiblePkg w cfg paths ⟨[], [], []⟩ := by
  have hs : ∀ b, sharedData w.alnum b w.pkgFs [] paths = [] := by
    intro b
    unfold sharedData
    rw [h]
    cases b <;> rfl
  refine ⟨⟨.nil, fun r => ?_⟩, ⟨.nil, fun k => ?_⟩, ⟨.nil, fun k => ?_⟩⟩
  · unfold packageRoots
    rw [h]
    simp
  · simp [hs]
  · simp [hs]

def versionTree : FsTree := .dir [
  (cs! "x", .dir [(cs! "DESCRIPTION", .file), (cs! "a.R", .file)]),
  (cs! "y", .dir [(cs! "DESCRIPTION", .file), (cs! "b.R", .file)])]

def versionWorld : FileWorld := listWorld versionTree [
  ([cs! "x", cs! "DESCRIPTION"], cs! "Package: x\nDepends: R (>= 4.5.0)\n"),
  ([cs! "y", cs! "DESCRIPTION"], cs! "Package: y\nDepends: R (>= 3.5.0)\n"),
  ([cs! "x", cs! "a.R"], cs! "grep('a', x, value = TRUE)\n"),
  ([cs! "y", cs! "b.R"], cs! "1\n")] (fun _ => none) .grepv

def versionArgs : RunArgs := { paths := [[cs! "x"], [cs! "y"]] }

def versionOrder (files : List DPath) : RunOrder := ⟨files, [(none, files)], fun _ => ⟨[], [], []⟩⟩

def vA : DPath := [cs! "x", cs! "a.R"]
def vB : DPath := [cs! "y", cs! "b.R"]

theorem version_run {files : List DPath} (h : files = [vA, vB] ∨ files = [vB, vA]) :
    PossibleRun versionWorld versionArgs [] (versionOrder files) where
  files := by
    have : foundFiles versionWorld versionArgs [] = [vA, vB] := by decide +kernel
    rw [this]
    rcases h with rfl | rfl <;> decide +kernel
  groups := by
    have : groupFiles ([] : List (DPath × JarlSettings)) files = [(none, files)] := by
      rcases h with rfl | rfl <;> decide +kernel
    simp only [versionOrder]
    rw [this]
  pkg g hg cfg _ := by
    simp only [versionOrder, List.mem_singleton] at hg
    subst hg
    apply no_package
    rcases h with rfl | rfl <;> decide +kernel

/-- **C72 fails** when checked files lie beside DESCRIPTION files that disagree: the order in which the threads deliver the files decides
which R version is used for all of them, and so which rules run. -/
theorem C72_false_version : ∃ (w : FileWorld) (a : RunArgs) (items : List (DPath × JarlSettings)) (o o' : RunOrder),
    OkWorld w ∧ NoPackageInR w ∧ Separate a.paths ∧ discoverSettings w.configFs a.paths = some items ∧ PossibleRun w a items o ∧
    PossibleRun w a items o' ∧ ¬ SameReport (runCheck w a o) (runCheck w a o') := by
  refine ⟨versionWorld, versionArgs, [], versionOrder [vA, vB], versionOrder [vB, vA], ?_, ?_, ?_, by rfl, version_run (.inl rfl),
    version_run (.inr rfl), ?_⟩
  · exact listWorld_ok (by decide +kernel) (by
      intro e he
      simp only [List.mem_cons, List.not_mem_nil, or_false] at he
      rcases he with rfl | rfl | rfl | rfl <;> rfl)
  · exact listWorld_noPackageInR (by decide +kernel) (by decide +kernel)
  · exact ⟨by decide, by decide⟩
  · have h1 : (runCheck versionWorld versionArgs (versionOrder [vA, vB])).toOption.map (·.status) = some .failure := by decide +kernel
    have h2 : (runCheck versionWorld versionArgs (versionOrder [vB, vA])).toOption.map (·.status) = some .success := by decide +kernel
    intro h
    cases e1 : runCheck versionWorld versionArgs (versionOrder [vA, vB]) with
    | error e => rw [e1] at h1; cases h1
    | ok u =>
      cases e2 : runCheck versionWorld versionArgs (versionOrder [vB, vA]) with
      | error e => rw [e2] at h2; cases h2
      | ok v =>
        rw [e1, e2] at h
        rw [e1] at h1
        rw [e2] at h2
        have h1 : u.status = .failure := Option.some.inj h1
        have h2 : v.status = .success := Option.some.inj h2
        have := h.1
        rw [h1, h2] at this
        cases this

/-! ## A package -/

def packageWorld : FileWorld := listWorld (.dir [(cs! "p", .dir [(cs! "DESCRIPTION", .file), (cs! "R", .dir [(cs! "a.R", .file)])])]) [
  ([cs! "p", cs! "DESCRIPTION"], cs! "Package: p\nDepends: R (>= 4.5.0)\n"),
  ([cs! "p", cs! "R", cs! "a.R"], cs! "grep('a', x, value = TRUE)\n")] (fun _ => none) .grepv

def packageOrder : RunOrder :=
  ⟨[[cs! "p", cs! "R", cs! "a.R"]], [(none, [[cs! "p", cs! "R", cs! "a.R"]])], fun _ => ⟨[[cs! "p"]], [[cs! "p", cs! "R"]], [[cs! "p", cs! "R"]]⟩⟩

/-- **C71 fails** for the usual layout of a package: DESCRIPTION asks for R 4.5.0, yet the file in R/ is checked as if the version were not known; the
rule `grepv` finds its problem only if the version is also given on the command line. -/
theorem C71_false_package :
    getDependRVersion (cs! "Package: p\nDepends: R (>= 4.5.0)\n") = .ok [cs! "4.5.0"] ∧
    packageWorld.text [cs! "p", cs! "DESCRIPTION"] = some (cs! "Package: p\nDepends: R (>= 4.5.0)\n") ∧
    foundFiles packageWorld { paths := [[cs! "p"]] } [] = packageOrder.files ∧
    (runCheck packageWorld { paths := [[cs! "p"]], config := { ignore := cs! "duplicated_function_definition" } }
      packageOrder).toOption.map (·.status) = some .success ∧
    (runCheck packageWorld { paths := [[cs! "p"]], config := { ignore := cs! "duplicated_function_definition", minRVersion := some (cs! "4.5.0") } }
      packageOrder).toOption.map (·.status) = some .failure := by decide +kernel

/-- The hypotheses of **C71 (not found)** are met by this package. -/
theorem C71_not_found_example : ∃ cfg, configOf packageWorld {} none packageOrder.files = .ok cfg ∧ cfg.minimumRVersion = none ∧
    Rule.grepv ∉ cfg.rules := by
  cases h : configOf packageWorld {} none packageOrder.files with
  | error e =>
    have : (configOf packageWorld {} none packageOrder.files).toOption.isSome = true := by decide +kernel
    rw [h] at this; cases this
  | ok cfg =>
    obtain ⟨h1, h2⟩ := C71_not_found (by
      intro f hf
      simp only [packageOrder, List.mem_singleton] at hf
      subst hf
      refine ⟨rfl, ?_⟩
      rintro ⟨t, ht⟩
      cases ht) rfl h
    exact ⟨cfg, rfl, h1, fun hg => by have := h2 _ hg; cases this⟩

/-- The hypotheses of **C71 (found)** are met by a file beside a DESCRIPTION. -/
theorem C71_beside_example : ∃ cfg, configOf versionWorld {} none [vA] = .ok cfg ∧ cfg.minimumRVersion = some ⟨4, 5, 0⟩ := by
  cases h : configOf versionWorld {} none [vA] with
  | error e =>
    have : (configOf versionWorld {} none [vA]).toOption.isSome = true := by decide +kernel
    rw [h] at this; cases this
  | ok cfg =>
    refine ⟨cfg, rfl, ?_⟩
    refine C71_beside_partial (a := { paths := [] }) (f := vA) (eol := ['\n']) (pre := [⟨cs! "Package", cs! " x", []⟩]) (post := [])
      (fld := ⟨cs! "Depends", cs! " R (>= 4.5.0)", []⟩) (v := cs! "4.5.0") (vs := []) ?_ ?_ rfl (by simp) ?_ (.inl rfl) ?_ (by decide)
      (fun _ h => (nomatch h)) (by decide +kernel) ?_ (by decide) h
    · intro f hf
      simp only [List.mem_singleton] at hf
      subst hf
      rfl
    · exact oneVersion_dir [cs! "x"] (by
        intro f hf _
        simp only [List.mem_singleton] at hf
        subst hf
        rfl)
    · exact ⟨.file, rfl⟩
    · intro g hg
      simp only [List.cons_append, List.nil_append, List.mem_cons, List.not_mem_nil, or_false] at hg
      rcases hg with rfl | rfl
      · exact ⟨by unfold OneLine; decide, ⟨'P', cs! "ackage", rfl, by decide⟩, by decide, by unfold OneLine; decide,
          fun _ h => (nomatch h), fun _ h => (nomatch h)⟩
      · exact ⟨by unfold OneLine; decide, ⟨'D', cs! "epends", rfl, by decide⟩, by decide, by unfold OneLine; decide,
          fun _ h => (nomatch h), fun _ h => (nomatch h)⟩
    · have : rEntries (DcfField.value ⟨cs! "Depends", cs! " R (>= 4.5.0)", []⟩) = [cs! "R (>= 4.5.0)"] := by decide +kernel
      rw [this]
      exact .cons ⟨cs! "R ", cs! " 4.5.0", [], rfl, by decide, by decide, by decide, by decide, by decide, by decide⟩ .nil

end Jarl
