import Verif.Props.WalkMore
/-!
# C68: default patterns, examples, and what does not hold (findings F43–F46)
-/
namespace Jarl
open Spec

theorem wild_self {n : Str} (h1 : '*' ∉ n) (h2 : '?' ∉ n) : Wild n n := by
  induction n with
  | nil => exact .nil
  | cons c n ih =>
    simp only [List.mem_cons, not_or] at h1 h2
    exact .lit (Ne.symm h1.1) (Ne.symm h2.1) (ih h1.2 h2.2)

theorem wild_prefix {p q s : Str} (h1 : '*' ∉ p) (h2 : '?' ∉ p) (h : Wild q s) : Wild (p ++ q) (p ++ s) := by
  induction p with
  | nil => exact h
  | cons c p ih =>
    simp only [List.mem_cons, not_or] at h1 h2
    exact .lit (Ne.symm h1.1) (Ne.symm h2.1) (ih h1.2 h2.2)

theorem seenFrom_last {root : Option DPath} {d : DPath} {n : Str} (h : root ≠ some (d ++ [n])) : ∃ q, SeenFrom root (d ++ [n]) (q ++ [n]) := by
  cases root with
  | none => exact ⟨[] :: d, .noConfig⟩
  | some c =>
    by_cases hc : c <+: d ++ [n]
    · rcases prefix_snoc.1 hc with rfl | ⟨t, rfl⟩
      · exact absurd rfl h
      · refine ⟨t, ?_⟩
        rw [List.append_assoc]
        exact .below
    · exact ⟨[] :: d, .elsewhere hc⟩

/-- The names of directories and files that are left out by default. -/
def Spec.defaultDirs : List Str := [cs! ".git", cs! "renv", cs! "revdep"]
def Spec.defaultFiles : List Str := [cs! "cpp11.R", cs! "RcppExports.R", cs! "extendr-wrappers.R"]

theorem defaults_in_force {first : Option (DPath × ExcludeSettings)} {nd : Bool} (h : DefaultsOn first nd) :
    ∀ p ∈ defaultExcludePatterns, p ∈ walkPatterns first nd := by
  intro p hp
  unfold walkPatterns
  cases first with
  | none => rw [h.1]; exact hp
  | some x =>
    obtain ⟨d, s⟩ := x
    have := h.2 _ rfl
    have hd : s.defaultExclude.getD true = true := by
      rcases hs : s.defaultExclude with _ | _ | _
      · rfl
      · exact absurd hs this
      · rfl
    simp only [List.mem_append, hd, ite_true]
    exact .inr hp

/-- **C68** (default patterns). Unless they are turned off, no file is found below a directory `renv`, `revdep` or `.git` (below the argument; the directory of the
configuration itself excepted), nor one with the name of a generated file. -/
theorem C68_default_patterns {tree : FsTree} {git : DPath → Bool → GitMatch} {items : List (DPath × ExcludeSettings)}
    {first : Option (DPath × ExcludeSettings)} {nd : Bool} {args : List DPath} {f : DPath} (h : OkItems tree items first)
    (hdef : DefaultsOn first nd) (hf : f ∈ checkedFiles tree git items first nd args) (hne : f ∉ args) :
    ∃ a ∈ args, ∃ r, f = a ++ r ∧
      (∀ r1 n r2, r = r1 ++ n :: r2 → r2 ≠ [] → n ∈ defaultDirs → first.map Prod.fst = some (a ++ r1 ++ [n])) ∧
      (∀ n, r.getLast? = some n → n ∉ defaultFiles ∧ ¬ ∃ m, n = cs! "import-standalone-" ++ m ++ cs! ".R") := by
  obtain ⟨hfile, hr, -⟩ := h.checked.1 hf
  rcases hr with hr | ⟨-, a, ha, ⟨r, rfl⟩, h2, h3, h4⟩
  · exact absurd hr hne
  · refine ⟨a, ha, r, rfl, ?_, ?_⟩
    · rintro r1 n r2 rfl hr2 hn
      apply Classical.byContradiction
      intro hroot
      refine h3 (a ++ r1 ++ [n]) ⟨r1 ++ [n], by simp⟩ ?_ ⟨r2, by simp⟩ ?_ (.inl ?_)
      · intro h
        have := congrArg List.length h
        simp at this
      · intro h
        have := congrArg List.length h
        simp at this
        exact hr2 this
      · obtain ⟨q, hq⟩ := seenFrom_last hroot
        refine ⟨_, hq, n ++ ['/'], defaults_in_force hdef _ ?_, ?_⟩
        · simp only [defaultDirs, List.mem_cons, List.not_mem_nil, or_false] at hn
          rcases hn with rfl | rfl | rfl <;> decide
        · simp only [defaultDirs, List.mem_cons, List.not_mem_nil, or_false] at hn
          rcases hn with rfl | rfl | rfl
          · exact .folder (by decide) (by decide) (.name (by decide) (wild_self (by decide) (by decide)))
          · exact .folder (by decide) (by decide) (.name (by decide) (wild_self (by decide) (by decide)))
          · exact .folder (by decide) (by decide) (.name (by decide) (wild_self (by decide) (by decide)))
    · intro n hn
      obtain ⟨r1, rfl⟩ := List.getLast?_eq_some_iff.1 hn
      have hroot : first.map Prod.fst ≠ some (a ++ r1 ++ [n]) := by
        intro hx
        cases hfi : first with
        | none => rw [hfi] at hx; cases hx
        | some x =>
          rw [hfi] at hx
          simp only [Option.map_some, Option.some.injEq] at hx
          obtain ⟨es, hes⟩ := h.dirs x (h.isItem x hfi)
          rw [hx, List.append_assoc, hfile] at hes
          cases hes
      obtain ⟨q, hq⟩ := seenFrom_last hroot
      rw [List.append_assoc] at hq
      constructor
      · intro hm
        refine h4 (.inl ⟨_, hq, n, defaults_in_force hdef _ ?_, ?_⟩)
        · simp only [defaultFiles, List.mem_cons, List.not_mem_nil, or_false] at hm
          rcases hm with rfl | rfl | rfl <;> decide
        · simp only [defaultFiles, List.mem_cons, List.not_mem_nil, or_false] at hm
          rcases hm with rfl | rfl | rfl
          · exact .name (by decide) (wild_self (by decide) (by decide))
          · exact .name (by decide) (wild_self (by decide) (by decide))
          · exact .name (by decide) (wild_self (by decide) (by decide))
      · rintro ⟨m, rfl⟩
        refine h4 (.inl ⟨_, hq, cs! "import-standalone-*.R", defaults_in_force hdef _ (by decide), ?_⟩)
        refine .name (by decide) ?_
        rw [List.append_assoc]
        exact wild_prefix (p := cs! "import-standalone-") (by decide) (by decide) (.star m (wild_self (by decide) (by decide)))

/-! ## Examples -/

def noGit : DPath → Bool → GitMatch := fun _ _ => .none

/-- A project with tests, renv and a document. -/
def exProject : FsTree :=
  .dir [(cs! "p", .dir [
    (cs! "jarl.toml", .file),
    (cs! "R", .dir [(cs! "a.R", .file), (cs! "gen.R", .file), (cs! "notes.txt", .file), (cs! "cpp11.R", .file)]),
    (cs! "tests", .dir [(cs! "t.R", .file), (cs! ".hidden.R", .file)]),
    (cs! "renv", .dir [(cs! "activate.R", .file)]),
    (cs! "doc.Rmd", .file)])]

def exSettings : ExcludeSettings := { exclude := some [cs! "R/gen.R"], include_ := some [cs! "R/", cs! "*.Rmd"] }

theorem exProject_ok : OkItems exProject [([cs! "p"], exSettings)] (some ([cs! "p"], exSettings)) := by
  refine ⟨?_, by simp, ?_, ?_, ?_⟩
  · unfold exProject
    refine .dir (by decide) (by simp) ?_
    simp only [List.mem_singleton, forall_eq]
    refine .dir (by decide) (by simp) ?_
    intro e he
    simp only [List.mem_cons, List.not_mem_nil, or_false] at he
    rcases he with rfl | rfl | rfl | rfl | rfl
    · exact .file
    · refine .dir (by decide) (by simp) ?_
      intro e he
      simp only [List.mem_cons, List.not_mem_nil, or_false] at he
      rcases he with rfl | rfl | rfl | rfl <;> exact .file
    · refine .dir (by decide) (by simp) ?_
      intro e he
      simp only [List.mem_cons, List.not_mem_nil, or_false] at he
      rcases he with rfl | rfl <;> exact .file
    · refine .dir (by decide) (by simp) ?_
      intro e he
      simp only [List.mem_cons, List.not_mem_nil, or_false] at he
      rcases he with rfl; exact .file
    · exact .file
  · simp only [List.mem_singleton, forall_eq]
    exact ⟨_, rfl⟩
  · simp only [List.mem_singleton, forall_eq]
    unfold OkSettings exSettings
    constructor
    · rintro l ⟨⟩ p hp
      simp only [List.mem_singleton] at hp
      subst hp
      unfold OkPattern; decide
    · rintro l ⟨⟩ p hp
      simp only [List.mem_cons, List.not_mem_nil, or_false] at hp
      rcases hp with rfl | rfl
      · unfold OkInclude OkPattern; decide
      · unfold OkInclude OkPattern; decide
  · rintro x ⟨⟩; simp

theorem C68_ex_project :
    checkedFiles exProject noGit [([cs! "p"], exSettings)] (some ([cs! "p"], exSettings)) false [[cs! "p"]] =
      [[cs! "p", cs! "R", cs! "a.R"], [cs! "p", cs! "doc.Rmd"]] := by decide +kernel

/-- The configuration of `exProject` on disk. -/
def exProjectFs : ConfigFs ExcludeSettings where
  toml d := if d = [cs! "p"] then some (some exSettings) else none
  userDir := none
  walk := nestedWalk noGit exProject

/-- The hypotheses of `C68_run` and `C68_nearest_config` hold for `jarl check p`. -/
theorem C68_ex_run : OkTree exProject ∧ (∀ d s, exProjectFs.toml d = some (some s) → IsDirectory exProject d ∧ OkSettings s) ∧
    (∀ d, exProjectFs.toml d ≠ none → IsDirectory exProject d) ∧ exProjectFs.walk = nestedWalk noGit exProject ∧
    discoverSettings exProjectFs [[cs! "p"]] = some [([cs! "p"], exSettings)] ∧ (∀ a ∈ [[cs! "p"]], OutsideUserDir exProjectFs a) := by
  have h := exProject_ok
  have hd : IsDirectory exProject [cs! "p"] := h.dirs _ (List.mem_singleton.2 rfl)
  refine ⟨h.okTree, ?_, ?_, rfl, by rfl, ?_⟩
  · intro d s hs
    simp only [exProjectFs] at hs
    split at hs
    · rename_i he
      cases hs
      subst he
      exact ⟨hd, h.settings _ (List.mem_singleton.2 rfl)⟩
    · cases hs
  · intro d hs
    simp only [exProjectFs] at hs
    split at hs
    · rename_i he
      subst he
      exact hd
    · exact absurd rfl hs
  · intro a _ c hc
    cases hc

/-! ## Several configurations (finding F43) -/

/-- Two packages side by side, each with its own configuration. -/
def exTwo : FsTree :=
  .dir [(cs! "a", .dir [(cs! "jarl.toml", .file), (cs! "inst", .dir [(cs! "y.R", .file)]), (cs! "tests", .dir [(cs! "t.R", .file)])]),
        (cs! "b", .dir [(cs! "jarl.toml", .file), (cs! "inst", .dir [(cs! "y.R", .file)]), (cs! "tests", .dir [(cs! "t.R", .file)])])]

def exItemA : DPath × ExcludeSettings := ([cs! "a"], { exclude := some [cs! "tests/"] })
def exItemB : DPath × ExcludeSettings := ([cs! "b"], { exclude := some [cs! "inst/"] })

/-- **C69** is not "every file according to its own configuration" (F43): `a` leaves out `tests/`, `b` leaves out `inst/`, so `a/inst/y.R` and
`b/tests/t.R` should be checked. But one configuration rules over all: whichever is the first, the other one's directories are checked although
excluded, and those of the first are left out everywhere. -/
theorem C69_false_own_config :
    checkedFiles exTwo noGit [exItemA, exItemB] (some exItemA) false [[]] =
      [[cs! "a", cs! "inst", cs! "y.R"], [cs! "b", cs! "inst", cs! "y.R"]] ∧
    checkedFiles exTwo noGit [exItemA, exItemB] (some exItemB) false [[]] =
      [[cs! "a", cs! "tests", cs! "t.R"], [cs! "b", cs! "tests", cs! "t.R"]] := by
  constructor <;> decide +kernel

/-- The same in terms of the specification: whichever configuration is the first, a file is checked although it is in a directory that an `exclude` pattern of its own
configuration matches. -/
theorem C69_false_excluded_directory : ∀ first ∈ [exItemA, exItemB],
    ∃ f ∈ checkedFiles exTwo noGit [exItemA, exItemB] (some first) false [[]],
      ∃ x l p r, NearestItem [exItemA, exItemB] x f ∧ x.2.exclude = some l ∧ p ∈ l ∧ Hits p r true ∧ r ≠ [] ∧ x.1 ++ r <+: f ∧ x.1 ++ r ≠ f := by
  intro first hf
  simp only [List.mem_cons, List.not_mem_nil, or_false] at hf
  rcases hf with rfl | rfl
  · refine ⟨[cs! "b", cs! "inst", cs! "y.R"], by decide +kernel, exItemB, _, cs! "inst/", [cs! "inst"],
      ⟨by simp, ⟨[cs! "inst", cs! "y.R"], rfl⟩, ?_⟩, rfl, List.mem_singleton.2 rfl, ?_, by decide, ⟨[cs! "y.R"], rfl⟩, by decide⟩
    · intro y hy _
      simp only [List.mem_cons, List.not_mem_nil, or_false] at hy
      rcases hy with rfl | rfl <;> decide
    · exact .folder (p := cs! "inst") (by decide) (by decide) (.name (q := []) (by decide) (wild_self (by decide) (by decide)))
  · refine ⟨[cs! "a", cs! "tests", cs! "t.R"], by decide +kernel, exItemA, _, cs! "tests/", [cs! "tests"],
      ⟨by simp, ⟨[cs! "tests", cs! "t.R"], rfl⟩, ?_⟩, rfl, List.mem_singleton.2 rfl, ?_, by decide, ⟨[cs! "t.R"], rfl⟩, by decide⟩
    · intro y hy _
      simp only [List.mem_cons, List.not_mem_nil, or_false] at hy
      rcases hy with rfl | rfl <;> decide
    · exact .folder (p := cs! "tests") (by decide) (by decide) (.name (q := []) (by decide) (wild_self (by decide) (by decide)))

/-- The configurations of `exTwo` on disk. -/
def exTwoFs : ConfigFs ExcludeSettings where
  toml d := if d = exItemA.1 then some (some exItemA.2) else if d = exItemB.1 then some (some exItemB.2) else none
  userDir := none
  walk := nestedWalk noGit exTwo

/-- **C69** (F43): the order of the arguments matters, if the first discovered configuration is the one that is used: `jarl check a b` and
`jarl check b a` check different files. -/
theorem C69_false_argument_order :
    ∃ i1 i2, discoverSettings exTwoFs [[cs! "a"], [cs! "b"]] = some i1 ∧ discoverSettings exTwoFs [[cs! "b"], [cs! "a"]] = some i2 ∧
      [cs! "a", cs! "inst", cs! "y.R"] ∈ checkedFiles exTwo noGit i1 i1.head? false [[cs! "a"], [cs! "b"]] ∧
      [cs! "a", cs! "inst", cs! "y.R"] ∉ checkedFiles exTwo noGit i2 i2.head? false [[cs! "b"], [cs! "a"]] :=
  ⟨[exItemA, exItemB], [exItemB, exItemA], by rfl, by rfl, by decide +kernel, by decide +kernel⟩

/-- A project with a nested one. -/
def exNested : FsTree :=
  .dir [(cs! "jarl.toml", .file), (cs! "tests", .dir [(cs! "u.R", .file)]), (cs! "renv", .dir [(cs! "v.R", .file)]),
        (cs! "sub", .dir [(cs! "jarl.toml", .file), (cs! "tests", .dir [(cs! "t.R", .file)])])]

/-- **C69** (F43): `exclude = ["tests/"]` in a nested configuration has no effect if there is another one above; `exclude = ["tests/*"]` has. -/
theorem C69_false_nested_exclude :
    [cs! "sub", cs! "tests", cs! "t.R"] ∈
      checkedFiles exNested noGit [([], {}), ([cs! "sub"], { exclude := some [cs! "tests/"] })] (some ([], {})) false [[]] ∧
    [cs! "sub", cs! "tests", cs! "t.R"] ∉
      checkedFiles exNested noGit [([], {}), ([cs! "sub"], { exclude := some [cs! "tests/*"] })] (some ([], {})) false [[]] := by
  constructor <;> decide +kernel

/-- **C69** (F43): if the only configuration is in a directory below the argument, it rules outside of that directory: its `exclude = ["tests/"]` leaves out the
other `tests`, and its `default-exclude = false` makes `renv` be checked. -/
theorem C69_false_nested_rules_above :
    [cs! "tests", cs! "u.R"] ∉
      checkedFiles exNested noGit [([cs! "sub"], { exclude := some [cs! "tests/"] })] (some ([cs! "sub"], { exclude := some [cs! "tests/"] }))
        false [[]] ∧
    [cs! "renv", cs! "v.R"] ∈
      checkedFiles exNested noGit [([cs! "sub"], { defaultExclude := some false })] (some ([cs! "sub"], { defaultExclude := some false }))
        false [[]] ∧
    [cs! "renv", cs! "v.R"] ∉ checkedFiles exNested noGit [([cs! "sub"], {})] (some ([cs! "sub"], {})) false [[]] := by
  refine ⟨?_, ?_, ?_⟩ <;> decide +kernel

/-! ## Explicit arguments (finding F44) -/

/-- **C68** (F44): `jarl check renv` checks the files of `renv`, although discovery.rs:433-435 says that it does nothing. -/
theorem C68_false_renv_argument :
    checkedFiles exProject noGit [([cs! "p"], {})] (some ([cs! "p"], {})) false [[cs! "p", cs! "renv"]] =
      [[cs! "p", cs! "renv", cs! "activate.R"]] := by decide +kernel

/-- **C68** (F44): whether an excluded file is checked when it is given as an argument depends on how it was excluded: by its name no, by its directory or a default
pattern yes. -/
theorem C68_false_explicit :
    checkedFiles exProject noGit [([cs! "p"], { exclude := some [cs! "t.R"] })] (some ([cs! "p"], { exclude := some [cs! "t.R"] })) false
      [[cs! "p", cs! "tests", cs! "t.R"]] = [] ∧
    checkedFiles exProject noGit [([cs! "p"], { exclude := some [cs! "tests/"] })] (some ([cs! "p"], { exclude := some [cs! "tests/"] })) false
      [[cs! "p", cs! "tests", cs! "t.R"]] = [[cs! "p", cs! "tests", cs! "t.R"]] ∧
    checkedFiles exProject noGit [([cs! "p"], {})] (some ([cs! "p"], {})) false
      [[cs! "p", cs! "R", cs! "cpp11.R"]] = [[cs! "p", cs! "R", cs! "cpp11.R"]] := by
  refine ⟨?_, ?_, ?_⟩ <;> decide +kernel

/-! ## Others -/

/-- **C68** (F46): `tests/` means a directory at any depth in `exclude`, but only the one next to the configuration file in `include`. -/
theorem C68_false_include_depth :
    excludedBy [cs! "tests/"] [cs! "sub", cs! "tests"] true = true ∧ includedBy [cs! "tests/"] [cs! "sub", cs! "tests", cs! "t.R"] = false ∧
    includedBy [cs! "tests/"] [cs! "tests", cs! "t.R"] = true := by
  refine ⟨?_, ?_, ?_⟩ <;> decide +kernel

/-- **C68** (F16): a file reached from two arguments is listed twice. -/
theorem C68_false_once :
    checkedFiles exProject noGit [] none false [[cs! "p", cs! "tests"], [cs! "p", cs! "tests", cs! "t.R"]] =
      [[cs! "p", cs! "tests", cs! "t.R"], [cs! "p", cs! "tests", cs! "t.R"]] := by decide +kernel

/-- **C68** (F45): a mistyped argument is not mentioned. -/
theorem C68_false_missing :
    checkedFiles exProject noGit [] none false [[cs! "p", cs! "tets"], [cs! "p", cs! "tests"]] = [[cs! "p", cs! "tests", cs! "t.R"]] := by
  decide +kernel

end Jarl
