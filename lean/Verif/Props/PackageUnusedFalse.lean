import Verif.Props.PackageUnusedMore
/-!
# C49: examples, and where the rule is wrong
-/
namespace Jarl
open Spec

/-! ## A concrete package -/

/-- A package with a NAMESPACE file, two R files and a test. -/
def demoUnused : PkgFs where
  description d := d = [cs! "pkg"]
  read p := if p = [cs! "pkg", cs! "R", cs! "a.R"] then some (cs! "foo <- function(x) helper(x)\nprint.thing <- function(x) 1\nlost <- function() 2\n")
    else if p = [cs! "pkg", cs! "R", cs! "b.R"] then some (cs! "helper <- function(y) y\ntested = \\(x) x\n")
    else if p = [cs! "pkg", cs! "tests", cs! "t.R"] then some (cs! "check <- function() tested(1)\n")
    else if p = [cs! "pkg", cs! "NAMESPACE"] then some (cs! "# generated\nexport(foo)\nS3method(\"print\", thing)\n") else none
  below d := if d = [cs! "pkg", cs! "R"] then [[cs! "pkg", cs! "R", cs! "a.R"], [cs! "pkg", cs! "R", cs! "b.R"]]
    else if d = [cs! "pkg", cs! "tests"] then [[cs! "pkg", cs! "tests", cs! "t.R"]] else []

/-- No option, no regular expressions. -/
def demoEnv : UnusedEnv := ⟨fun _ => false, fun _ => none⟩

def demoPaths : List DPath := [[cs! "pkg", cs! "R", cs! "a.R"]]

theorem demoUnused_world : PkgWorld demoUnused demoPaths where
  paths_nodup := by decide
  below_nodup d := by
    unfold demoUnused
    simp only
    split
    · decide
    · split
      · decide
      · exact List.nodup_nil
  below_under d q h := by
    unfold demoUnused at h
    simp only at h
    split at h
    · rename_i hd
      subst hd
      simp at h
      rcases h with rfl | rfl <;> decide
    · split at h
      · rename_i hd
        subst hd
        simp at h
        subst h
        decide
      · cases h
  apart p hp q hq _ _ _ := by
    simp [demoPaths] at hp hq
    rw [hp, hq]

theorem demoUnused_roots : Enumerates [[cs! "pkg"]] (· ∈ packageRoots demoUnused demoPaths) := by
  have : packageRoots demoUnused demoPaths = [[cs! "pkg"]] := by decide +kernel
  rw [this]
  exact ⟨by decide, fun _ => Iff.rfl⟩

theorem demoUnused_keys : Enumerates [[cs! "pkg", cs! "R"]]
    (fun k => ∃ f ∈ sharedData asciiAlnum true demoUnused [[cs! "pkg"]] demoPaths, f.rootKey = k) := by
  have h : ∀ f ∈ sharedData asciiAlnum true demoUnused [[cs! "pkg"]] demoPaths, f.rootKey = [cs! "pkg", cs! "R"] := by decide +kernel
  have h2 : (sharedData asciiAlnum true demoUnused [[cs! "pkg"]] demoPaths) ≠ [] := by decide +kernel
  refine ⟨by decide, fun k => ?_⟩
  constructor
  · intro hk
    simp at hk
    subst hk
    obtain ⟨f, hf⟩ := List.exists_mem_of_ne_nil _ h2
    exact ⟨f, hf, h f hf⟩
  · rintro ⟨f, hf, rfl⟩
    simp [h f hf]

theorem demoUnused_plain : ∀ root' content, ¬ ExtraFile demoUnused demoPaths root' ([cs! "pkg"] ++ [cs! "R", cs! "a.R"]) content := by
  intro root' content h
  obtain ⟨r, _, h⟩ := h.searched
  rcases h with ⟨_, h | h | h⟩ | ⟨h, _⟩
  · obtain ⟨h1, h2⟩ := (demoUnused_world.below_under _ _ h)
    rcases r with _ | ⟨a, _ | ⟨b, _ | ⟨c, r⟩⟩⟩ <;> simp at h1
  · obtain ⟨h1, h2⟩ := (demoUnused_world.below_under _ _ h)
    rcases r with _ | ⟨a, _ | ⟨b, _ | ⟨c, r⟩⟩⟩ <;> simp at h1
  · obtain ⟨h1, h2⟩ := (demoUnused_world.below_under _ _ h)
    rcases r with _ | ⟨a, _ | ⟨b, _ | ⟨c, r⟩⟩⟩ <;> simp at h1
  · rw [← isCppFile_iff] at h; revert h; decide +kernel

/-- The hypotheses of **C49** are met. -/
example := C49_reported asciiAlnum_ok (env := demoEnv) demoUnused_world demoUnused_roots demoUnused_keys (root := [cs! "pkg"]) (file := cs! "a.R")
  (by decide) (packageFile_iff.mp (by decide +kernel)) demoUnused_plain rfl ⟨cs! "lost", ⟨58, 62⟩, 3⟩ ⟨⟨_, _, rfl, by decide⟩, by unfold SymChar; decide⟩

/-- **C49**, a concrete case: `lost` is reported, the exported function, the method, the function used in another file are not. -/
theorem C49_example :
    entryAfter [cs! "pkg", cs! "R", cs! "a.R"] (computeUnused demoEnv (namespaceContents demoUnused [[cs! "pkg"]]) [[cs! "pkg", cs! "R"]]
      (sharedData asciiAlnum true demoUnused [[cs! "pkg"]] demoPaths)) = [⟨cs! "lost", ⟨58, 62⟩, 3⟩] ∧
    entryAfter [cs! "pkg", cs! "R", cs! "b.R"] (computeUnused demoEnv (namespaceContents demoUnused [[cs! "pkg"]]) [[cs! "pkg", cs! "R"]]
      (sharedData asciiAlnum true demoUnused [[cs! "pkg"]] demoPaths)) = [] ∧
    entryAfter [cs! "pkg", cs! "tests", cs! "t.R"] (computeUnused demoEnv (namespaceContents demoUnused [[cs! "pkg"]]) [[cs! "pkg", cs! "R"]]
      (sharedData asciiAlnum true demoUnused [[cs! "pkg"]] demoPaths)) = [⟨cs! "check", ⟨0, 5⟩, 1⟩] := by
  refine ⟨?_, ?_, ?_⟩ <;> decide +kernel

/-! ## Names that are not ASCII -/

/-- **C49** (finding): a function whose name contains a non-ASCII letter is reported however often it is used, unless it is
exported, skipped or a method. -/
theorem C49_false_non_ascii {alnum : Char → Bool} (hal : Alnum alnum) {env : UnusedEnv} {fs : PkgFs} {paths roots keys : List DPath}
    (hw : PkgWorld fs paths) (hroots : Enumerates roots (· ∈ packageRoots fs paths))
    (hkeys : Enumerates keys (fun k => ∃ f ∈ sharedData alnum true fs roots paths, f.rootKey = k))
    {root : DPath} {file ns : Str} (hp : root ++ [cs! "R", file] ∈ paths) (hin : PackageFile fs (root ++ [cs! "R", file]))
    (hplain : ∀ root' content, ¬ ExtraFile fs paths root' (root ++ [cs! "R", file]) content)
    (hns : fs.read (root ++ [cs! "NAMESPACE"]) = some ns) {name pre : Str} (hd : DefinedIn alnum fs paths (root ++ [cs! "R"]) (root ++ [cs! "R", file]) pre name)
    {c : Char} (hc : c ∈ name) (hc128 : 128 ≤ c.toNat) (hexp : ¬ NsExports env.re ns name) (hskip : env.skipped name = false) (hdot : '.' ∉ name) :
    ⟨name, ⟨blen pre, blen pre + blen name⟩, 1 + countNl pre⟩ ∈
      entryAfter (root ++ [cs! "R", file]) (computeUnused env (namespaceContents fs roots) keys (sharedData alnum true fs roots paths)) := by
  have hna : ¬ AsciiName name := by
    rintro ⟨_, h⟩
    rcases h c hc with h | rfl | rfl
    · have := isAlphanum_range h
      omega
    · revert hc128; decide
    · revert hc128; decide
  rw [unused_core hal hw hroots hkeys hp hin hplain hns]
  refine ⟨pre, hd, rfl, rfl, hexp, ?_, hskip, ?_, fun h => absurd h hna, fun h => absurd h hna⟩
  · intro h
    have : ∀ n ∈ Hooks, ∀ c ∈ n, c.toNat < 128 := by decide
    have := this name h c hc
    omega
  · intro g c' _ hgc
    have hgc : name = g ++ '.' :: c' := hgc
    rw [hgc] at hdot
    simp at hdot

/-! ## NAMESPACE on several lines -/

theorem nsCall_one_line {l kw inner : Str} (h : NsCall l kw inner) : '(' ∈ l ∧ ')' ∈ l := by
  obtain ⟨b, a, rfl, _⟩ := h
  constructor <;> simp

theorem lineExports_parens {re : Str → Option (Str → Bool)} {l name : Str} (h : LineExports re l name) : '(' ∈ l ∧ ')' ∈ l := by
  cases h with
  | names kw inner item hkw hd hi hq => obtain ⟨_, _, _, h, _⟩ := hd; exact nsCall_one_line h
  | pattern inner p m hd hq hre hm => obtain ⟨_, _, _, h, _⟩ := hd; exact nsCall_one_line h
  | method g c gq cq gen hg hc hd hgq hcq hgen hname => obtain ⟨_, _, _, h, _⟩ := hd; exact nsCall_one_line h
  | method3 g c f rest hg hc hf hrest hd hq => obtain ⟨_, _, _, h, _⟩ := hd; exact nsCall_one_line h

/-- **C49** (finding): an `export(` directive that is closed on another line exports nothing for jarl, so all these functions are
reported as unused unless they are used in the package. -/
theorem C49_false_multiline_export {re : Str → Option (Str → Bool)} {content : Str}
    (h : ∀ pre l post, IsLine content pre l post → ¬ ('(' ∈ l ∧ ')' ∈ l)) (name : Str) : ¬ NsExports re content name := by
  rintro ⟨pre, l, post, hl, _, he⟩
  exact h pre l post hl (lineExports_parens he)

/-- A NAMESPACE file with one name per line. -/
example (re : Str → Option (Str → Bool)) : ¬ NsExports re (cs! "export(\n  foo,\n  bar\n)\n") (cs! "foo") := by
  rw [← C49_namespace (all := [cs! "foo"]) (by decide) (by simp)]
  exact List.not_mem_nil

/-- **C49** (finding): two directives on one line export nothing. -/
theorem C49_false_two_exports (re : Str → Option (Str → Bool)) : ¬ NsExports re (cs! "export(foo); export(bar)\n") (cs! "foo") ∧
    ¬ NsExports re (cs! "export(foo); export(bar)\n") (cs! "bar") := by
  rw [← C49_namespace (all := [cs! "foo"]) (by decide) (by simp), ← C49_namespace (all := [cs! "bar"]) (by decide) (by simp)]
  have h1 : namespaceExports re [cs! "foo"] (cs! "export(foo); export(bar)\n") = [cs! "foo); export(bar"] := rfl
  have h2 : namespaceExports re [cs! "bar"] (cs! "export(foo); export(bar)\n") = [cs! "foo); export(bar"] := rfl
  rw [h1, h2]
  constructor <;> decide

/-- **C49** (finding): so does a parenthesis in a comment behind the directive. -/
theorem C49_false_comment (re : Str → Option (Str → Bool)) : ¬ NsExports re (cs! "export(foo) # (main entry point)\n") (cs! "foo") := by
  rw [← C49_namespace (all := [cs! "foo"]) (by decide) (by simp)]
  have h1 : namespaceExports re [cs! "foo"] (cs! "export(foo) # (main entry point)\n") = [cs! "foo) # (main entry point"] := rfl
  rw [h1]
  decide

/-- For comparison, the usual forms. -/
theorem C49_exports_example (re : Str → Option (Str → Bool)) : NsExports re (cs! "export(foo, \"bar\")\n") (cs! "bar") ∧
    NsExports re (cs! "if (TRUE) S3method(stats::sort_by, data.table)\n") (cs! "sort_by.data.table") ∧
    NsExports re (cs! "\tS3method(print, a, print_a) # note\r\n") (cs! "print_a") := by
  rw [← C49_namespace (all := [cs! "bar"]) (by decide) (by simp), ← C49_namespace (all := [cs! "sort_by.data.table"]) (by decide) (by simp),
    ← C49_namespace (all := [cs! "print_a"]) (by decide) (by simp)]
  have h1 : namespaceExports re [cs! "bar"] (cs! "export(foo, \"bar\")\n") = [cs! "foo", cs! "bar"] := rfl
  have h2 : namespaceExports re [cs! "sort_by.data.table"] (cs! "if (TRUE) S3method(stats::sort_by, data.table)\n") = [cs! "sort_by.data.table"] := rfl
  have h3 : namespaceExports re [cs! "print_a"] (cs! "\tS3method(print, a, print_a) # note\r\n") = [cs! "print_a"] := rfl
  rw [h1, h2, h3]
  refine ⟨?_, ?_, ?_⟩ <;> simp

/-! ## Subdirectories of R -/

/-- A package whose function is used in a platform-specific file. -/
def demoUnix : PkgFs where
  description d := d = [cs! "pkg"]
  read p := if p = [cs! "pkg", cs! "R", cs! "a.R"] then some (cs! "foo <- function() 1\n")
    else if p = [cs! "pkg", cs! "R", cs! "unix", cs! "b.R"] then some (cs! "run <- function() foo()\n")
    else if p = [cs! "pkg", cs! "NAMESPACE"] then some (cs! "export(run)\n") else none
  below d := if d = [cs! "pkg", cs! "R"] then [[cs! "pkg", cs! "R", cs! "a.R"], [cs! "pkg", cs! "R", cs! "unix", cs! "b.R"]] else []

/-- **C49** (finding): uses in `R/unix` and `R/windows` are not seen, although these files are read. -/
theorem C49_false_subdirectory :
    [cs! "pkg", cs! "R", cs! "unix", cs! "b.R"] ∈ (sharedData asciiAlnum true demoUnix [[cs! "pkg"]] demoPaths).map (·.path) ∧
    entryAfter [cs! "pkg", cs! "R", cs! "a.R"] (computeUnused demoEnv (namespaceContents demoUnix [[cs! "pkg"]])
      [[cs! "pkg", cs! "R"], [cs! "pkg", cs! "R", cs! "unix"]] (sharedData asciiAlnum true demoUnix [[cs! "pkg"]] demoPaths)) =
      [⟨cs! "foo", ⟨0, 3⟩, 1⟩] := by
  constructor <;> decide +kernel

/-! ## Kinds of files -/

/-- **C49**: the usual places of tests and sources, when no directory above the package is named `tests`, `inst` or `src`. -/
theorem C49_scope {root : DPath} (h : ∀ c ∈ root, c ≠ cs! "tests" ∧ c ≠ cs! "inst" ∧ c ≠ cs! "src") (rest : DPath) :
    fileScope (root ++ cs! "tests" :: rest) = .tests ∧ fileScope (root ++ cs! "inst" :: cs! "tests" :: rest) = .inst ∧
    fileScope (root ++ cs! "inst" :: cs! "tinytest" :: rest) = .inst ∧ fileScope (root ++ cs! "src" :: rest) = .src := by
  have skip : ∀ s : DPath, fileScope (root ++ s) = fileScope s := by
    intro s
    induction root with
    | nil => rfl
    | cons c cs ih =>
      obtain ⟨h1, h2, h3⟩ := h c (by simp)
      rw [List.cons_append, fileScope.eq_def]; simp only; rw [if_neg h1, if_neg h2, if_neg h3]
      exact ih (fun x hx => h x (by simp [hx]))
  refine ⟨?_, ?_, ?_, ?_⟩ <;> rw [skip] <;> simp [fileScope]

/-- **C49** (finding F14): in a project below a directory named `src`, the tests count as C/C++ sources, so that no function of them is
reported. -/
theorem C49_false_src_directory {a : DPath} (h : ∀ c ∈ a, c ≠ cs! "tests" ∧ c ≠ cs! "inst") {alnum : Char → Bool} {fs : PkgFs} {rest : DPath} {f : SharedFile}
    (hf : scanFile alnum true fs (a ++ cs! "src" :: rest) (fileScope (a ++ cs! "src" :: rest)) = some f) : f.scope = .src ∧ f.assigns = [] := by
  have hs : fileScope (a ++ cs! "src" :: rest) = .src := by
    clear hf
    induction a with
    | nil => simp [fileScope]
    | cons c cs ih =>
      obtain ⟨h1, h2⟩ := h c (by simp)
      rw [List.cons_append, fileScope.eq_def]; simp only; rw [if_neg h1, if_neg h2]
      split
      · rfl
      · exact ih (fun x hx => h x (by simp [hx]))
  obtain ⟨root, c, _, _, rfl⟩ := scanFile_extra.mp hf
  exact ⟨hs, by simp [hs]⟩

end Jarl
