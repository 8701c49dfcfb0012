import Verif.Spec.LintFix
import Verif.Props.Check
import Verif.Props.Fix
/-!
# C21, C22 (the fix loop), C24 (version control), C32 (order of files)
-/
namespace Jarl
open Spec

/-! ### C21 -/

/-- What the loop leaves behind. -/
inductive LoopEnd (L : Lints) (pkg : PackageAnalysis) (cfg : Config) (path : Str) (a : Str) :
    Option Str → Except CheckErr (List Diagnostic) → Prop
  /-- success: the last pass skipped nothing, and the diagnostics are those of the file left behind -/
  | ok {b checks} : Passes L pkg cfg path a false b → getChecks L pkg cfg path b = .ok checks →
      LoopEnd L pkg cfg path a (some b) (.ok checks)
  /-- the file cannot be read after some passes: it is left as the last pass wrote it -/
  | read {s b} : Passes L pkg cfg path a s b → LoopEnd L pkg cfg path a (some b) (.error .read)
  /-- the file after some passes cannot be checked (e.g. a syntax error): it is left as it is -/
  | check {s b e} : Passes L pkg cfg path a s b → getChecks L pkg cfg path b = .error e →
      LoopEnd L pkg cfg path a (some b) (.error e)
  /-- applying fixes panics: the file is left as it is -/
  | panic {b checks} : Passes L pkg cfg path a true b → getChecks L pkg cfg path b = .ok checks →
      applyFixes (checks.map (·.fix)) b = none → LoopEnd L pkg cfg path a (some b) (.error .panic)
  /-- a write fails: the operating system decides what is left -/
  | write {b s c left} : Passes L pkg cfg path a true b → Pass L pkg cfg path b s c →
      LoopEnd L pkg cfg path a left (.error .write)

theorem lintFixLoop_end {L : Lints} {pkg : PackageAnalysis} {cfg : Config} {path a : Str} {io : Io} :
    ∀ {fuel n : Nat} {s : Bool} {b : Str} {d' : Option Str} {res : Except CheckErr (List Diagnostic)},
      Passes L pkg cfg path a s b → lintFixLoop L pkg cfg path io fuel n s (some b) = (d', some res) →
      LoopEnd L pkg cfg path a d' res
  | 0, _, _, _, _, _, _, h => by simp [lintFixLoop] at h
  | fuel + 1, n, s, b, d', res, hp, h => by
    unfold lintFixLoop at h
    cases hr : io.read n (some b) with
    | none =>
      rw [hr] at h
      cases h
      exact .read hp
    | some contents =>
      rw [hr] at h
      have hcb : contents = b := by
        unfold Io.read at hr
        split at hr
        · cases hr; rfl
        · cases hr
      subst hcb
      simp only at h
      split at h
      · rename_i e he
        cases h
        exact .check hp he
      · rename_i checks he
        split at h
        · rename_i hs
          cases h
          simp only [Bool.not_eq_true'] at hs
          subst hs
          exact .ok hp he
        · rename_i hs
          simp only [Bool.not_eq_true', Bool.not_eq_false] at hs
          subst hs
          split at h
          · rename_i hf
            cases h
            exact .panic hp he hf
          · rename_i s' text hf
            split at h
            · cases h
              exact .write hp ⟨checks, he, hf⟩
            · exact lintFixLoop_end (.step hp ⟨checks, he, hf⟩) h

/-- **C21 (fixing an R file).** However many passes it takes and whatever reads and writes fail: the outcome is one of
`LoopEnd`. In particular on success the returned diagnostics are those of the text left on disk, which was reached from the
original text by fix passes only; and a file that does not parse is left untouched by that pass. -/
theorem C21_fix_outcome {L : Lints} {pkg : PackageAnalysis} {cfg : Config} {path a : Str} {io : Io} {fuel : Nat}
    {d' : Option Str} {res : Except CheckErr (List Diagnostic)} (hr : hasRmdExtension path = false)
    (h : lintFix L pkg cfg path io fuel (some a) = (d', some res)) : LoopEnd L pkg cfg path a d' res := by
  unfold lintFix at h
  rw [hr] at h
  exact lintFixLoop_end .start h

theorem rawDiagnostics_no_package {rules : List Rule} {m : Manager} {ex un : List Diagnostic}
    {du du' uu uu' : List (Str × Range × Str)} (h1 : Rule.duplicatedFunctionDefinition ∉ rules)
    (h2 : Rule.unusedFunction ∉ rules) :
    rawDiagnostics rules m ex un du uu = rawDiagnostics rules m ex un du' uu' := by
  unfold rawDiagnostics
  have hg : ∀ (r : Rule) (a b : List Diagnostic), r ∉ rules → gate rules r a = gate rules r b := by
    intro r a b h; simp [gate, h]
  rw [hg _ _ (pkgDiags .duplicatedFunctionDefinition (cs! "is defined more than once in this package.") du') h1,
    hg _ _ (pkgDiags .unusedFunction (cs! "is defined but never called in this package.") uu') h2]

theorem getChecks_no_package {L : Lints} {pkg pkg' : PackageAnalysis} {cfg : Config} {path c : Str}
    (h1 : Rule.duplicatedFunctionDefinition ∉ cfg.rulesToApply) (h2 : Rule.unusedFunction ∉ cfg.rulesToApply) :
    getChecks L pkg cfg path c = getChecks L pkg' cfg path c := by
  have hd : ∀ m ex un, checkDocument cfg.lintInput.ruleSet m ex un (pkg.duplicates path) (pkg.unused path) =
      checkDocument cfg.lintInput.ruleSet m ex un (pkg'.duplicates path) (pkg'.unused path) := by
    intro m ex un
    unfold checkDocument
    rw [rawDiagnostics_no_package (rules := cfg.lintInput.ruleSet) (du' := pkg'.duplicates path) (uu' := pkg'.unused path) h1 h2]
  unfold getChecks getChecksR checkerDiagnostics runChecker
  simp only [hd]

/-- **C21 (a later run agrees).** With the two package-wide rules off, checking the file that a successful fixing run left
gives exactly the diagnostics which that run returned. -/
theorem C21_recheck {L : Lints} {pkg : PackageAnalysis} {cfg : Config} {path : Str} {io : Io} {fuel : Nat}
    {d d' : Option Str} {checks : List Diagnostic} (h1 : Rule.duplicatedFunctionDefinition ∉ cfg.rulesToApply)
    (h2 : Rule.unusedFunction ∉ cfg.rulesToApply)
    (h : checkPath L pkg cfg path io fuel d = (d', some (.ok checks))) (pkg' : PackageAnalysis) :
    lintOnly L pkg' cfg path Io.good d' = .ok checks := by
  have hl : ∀ io d, lintOnly L pkg cfg path io d = .ok checks → lintOnly L pkg' cfg path Io.good d = .ok checks := by
    intro io d h
    unfold lintOnly Io.read at *
    cases hr : io.readOk 0 with
    | false => simp [hr] at h
    | true =>
      cases d with
      | none => simp [hr] at h
      | some c =>
        simp [hr] at h
        rw [← h]
        simp [Io.good]
        exact getChecks_no_package h1 h2
  unfold checkPath at h
  split at h
  · cases hx : hasRmdExtension path with
    | true =>
      unfold lintFix at h
      rw [hx] at h
      simp only [if_true, Prod.mk.injEq, Option.some.injEq] at h
      exact h.1 ▸ hl io d h.2
    | false =>
      cases d with
      | none =>
        unfold lintFix at h
        rw [hx] at h
        cases fuel with
        | zero => simp [lintFixLoop] at h
        | succ f => simp [lintFixLoop, Io.read] at h
      | some a =>
        cases C21_fix_outcome hx h with
        | ok _ hg =>
          unfold lintOnly Io.read Io.good
          simp only [if_true]
          rw [getChecks_no_package (pkg' := pkg) h1 h2, hg]
  · simp only [Prod.mk.injEq, Option.some.injEq] at h
    exact h.1 ▸ hl io d h.2

/-- **C21 (syntax errors).** A file with a syntax error is not modified. -/
theorem C21_parse_error_untouched {L : Lints} {pkg : PackageAnalysis} {cfg : Config} {path a : Str} {io : Io} {fuel : Nat}
    (ha : L.parse a = none) (hr : hasRmdExtension path = false) :
    (checkPath L pkg cfg path io fuel (some a)).1 = some a := by
  unfold checkPath
  split
  · unfold lintFix
    rw [hr]
    simp only [Bool.false_eq_true, if_false]
    cases fuel with
    | zero => rfl
    | succ fuel =>
      unfold lintFixLoop
      cases hrd : io.read 0 (some a) with
      | none => rfl
      | some contents =>
        have hcb : contents = a := by
          unfold Io.read at hrd
          split at hrd
          · cases hrd; rfl
          · cases hrd
        subst hcb
        have : getChecks L pkg cfg path contents = .error .parse := by
          unfold getChecks getChecksR checkerDiagnostics
          rw [hr, ha]
          rfl
        simp only [this]
  · rfl

/-- **C21 (no writes).** Rmd and Qmd files, files that cannot be read, and runs without `--fix` and `--unsafe-fixes`
never change the file. -/
theorem C21_no_writes {L : Lints} {pkg : PackageAnalysis} {cfg : Config} {path : Str} {io : Io} {fuel : Nat}
    {d : Option Str}
    (h : hasRmdExtension path = true ∨ (cfg.applyFixes = false ∧ cfg.applyUnsafeFixes = false) ∨ d = none) :
    (checkPath L pkg cfg path io fuel d).1 = d := by
  unfold checkPath
  rcases h with h | ⟨h1, h2⟩ | rfl
  · split
    · unfold lintFix; rw [if_pos h]
    · rfl
  · rw [h1, h2]; rfl
  · split
    · unfold lintFix
      split
      · rfl
      · cases fuel with
        | zero => rfl
        | succ fuel =>
          unfold lintFixLoop
          have : io.read 0 none = none := by unfold Io.read; split <;> rfl
          rw [this]
    · rfl

/-! ### C22 -/

/-- More fuel does not change an outcome: `fuel` only cuts off, it is not part of the program. -/
theorem lintFixLoop_fuel {L : Lints} {pkg : PackageAnalysis} {cfg : Config} {path : Str} {io : Io} :
    ∀ {fuel fuel' n : Nat} {s : Bool} {d d' : Option Str} {res : Except CheckErr (List Diagnostic)}, fuel ≤ fuel' →
      lintFixLoop L pkg cfg path io fuel n s d = (d', some res) →
      lintFixLoop L pkg cfg path io fuel' n s d = (d', some res)
  | 0, _, _, _, _, _, _, _, h => by simp [lintFixLoop] at h
  | fuel + 1, 0, _, _, _, _, _, hle, _ => by omega
  | fuel + 1, fuel' + 1, n, s, d, d', res, hle, h => by
    unfold lintFixLoop at h ⊢
    cases hr : io.read n d with
    | none => rw [hr] at h; exact h
    | some contents =>
      rw [hr] at h
      simp only at h ⊢
      cases he : getChecks L pkg cfg path contents with
      | error e => rw [he] at h; exact h
      | ok checks =>
        rw [he] at h
        simp only at h ⊢
        by_cases hs : (!s) = true
        · rw [if_pos hs] at h ⊢; exact h
        · rw [if_neg hs] at h ⊢
          cases hf : applyFixes (checks.map (·.fix)) contents with
          | none => rw [hf] at h; exact h
          | some r =>
            rw [hf] at h
            simp only at h ⊢
            cases hw : io.writeFails n with
            | some l => rw [hw] at h; exact h
            | none => rw [hw] at h; exact lintFixLoop_fuel (by omega) h

theorem lintFixLoop_terminates_inv {L : Lints} {pkg : PackageAnalysis} {cfg : Config} {path : Str} {io : Io} (I : Str → Prop) (μ : Str → Nat)
    (hμ : ∀ a b, I a → Pass L pkg cfg path a true b → I b ∧ μ b < μ a) :
    ∀ (k fuel n : Nat) (s : Bool) (a : Str), I a → μ a ≤ k → k + 2 ≤ fuel → 
      (lintFixLoop L pkg cfg path io fuel n s (some a)).2.isSome = true := by
  have hfalse : ∀ (fuel n : Nat) (a : Str), 1 ≤ fuel →
      (lintFixLoop L pkg cfg path io fuel n false (some a)).2.isSome = true := by
    intro fuel n a hf
    cases fuel with
    | zero => omega
    | succ fuel =>
      unfold lintFixLoop
      cases io.read n (some a) with
      | none => rfl
      | some c =>
        simp only
        cases getChecks L pkg cfg path c <;> rfl
  intro k
  induction k with
  | zero =>
    intro fuel n s a hI hk hf
    cases s with
    | false => exact hfalse _ _ _ (by omega)
    | true =>
      cases fuel with
      | zero => omega
      | succ fuel =>
        unfold lintFixLoop
        cases hr : io.read n (some a) with
        | none => rfl
        | some c =>
          have hca : c = a := by
            unfold Io.read at hr
            split at hr
            · cases hr; rfl
            · cases hr
          subst hca
          simp only
          cases he : getChecks L pkg cfg path c with
          | error e => rfl
          | ok checks =>
            simp only [Bool.not_true, Bool.false_eq_true, if_false]
            cases hf : applyFixes (checks.map (·.fix)) c with
            | none => rfl
            | some r =>
              obtain ⟨s', text⟩ := r
              simp only
              cases io.writeFails n with
              | some l => rfl
              | none =>
                cases s' with
                | false => exact hfalse _ _ _ (by omega)
                | true => have := (hμ c text hI ⟨checks, he, hf⟩).2; omega
  | succ k ih =>
    intro fuel n s a hI hk hf
    cases s with
    | false => exact hfalse _ _ _ (by omega)
    | true =>
      cases fuel with
      | zero => omega
      | succ fuel =>
        unfold lintFixLoop
        cases hr : io.read n (some a) with
        | none => rfl
        | some c =>
          have hca : c = a := by
            unfold Io.read at hr
            split at hr
            · cases hr; rfl
            · cases hr
          subst hca
          simp only
          cases he : getChecks L pkg cfg path c with
          | error e => rfl
          | ok checks =>
            simp only [Bool.not_true, Bool.false_eq_true, if_false]
            cases hf : applyFixes (checks.map (·.fix)) c with
            | none => rfl
            | some r =>
              obtain ⟨s', text⟩ := r
              simp only
              cases io.writeFails n with
              | some l => rfl
              | none =>
                cases s' with
                | false => exact hfalse _ _ _ (by omega)
                | true =>
                  have := hμ c text hI ⟨checks, he, hf⟩
                  exact ih fuel (n + 1) true text this.1 (by omega) (by omega)

theorem lintFixLoop_terminates {L : Lints} {pkg : PackageAnalysis} {cfg : Config} {path : Str} {io : Io} (μ : Str → Nat)
    (hμ : ∀ a b, Pass L pkg cfg path a true b → μ b < μ a) (k fuel n : Nat) (s : Bool) (a : Str) (h1 : μ a ≤ k) (h2 : k + 2 ≤ fuel) :
      (lintFixLoop L pkg cfg path io fuel n s (some a)).2.isSome = true :=
  lintFixLoop_terminates_inv (fun _ => True) μ (fun a b _ h => ⟨trivial, hμ a b h⟩) k fuel n s a trivial h1 h2

/-- **C22 (termination).** If every pass that skips a fix makes some measure of the text smaller, fixing a file ends, after
at most `μ a + 2` passes. -/
theorem C22_terminates {L : Lints} {pkg : PackageAnalysis} {cfg : Config} {path : Str} {io : Io} (μ : Str → Nat)
    (hμ : ∀ a b, Pass L pkg cfg path a true b → μ b < μ a) (a : Str) (fuel : Nat) (hf : μ a + 2 ≤ fuel) :
    ∃ d' res, lintFix L pkg cfg path io fuel (some a) = (d', some res) := by
  unfold lintFix
  split
  · exact ⟨_, _, rfl⟩
  · have := lintFixLoop_terminates (io := io) μ hμ (μ a) fuel 0 true a (Nat.le_refl _) hf
    obtain ⟨res, hres⟩ := Option.isSome_iff_exists.mp this
    exact ⟨_, res, by rw [← hres]⟩

/-- **C22 (a further pass is only run after a real fix).** A pass that skips a fix has a diagnostic with a real fix. -/
theorem C22_skip_means_fix {L : Lints} {pkg : PackageAnalysis} {cfg : Config} {path a b : Str}
    (h : Pass L pkg cfg path a true b) :
    ∃ checks, getChecks L pkg cfg path a = .ok checks ∧ ∃ d ∈ checks, ¬ IsPlaceholder d.fix := by
  obtain ⟨checks, h1, h2⟩ := h
  refine ⟨checks, h1, ?_⟩
  apply Classical.byContradiction
  intro hne
  have := C20_no_fix_no_change a (checks.map (·.fix)) (by
    intro f hf
    obtain ⟨d, hd, rfl⟩ := List.mem_map.mp hf
    exact Classical.byContradiction (fun hn => hne ⟨d, hd, hn⟩))
  rw [this] at h2
  cases h2

/-- **C22 (the first fix is always applied).** The first real fix of a pass is never skipped. -/
theorem C22_first_fix_applied {doc : Str} {phs : List Fix} {f : Fix} (rest : List Fix)
    (hph : ∀ g ∈ phs, IsPlaceholder g) {s : Bool} {out : Str} (h : applyFixes (phs ++ f :: rest) doc = some (s, out)) :
    ∃ mid st, replaceRange doc f.start f.stop f.content = some mid ∧
      fixLoop (doc.length : Int) rest ⟨mid, (f.stop : Int), false, (mid.length : Int)⟩ = some st ∧
      st.skipped = s ∧ st.content = out := by
  have hpre : ∀ (phs : List Fix), (∀ g ∈ phs, IsPlaceholder g) →
      fixLoop (doc.length : Int) (phs ++ f :: rest) ⟨doc, 0, false, doc.length⟩ =
      fixLoop (doc.length : Int) (f :: rest) ⟨doc, 0, false, doc.length⟩ := by
    intro phs
    induction phs with
    | nil => intro _; rfl
    | cons g gs ih =>
      intro hg
      obtain ⟨h1, h2, h3⟩ := hg g (by simp)
      have hstep : fixStep doc.length ⟨doc, 0, false, doc.length⟩ g = some ⟨doc, 0, false, doc.length⟩ := by
        unfold fixStep
        simp only [h1, h2, h3]
        have hr : replaceRange doc 0 0 [] = some doc := by
          simpa using replaceRange_append [] [] doc []
        simp [hr]
      simp only [List.cons_append, fixLoop, hstep]
      exact ih (fun g hg' => hg g (by simp [hg']))
  simp only [applyFixes] at h
  rw [hpre phs hph] at h
  unfold fixLoop at h
  have hstep : fixStep doc.length ⟨doc, 0, false, doc.length⟩ f =
      (replaceRange doc f.start f.stop f.content).map (fun mid => ⟨mid, (f.stop : Int), false, (mid.length : Int)⟩) := by
    unfold fixStep
    have h1 : ((doc.length : Int) - doc.length) = 0 := by omega
    simp only [h1, Int.add_zero]
    rw [if_neg (by omega), if_neg (by omega)]
    simp only [Int.toNat_natCast]
    cases replaceRange doc f.start f.stop f.content <;> rfl
  rw [hstep] at h
  cases hr : replaceRange doc f.start f.stop f.content with
  | none => rw [hr] at h; simp at h
  | some mid =>
    rw [hr] at h
    simp only [Option.map_some] at h
    split at h
    · cases h
    · rename_i st hst
      cases h
      exact ⟨mid, st, rfl, hst, rfl, rfl⟩

/-! ### C24 -/

theorem checkVersionControl_iff (v : Vcs) (cfg : Config) (paths : List Str) :
    checkVersionControl v cfg paths = true ↔ VcsAllows v cfg paths := by
  unfold checkVersionControl VcsAllows
  by_cases h1 : cfg.allowNoVcs = true
  · simp [h1]
  · simp only [h1, Bool.false_eq_true, if_false, false_or]
    by_cases h2 : paths.any (fun p => (v.repo p).isNone) = true
    · rw [if_pos h2]
      obtain ⟨p, hp, hn⟩ := List.any_eq_true.mp h2
      refine ⟨fun h => by simp at h, fun ⟨h, _⟩ => ?_⟩
      obtain ⟨r, hr⟩ := h p hp
      rw [hr] at hn
      simp at hn
    · rw [if_neg h2]
      have h2' : ∀ p ∈ paths, ∃ r, v.repo p = some r := by
        intro p hp
        cases hr : v.repo p with
        | none => exact absurd (List.any_eq_true.mpr ⟨p, hp, by simp [hr]⟩) h2
        | some r => exact ⟨r, rfl⟩
      by_cases h3 : cfg.allowDirty = true
      · simp only [h3, if_true, true_or, and_true]
        exact ⟨fun _ => h2', fun _ => trivial⟩
      · simp only [h3, Bool.false_eq_true, if_false, false_or]
        by_cases h4 : (paths.filterMap v.repo).any (fun r => (v.status r).isNone) = true
        · rw [if_pos h4]
          obtain ⟨r, hr, hn⟩ := List.any_eq_true.mp h4
          obtain ⟨p, hp, hpr⟩ := List.mem_filterMap.mp hr
          refine ⟨fun h => by simp at h, fun ⟨_, h⟩ => ?_⟩
          obtain ⟨es, he, _⟩ := h p hp r hpr
          rw [he] at hn
          simp at hn
        · rw [if_neg h4]
          simp only [List.isEmpty_iff, List.flatMap_eq_nil_iff, List.filter_eq_nil_iff]
          constructor
          · intro h
            refine ⟨h2', ?_⟩
            intro p hp r hpr
            have hmem : r ∈ paths.filterMap v.repo := List.mem_filterMap.mpr ⟨p, hp, hpr⟩
            cases hs : v.status r with
            | none => exact absurd (List.any_eq_true.mpr ⟨r, hmem, by simp [hs]⟩) h4
            | some es =>
              refine ⟨es, rfl, fun e he hsome => ?_⟩
              have := h r hmem e (by simpa [hs] using he)
              simp [hsome] at this
              exact this
          · rintro ⟨_, h⟩ r hr e he
            obtain ⟨p, hp, hpr⟩ := List.mem_filterMap.mp hr
            obtain ⟨es, hes, hall⟩ := h p hp r hpr
            rw [hes] at he
            simp only [Bool.and_eq_true, not_and]
            intro hsome
            have := hall e (by simpa using he) hsome
            simp [this]

/-- **C24 (guard).** With `--fix` or `--unsafe-fixes`, when version control does not allow it, no file changes and the run
reports one error. -/
theorem C24_guard {L : Lints} {analysis : Disk → PackageAnalysis} {v : Vcs} {cfg : Config} {io : Str → Io} {fuel : Nat}
    {first : Str} {paths : List Str} {d : Disk} (hf : cfg.applyFixes = true ∨ cfg.applyUnsafeFixes = true)
    (hv : ¬ VcsAllows v cfg (first :: paths)) :
    check L analysis v cfg io fuel (first :: paths) d = (d, [(first, some (.error .vcs))]) := by
  unfold check
  have h1 : (cfg.applyFixes || cfg.applyUnsafeFixes) = true := by simpa using hf
  have h2 : checkVersionControl v cfg (first :: paths) = false := by
    cases h : checkVersionControl v cfg (first :: paths) with
    | false => rfl
    | true => exact absurd ((checkVersionControl_iff v cfg _).mp h) hv
  simp [h1, h2]

/-- **C24 (guard passed).** When version control allows it, the guard changes nothing. -/
theorem C24_allowed {L : Lints} {analysis : Disk → PackageAnalysis} {v : Vcs} {cfg : Config} {io : Str → Io} {fuel : Nat}
    {paths : List Str} {d : Disk} (hv : VcsAllows v cfg paths) :
    check L analysis v cfg io fuel paths d = checkPaths L (analysis d) cfg io fuel paths d := by
  unfold check
  simp only [(checkVersionControl_iff v cfg paths).mpr hv, Bool.not_true, Bool.and_false, Bool.false_eq_true, if_false]
  cases paths <;> rfl

/-- **C24 (not consulted).** Without `--fix` and `--unsafe-fixes` the result does not depend on version control. -/
theorem C24_not_consulted {L : Lints} {analysis : Disk → PackageAnalysis} {v v' : Vcs} {cfg : Config} {io : Str → Io}
    {fuel : Nat} {paths : List Str} {d : Disk} (h1 : cfg.applyFixes = false) (h2 : cfg.applyUnsafeFixes = false) :
    check L analysis v cfg io fuel paths d = check L analysis v' cfg io fuel paths d := by
  unfold check
  simp only [h1, h2, Bool.or_self, Bool.false_and, Bool.false_eq_true, if_false]

/-! ### C32 -/

theorem checkPaths_disk {L : Lints} {pkg : PackageAnalysis} {cfg : Config} {io : Str → Io} {fuel : Nat} :
    ∀ {ps : List Str} {d : Disk}, ps.Nodup →
      (∀ q, (checkPaths L pkg cfg io fuel ps d).1 q =
        if q ∈ ps then (checkPath L pkg cfg q (io q) fuel (d q)).1 else d q) ∧
      (checkPaths L pkg cfg io fuel ps d).2 = ps.map (fun p => (p, (checkPath L pkg cfg p (io p) fuel (d p)).2))
  | [], d, _ => by simp [checkPaths]
  | p :: ps, d, hn => by
    rw [List.nodup_cons] at hn
    obtain ⟨h1, h2⟩ := checkPaths_disk (L := L) (pkg := pkg) (cfg := cfg) (io := io) (fuel := fuel) (ps := ps)
      (d := d.set p (checkPath L pkg cfg p (io p) fuel (d p)).1) hn.2
    unfold checkPaths
    simp only
    refine ⟨?_, ?_⟩
    · intro q
      rw [h1 q]
      by_cases hq : q = p
      · subst hq
        simp [hn.1, Disk.set]
      · simp only [List.mem_cons, hq, false_or, Disk.set, if_false]
    · rw [h2]
      simp only [List.map_cons, List.cons.injEq, true_and]
      apply List.map_congr_left
      intro x hx
      have : x ≠ p := fun h => hn.1 (h ▸ hx)
      simp [Disk.set, this]

/-- In whatever order the files are treated (each file once, see C32 in Props/Schedule.lean for interleavings), the files end up the same and each
file gets the same result. -/
theorem checkPaths_order {L : Lints} {pkg : PackageAnalysis} {cfg : Config} {io : Str → Io} {fuel : Nat}
    {ps qs : List Str} {d : Disk} (hn : ps.Nodup) (hp : ps.Perm qs) :
    (checkPaths L pkg cfg io fuel ps d).1 = (checkPaths L pkg cfg io fuel qs d).1 ∧
    (checkPaths L pkg cfg io fuel ps d).2.Perm (checkPaths L pkg cfg io fuel qs d).2 := by
  obtain ⟨h1, h2⟩ := checkPaths_disk (L := L) (pkg := pkg) (cfg := cfg) (io := io) (fuel := fuel) (d := d) hn
  obtain ⟨h3, h4⟩ := checkPaths_disk (L := L) (pkg := pkg) (cfg := cfg) (io := io) (fuel := fuel) (d := d)
    (hp.nodup_iff.mp hn)
  refine ⟨?_, ?_⟩
  · funext q
    rw [h1, h3]
    simp only [hp.mem_iff]
  · rw [h2, h4]
    exact hp.map _

/-- The result of a file does not depend on the other files (beyond the package analysis), and no other
file is touched. -/
theorem checkPaths_isolated {L : Lints} {pkg : PackageAnalysis} {cfg : Config} {io : Str → Io} {fuel : Nat} {ps : List Str}
    {d : Disk} (hn : ps.Nodup) (p : Str) :
    (p ∈ ps → (p, (checkPath L pkg cfg p (io p) fuel (d p)).2) ∈ (checkPaths L pkg cfg io fuel ps d).2) ∧
    (p ∉ ps → (checkPaths L pkg cfg io fuel ps d).1 p = d p) := by
  obtain ⟨h1, h2⟩ := checkPaths_disk (L := L) (pkg := pkg) (cfg := cfg) (io := io) (fuel := fuel) (d := d) hn
  refine ⟨fun h => ?_, fun h => ?_⟩
  · rw [h2]; exact List.mem_map.mpr ⟨p, h, rfl⟩
  · rw [h1, if_neg h]

/-! ### A concrete file (test): nested `any(is.na())`, fixed in two passes -/

def exText0 : Str := cs! "any(is.na(any(is.na(x))))\n"
def exText1 : Str := cs! "anyNA(any(is.na(x)))\n"
def exText2 : Str := cs! "anyNA(anyNA(x))\n"

/-- A parser and lints for the texts above only. -/
def exFixLints : Lints where
  parse code := if code = cs! "f(" then none else some ⟨.mk ⟨0, 16⟩ false [] [] [] [], some code⟩
  expressions _ code :=
    if code = exText0 then .ok [
      .new (cs! "any_is_na") [] none ⟨0, 25⟩ ⟨cs! "anyNA(any(is.na(x)))", 0, 25, false⟩,
      .new (cs! "any_is_na") [] none ⟨10, 23⟩ ⟨cs! "anyNA(x)", 10, 23, false⟩]
    else if code = exText1 then .ok [.new (cs! "any_is_na") [] none ⟨6, 19⟩ ⟨cs! "anyNA(x)", 6, 19, false⟩]
    else .ok []
  unreachable _ _ := .ok []

def exFixConfig : Config := { exConfig with applyFixes := true }

/-- C21, C22: the loop reaches the fully fixed text in three readings, and reports nothing. -/
example : (match lintFix exFixLints exPkg exFixConfig (cs! "a.R") Io.good 3 (some exText0) with
    | (some t, some (.ok ds)) => some (t, ds)
    | _ => none) = some (exText2, []) := by decide +kernel

/-- The first pass skips the inner fix. -/
example : Pass exFixLints exPkg exFixConfig (cs! "a.R") exText0 true exText1 := by
  refine ⟨[{ Diagnostic.new (cs! "any_is_na") [] none ⟨0, 25⟩ ⟨cs! "anyNA(any(is.na(x)))", 0, 25, false⟩ with
        filename := cs! "a.R", location := some (1, 0) },
      { Diagnostic.new (cs! "any_is_na") [] none ⟨10, 23⟩ ⟨cs! "anyNA(x)", 10, 23, false⟩ with
        filename := cs! "a.R", location := some (1, 10) }], ?_, ?_⟩
  · rfl
  · decide +kernel

theorem exFix_other (a : Str) (h0 : a ≠ exText0) (h1 : a ≠ exText1) :
    getChecks exFixLints exPkg exFixConfig (cs! "a.R") a = .ok [] ∨
    getChecks exFixLints exPkg exFixConfig (cs! "a.R") a = .error .parse := by
  have hx : hasRmdExtension (cs! "a.R") = false := by decide +kernel
  unfold getChecks
  rw [hx]
  simp only [Bool.false_eq_true, if_false]
  unfold getChecksR checkerDiagnostics
  by_cases hp : a = cs! "f("
  · right
    simp [exFixLints, hp]
    rfl
  · left
    have hparse : exFixLints.parse a = some ⟨.mk ⟨0, 16⟩ false [] [] [] [], some a⟩ := by simp [exFixLints, hp]
    have hexp : exFixLints.expressions exFixConfig.lintInput a = .ok [] := by simp [exFixLints, h0, h1]
    have hm : fromNode (.mk ⟨0, 16⟩ false [] [] [] []) a = some {} := by
      unfold fromNode
      split <;> rfl
    rw [hparse]
    simp only [hm]
    unfold runChecker unreachableDiags
    rw [hexp]
    rfl

/-- C22: the premise of `C22_terminates` holds here, with the length of the text as measure. -/
example : ∀ a b, Pass exFixLints exPkg exFixConfig (cs! "a.R") a true b → b.length < a.length := by
  intro a b ⟨checks, h1, h2⟩
  by_cases h0 : a = exText0
  · subst h0
    have : getChecks exFixLints exPkg exFixConfig (cs! "a.R") exText0 = .ok [
      { Diagnostic.new (cs! "any_is_na") [] none ⟨0, 25⟩ ⟨cs! "anyNA(any(is.na(x)))", 0, 25, false⟩ with
        filename := cs! "a.R", location := some (1, 0) },
      { Diagnostic.new (cs! "any_is_na") [] none ⟨10, 23⟩ ⟨cs! "anyNA(x)", 10, 23, false⟩ with
        filename := cs! "a.R", location := some (1, 10) }] := rfl
    rw [this] at h1
    cases h1
    have hb : applyFixes [⟨cs! "anyNA(any(is.na(x)))", 0, 25, false⟩, ⟨cs! "anyNA(x)", 10, 23, false⟩] exText0 =
      some (true, exText1) := by decide +kernel
    have h2' := (show applyFixes _ exText0 = _ from hb).symm.trans h2
    cases h2'
    decide
  · by_cases h0' : a = exText1
    · subst h0'
      have : getChecks exFixLints exPkg exFixConfig (cs! "a.R") exText1 = .ok [
        { Diagnostic.new (cs! "any_is_na") [] none ⟨6, 19⟩ ⟨cs! "anyNA(x)", 6, 19, false⟩ with
          filename := cs! "a.R", location := some (1, 6) }] := rfl
      rw [this] at h1
      cases h1
      have hb : applyFixes [⟨cs! "anyNA(x)", 6, 19, false⟩] exText1 = some (false, exText2) := by decide +kernel
      have h2' := (show applyFixes _ exText1 = _ from hb).symm.trans h2
      cases h2'
    · exfalso
      rcases exFix_other a h0 h0' with h | h
      · rw [h] at h1
        cases h1
        exact absurd h2 (by simp [applyFixes, fixLoop])
      · rw [h] at h1
        cases h1

def exRepo : Vcs := ⟨fun p => if p = cs! "a.R" then some (cs! ".") else none, fun _ => some [(some (cs! "a.R"), true)]⟩
def exDirty : Vcs := ⟨fun _ => some (cs! "."), fun _ => some [(some (cs! "b.R"), false)]⟩

/-- C24: both outcomes occur. -/
example : VcsAllows exRepo exFixConfig [cs! "a.R"] ∧ ¬ VcsAllows exRepo exFixConfig [cs! "a.R", cs! "b.R"] ∧
    ¬ VcsAllows exDirty exFixConfig [cs! "a.R"] ∧
    VcsAllows exDirty { exFixConfig with allowDirty := true } [cs! "a.R"] := by
  simp only [← checkVersionControl_iff]
  decide +kernel

end Jarl
