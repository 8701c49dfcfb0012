import Verif.Props.RTextMain
import Verif.Props.RLawsExamples
/-!
# C66: a file with two fixes, and the loop over a file

Tests, not proofs: they show that the hypotheses of the theorems of `RTextMain` can be met.
-/
namespace Jarl
open Spec

/-- A file: comments, blanks, two calls that have fixes. -/
def twoText : Str := cs! "y <- f( # first\n  any(is.na(x)), # second\n  length(levels(x)) ) # last\n"

/-- The file with both fixes. -/
def twoFixed : Str := cs! "y <- f( # first\n  anyNA(x), # second\n  nlevels(x) ) # last\n"

/-- The tokens of the file. -/
def twoSrc : Src := (lex twoText).getD ⟨[], []⟩

/-- A line break, with a comment behind the token before it. -/
def nlc : Gap := .line true false

/-- `any(is.na(x))`, with these blanks in front of it. -/
def anyNa' (g : Gap) : Node := .call (.atom g .id (cs! "any")) .none .par (cl (cs! "is.na") x') .none

/-- `length(levels(x))` -/
def lenLev' (g : Gap) : Node := .call (.atom g .id (cs! "length")) .none .par (cl (cs! "levels") x') .none

def textZ1 : Zip := ⟨[.commaA .none (lenLev' nlc), .callA (nm (cs! "f")) .none .par .none, .binR (nm (cs! "y")) .none .assign, stmt1], anyNa' nlc⟩

def textZ2 : Zip := ⟨[.commaR (anyNa' nlc) .none, .callA (nm (cs! "f")) .none .par .none, .binR (nm (cs! "y")) .none .assign, stmt1], lenLev' nlc⟩

/-- The fixes of the two rules, with their texts. -/
def twoEds : List (Edit × Str) :=
  [((anyIsNa textZ1).getD ⟨textZ1, [], true⟩, cs! "anyNA(x)"), ((lengthLevels textZ2).getD ⟨textZ2, [], true⟩, cs! "nlevels(x)")]

theorem twoText_reads : ReadsAs twoText twoSrc textZ1.prog := ⟨by decide +kernel, parses_of (by decide +kernel)⟩

/-- `Airy` can be computed. -/
def airyB : Option TK → List Piece → Bool
  | _, [] => true
  | prev, p :: ps => (p.gap ≠ [] || (prev ≠ some .else && prev ≠ some .in && prev ≠ some .repeat && prev ≠ some (.op .lt) && p.k ≠ .else && p.k ≠ .in)) && airyB (some p.k) ps

theorem airy_of : ∀ {ps : List Piece} {prev : Option TK}, airyB prev ps = true → Airy prev ps := by
  intro ps
  induction ps with
  | nil => intro prev _; trivial
  | cons p ps ih =>
    intro prev h
    simp only [airyB, Bool.and_eq_true, Bool.or_eq_true, decide_eq_true_eq] at h
    refine ⟨fun hg => ?_, ih h.2⟩
    rcases h.1 with h | h
    · exact absurd hg h
    · exact ⟨h.1.1.1.1.1, h.1.1.1.1.2, h.1.1.1.2, h.1.1.2, h.1.2, h.2⟩

theorem twoText_airy : Airy none twoSrc.pieces := airy_of (by decide +kernel)

theorem twoText_fixes : FixTexts keepingRules textZ1.prog twoEds := by
  intro e he
  simp only [twoEds, List.mem_cons, List.not_mem_nil, or_false] at he
  rcases he with rfl | rfl
  · refine ⟨⟨(cs! "any_is_na", anyIsNa), by simp [keepingRules], textZ1, rfl, rfl, by decide +kernel⟩, ((lex (cs! "anyNA(x)")).getD ⟨[], []⟩).pieces, ⟨by decide +kernel, by decide +kernel, ?_⟩, airy_of (by decide +kernel)⟩
    exact ⟨_, _, rfl, by decide +kernel⟩
  · refine ⟨⟨(cs! "length_levels", lengthLevels), by simp [keepingRules], textZ2, rfl, rfl, by decide +kernel⟩, ((lex (cs! "nlevels(x)")).getD ⟨[], []⟩).pieces, ⟨by decide +kernel, by decide +kernel, ?_⟩, airy_of (by decide +kernel)⟩
    exact ⟨_, _, rfl, by decide +kernel⟩

theorem twoText_places : Ordered 0 twoSrc.toks.length (twoEds.map fun e => cutOf e.1) := by
  refine ⟨by decide +kernel, by decide +kernel, by decide +kernel, by decide +kernel, ?_⟩
  show (cutOf ((lengthLevels textZ2).getD ⟨textZ2, [], true⟩)).stop ≤ twoSrc.toks.length
  decide +kernel

theorem twoText_apart : Apart 0 (twoEds.map fun e => textFix twoSrc e.1 e.2) :=
  C66_apart twoText twoSrc _ twoEds twoText_reads (fun e he => by
    have := goodFix_of_rule (fun _ h => h) twoText_reads twoText_fixes e he
    exact ⟨this.1.1, this.1.2.1⟩) twoText_places

theorem twoText_bytes : ∀ e ∈ twoEds, SameExtraBytes twoText (textFix twoSrc e.1 e.2) := by
  intro e he old ho
  simp only [twoEds, List.mem_cons, List.not_mem_nil, or_false] at he
  rcases he with rfl | rfl
  · have : slice (textFix twoSrc ((anyIsNa textZ1).getD ⟨textZ1, [], true⟩) (cs! "anyNA(x)")).start (textFix twoSrc ((anyIsNa textZ1).getD ⟨textZ1, [], true⟩) (cs! "anyNA(x)")).stop twoText =
      some (cs! "any(is.na(x))") := by decide +kernel
    rw [this] at ho; cases ho; decide +kernel
  · have : slice (textFix twoSrc ((lengthLevels textZ2).getD ⟨textZ2, [], true⟩) (cs! "nlevels(x)")).start (textFix twoSrc ((lengthLevels textZ2).getD ⟨textZ2, [], true⟩) (cs! "nlevels(x)")).stop twoText =
      some (cs! "length(levels(x))") := by decide +kernel
    rw [this] at ho; cases ho; decide +kernel

/-- The hypotheses of `C66_apply_fixes` hold for this file, and the result is what one expects. -/
theorem C66_ex_two : applyFixes (twoEds.map fun e => textFix twoSrc e.1 e.2) twoText = some (false, twoFixed) ∧
    ∃ src' q, ReadsAs twoFixed src' q ∧ Airy none src'.pieces ∧ Together (twoEds.map (·.1)) textZ1.prog q := by
  have h : applyFixes (twoEds.map fun e => textFix twoSrc e.1 e.2) twoText = some (false, twoFixed) := by decide +kernel
  obtain ⟨done, src', q, _, h2, _, h3, h4, h5, _⟩ := C66_apply_fixes twoText twoSrc textZ1.prog twoEds _ (fun _ => true) twoText_reads twoText_airy twoText_fixes twoText_apart
    (List.filter_eq_self.mpr fun _ _ => rfl).symm (fun _ _ h => by cases h) twoText_bytes h
  rw [h2 rfl] at h5
  exact ⟨h, src', q, h3, h4, h5⟩

/-! ### The loop over a file -/

/-- A parser and lints: `D` says which fixes there are for a text. -/
def plainLints (D : Str → List Fix) : Lints where
  parse _ := some ⟨.mk ⟨0, 16⟩ false [] [] [] [], some []⟩
  expressions _ code := .ok ((D code).map fun f => .new (cs! "any_is_na") [] none ⟨0, 0⟩ f)
  unreachable _ _ := .ok []

theorem plain_locations : ∀ ds : List Diagnostic, (∀ d ∈ ds, d.range = ⟨0, 0⟩) → ∃ r, computeLocations (findNewLines []) ds = .ok r ∧ r.map (·.fix) = ds.map (·.fix) := by
  intro ds
  induction ds with
  | nil => intro _; exact ⟨[], rfl, rfl⟩
  | cons d ds ih =>
    intro h
    obtain ⟨r, hr, he⟩ := ih (fun d hd => h d (List.mem_cons_of_mem _ hd))
    have : findRowCol d.range.start (findNewLines []) = some (1, 0) := by rw [h d (List.mem_cons_self ..)]; decide +kernel
    rw [computeLocations, this]
    refine ⟨{ d with location := some (1, 0) } :: r, by simp only [hr]; rfl, by simp [he]⟩

theorem plain_settings (f : Fix) (h : f.toSkip = false) : applyFixSettings exFixConfig (cs! "a.R") (.new (cs! "any_is_na") [] none ⟨0, 0⟩ f) =
    { Diagnostic.new (cs! "any_is_na") [] none ⟨0, 0⟩ f with filename := cs! "a.R" } := by
  have h1 : ((exFixConfig.rulesToApply.filter Rule.hasNoFix).map Rule.name).contains (cs! "any_is_na") = false := by decide +kernel
  have h2 : exFixConfig.unfixable.contains (cs! "any_is_na") = false := by decide +kernel
  have h3 : exFixConfig.fixable = none := rfl
  simp only [applyFixSettings, Diagnostic.new, Diagnostic.clearFixIf, h1, h2, h3, h, Bool.false_eq_true, if_false]

/-- Such lints report the fixes. -/
theorem plain_checks (D : Str → List Fix) (a : Str) (hs : ∀ f ∈ D a, f.toSkip = false) :
    ∃ ds, getChecks (plainLints D) exPkg exFixConfig (cs! "a.R") a = .ok ds ∧ ds.map (·.fix) = D a := by
  have hx : hasRmdExtension (cs! "a.R") = false := by decide +kernel
  unfold getChecks
  rw [hx]
  simp only [Bool.false_eq_true, if_false]
  unfold getChecksR checkerDiagnostics
  have hm : fromNode (.mk ⟨0, 16⟩ false [] [] [] []) a = some {} := by
    unfold fromNode
    split <;> rfl
  simp only [plainLints, hm]
  have hrun : runChecker (plainLints D) exFixConfig.lintInput {} a (exPkg.duplicates (cs! "a.R")) (exPkg.unused (cs! "a.R")) = .ok ((D a).map fun f => .new (cs! "any_is_na") [] none ⟨0, 0⟩ f) := by
    unfold runChecker unreachableDiags checkDocument rawDiagnostics
    show Except.ok _ = _
    congr 1
    simp [gate, commentDiags, outdatedDiags, unusedSuppressions, filterDiagnostics, pkgDiags, exPkg]
  simp only [plainLints] at hrun
  rw [hrun]
  obtain ⟨r, hr, he⟩ := plain_locations (((D a).map fun f => Diagnostic.new (cs! "any_is_na") [] none ⟨0, 0⟩ f).map (applyFixSettings exFixConfig (cs! "a.R"))) (by
    intro d hd
    simp only [List.map_map, List.mem_map] at hd
    obtain ⟨f, hf, rfl⟩ := hd
    rw [Function.comp, plain_settings f (hs f hf)]
    rfl)
  refine ⟨r, hr, ?_⟩
  rw [he, List.map_map, List.map_map]
  conv => rhs; rw [← List.map_id (D a)]
  refine List.map_congr_left fun f hf => ?_
  simp only [Function.comp, plain_settings f (hs f hf)]
  rfl

/-- The two fixes of `twoText`, and nothing for other texts. -/
def twoFixes (code : Str) : List Fix := if code = twoText then twoEds.map fun e => textFix twoSrc e.1 e.2 else []

theorem twoFixes_skip (a : Str) : ∀ f ∈ twoFixes a, f.toSkip = false := by
  intro f hf
  unfold twoFixes at hf
  split at hf
  · simp only [twoEds, List.map_cons, List.map_nil, List.mem_cons, List.not_mem_nil, or_false] at hf
    rcases hf with rfl | rfl <;> decide +kernel
  · cases hf

/-- The hypotheses of `C66_fix_file` hold for this file, and the loop ends with both fixes. -/
theorem C66_ex_file : lintFix (plainLints twoFixes) exPkg exFixConfig (cs! "a.R") Io.good 2 (some twoText) = (some twoFixed, some (.ok [])) ∧
    (∀ a ds, getChecks (plainLints twoFixes) exPkg exFixConfig (cs! "a.R") a = .ok ds → ReportsFixes keepingRules a ds) ∧ ∃ src p, ReadsAs twoText src p ∧ Airy none src.pieces := by
  refine ⟨by rfl, ?_, _, _, twoText_reads, twoText_airy⟩
  intro a ds h src p hr
  obtain ⟨ds', h', hf⟩ := plain_checks twoFixes a (twoFixes_skip a)
  rw [h] at h'
  cases h'
  rw [hf]
  by_cases ha : a = twoText
  · subst ha
    obtain ⟨rfl, rfl⟩ := C66_one_reading hr twoText_reads
    refine ⟨twoEds, fun _ => true, twoText_fixes, twoText_apart, ?_, fun _ _ h => (nomatch h), twoText_bytes⟩
    rw [List.filter_eq_self.mpr fun _ _ => rfl, twoFixes, if_pos rfl]
  · refine ⟨[], fun _ => true, fun _ h => (nomatch h), trivial, ?_, fun _ _ h => (nomatch h), fun _ h => (nomatch h)⟩
    rw [twoFixes, if_neg ha]; rfl

end Jarl
