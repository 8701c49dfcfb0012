import Verif.Spec.RPass
import Verif.Props.RRangesExamples
import Verif.Props.RTextMain
/-!
# C80: one pass of `--fix` with the modelled rules
-/
namespace Jarl
open Spec

theorem choose_list {α β : Type} {g : α → β} {P : α → Prop} : ∀ {l : List β}, (∀ b ∈ l, ∃ a, P a ∧ g a = b) → ∃ as : List α, as.map g = l ∧ ∀ a ∈ as, P a
  | [], _ => ⟨[], rfl, by simp⟩
  | b :: l, h => by
    obtain ⟨a, ha, e⟩ := h b (by simp)
    obtain ⟨as, h1, h2⟩ := choose_list (l := l) (fun b hb => h b (by simp [hb]))
    exact ⟨a :: as, by simp [e, h1], by simpa using ⟨ha, h2⟩⟩

/-- The fixes in the diagnostics are those that enabled rules offer, with the texts of these rules. -/
theorem fixes_offered {W : Wording} {L : Lints} (hL : RunsRules W L) (hP : ParserOk L) {pkg : PackageAnalysis} {cfg : Config} {file contents : Str} {ds : List Diagnostic}
    (hr : hasRmdExtension file = false) (h : getChecks L pkg cfg file contents = .ok ds) {src : Src} {p : Node} (hread : ReadsAs contents src p)
    (hun : ∀ es, L.unreachable cfg.lintInput contents = .ok es → ∀ d ∈ es, d.fix = Fix.empty) :
    ∃ eds : List (Edit × Str), (eds.map fun e => textFix src e.1 e.2) = realFixes ds ∧ ∀ e ∈ eds, ∃ r, Offers cfg p r e.1 ∧ e.2 = W.content src r.name e.1 := by
  obtain ⟨pr, m, exprs, unreach, t, hp, -⟩ := getChecksR_ok hr h
  refine choose_list fun f hf => ?_
  obtain ⟨hf, hne⟩ := List.mem_filter.1 hf
  obtain ⟨d, hd, rfl⟩ := List.mem_map.1 hf
  obtain ⟨r, hen, h1, h2, h3, h4, -, z, hz, q, hq, hqn, ed, he, hsk, -, h5⟩ := C80_fixes hL hP hr h hp hread hun hd (by simpa using hne)
  exact ⟨(ed, W.content src r.name ed), ⟨r, ⟨hen, ⟨h2, h1 ▸ h3, fun l hl => h1 ▸ h4 l hl⟩, q, hq, hqn, z, hz, he, hsk⟩, rfl⟩, h5.symm⟩

/-- What rules offer are fixes that keep the structure. -/
theorem offered_texts {W : Wording} {cfg : Config} {src : Src} {p : Node} (hready : FixesReady W cfg src p) {eds : List (Edit × Str)}
    (h : ∀ e ∈ eds, ∃ r, Offers cfg p r e.1 ∧ e.2 = W.content src r.name e.1) : FixTexts keepingRules p eds := by
  intro e he
  obtain ⟨r, ho, hw⟩ := h e he
  have hg := hready.guarded r _ ho
  have hww := hready.worded r _ ho
  obtain ⟨hen, hal, q, hq, hqn, z, hz, hqz, hsk⟩ := ho
  refine ⟨⟨q, hready.keeping r hen hal q hq hqn, z, hz.1, hqz, ?_⟩, hw ▸ hww⟩
  have hni : ¬ commentInside e.1 := by
    rcases hg with hg | hg
    · intro hc
      have := C64_commented_code_is_skipped _ q hq z e.1 hqz (hqn ▸ hg) hc
      rw [hsk] at this; cases this
    · exact hg
  rw [inside_comments] at hni
  simpa using hni

theorem empty_placeholder : IsPlaceholder Fix.empty := ⟨rfl, rfl, rfl⟩

/-- **C80** and C66. A check with the modelled rules reports fixes as C66 assumes them (`ReportsFixes`): nothing is assumed there any more about what the check returns but that fixes which overlap
are far enough apart and keep the number of characters (C19). -/
theorem C80_reports_fixes {W : Wording} {L : Lints} (hL : RunsRules W L) (hP : ParserOk L) {pkg : PackageAnalysis} {cfg : Config} {file contents : Str} {ds : List Diagnostic}
    (hr : hasRmdExtension file = false) (h : getChecks L pkg cfg file contents = .ok ds) (hun : ∀ es, L.unreachable cfg.lintInput contents = .ok es → ∀ d ∈ es, d.fix = Fix.empty)
    (hready : ∀ src p, ReadsAs contents src p → FixesReady W cfg src p) (hap : Apart 0 (realFixes ds)) (hb : ∀ f ∈ realFixes ds, SameExtraBytes contents f) :
    ReportsFixes keepingRules contents ds := by
  intro src p hread
  obtain ⟨eds, h1, h2⟩ := fixes_offered hL hP hr h hread hun
  refine ⟨eds, fun f => decide (f ≠ Fix.empty), offered_texts (hready src p hread) h2, h1 ▸ hap, h1, ?_, ?_⟩
  · intro f _ hf
    have : f = Fix.empty := by simpa using hf
    rw [this]; exact empty_placeholder
  · intro e he
    exact hb _ (h1 ▸ List.mem_map_of_mem he)

/-- **C80** and C66, one pass of `--fix`. R reads the new text as the old program in which the code that enabled rules offered to replace is replaced: all of it, unless a fix is reported as skipped. -/
theorem C80_pass {W : Wording} {L : Lints} (hL : RunsRules W L) (hP : ParserOk L) {pkg : PackageAnalysis} {cfg : Config} {file contents : Str} {ds : List Diagnostic}
    (hr : hasRmdExtension file = false) (h : getChecks L pkg cfg file contents = .ok ds) (hun : ∀ es, L.unreachable cfg.lintInput contents = .ok es → ∀ d ∈ es, d.fix = Fix.empty)
    {src : Src} {p : Node} (hread : ReadsAs contents src p) (ha : Airy none src.pieces) (hready : FixesReady W cfg src p) (hap : Apart 0 (realFixes ds))
    (hb : ∀ f ∈ realFixes ds, SameExtraBytes contents f) {skipped : Bool} {out : Str} (hfix : applyFixes (ds.map (·.fix)) contents = some (skipped, out)) :
    ∃ (done : List (Edit × Str)) (src' : Src) (q : Node), (∀ e ∈ done, ∃ r, Offers cfg p r e.1 ∧ e.2 = W.content src r.name e.1) ∧
      (done.map fun e => textFix src e.1 e.2).Sublist (realFixes ds) ∧ (skipped = false → (done.map fun e => textFix src e.1 e.2) = realFixes ds) ∧ (realFixes ds ≠ [] → done ≠ []) ∧
      ReadsAs out src' q ∧ Airy none src'.pieces ∧ Together (done.map (·.1)) p q := by
  obtain ⟨eds, h1, h2⟩ := fixes_offered hL hP hr h hread hun
  obtain ⟨done, src', q, g1, g2, g3, g4, g5, g6, -⟩ := C66_apply_fixes contents src p eds (ds.map (·.fix)) (fun f => decide (f ≠ Fix.empty)) hread ha (offered_texts hready h2) (h1 ▸ hap) h1 (by
    intro f _ hf
    have : f = Fix.empty := by simpa using hf
    rw [this]; exact empty_placeholder) (fun e he => hb _ (h1 ▸ List.mem_map_of_mem he)) hfix
  refine ⟨done, src', q, fun e he => h2 e (g1.subset he), h1 ▸ g1.map _, fun hs => by rw [g2 hs, h1], fun hne => g3 ?_, g4, g5, g6⟩
  rintro rfl
  exact hne h1.symm

end Jarl
