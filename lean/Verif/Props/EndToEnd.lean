import Verif.Props.Comments
import Verif.Props.Config
import Verif.Props.LintFix
/-!
# Properties of whole-file checks: locations (C17) and outdated file suppressions of documents (C16)
-/
namespace Jarl
open Spec

/-! ### C17 -/

/-- **C17 (partial), whole R file.** If the text of the expression list is the beginning of the file, the location of a
diagnostic that starts inside it, not on a newline, is its row and column in the file. Missing from the full claim:
diagnostics behind the last expression, and the second row of a file that starts with a newline. -/
theorem C17_location_partial {L : Lints} {pkg : PackageAnalysis} {cfg : Config} {file contents : Str}
    {ds : List Diagnostic} (hr : hasRmdExtension file = false) (h : getChecks L pkg cfg file contents = .ok ds)
    {p : Parsed} (hp : L.parse contents = some p) {d : Diagnostic} (hd : d ∈ ds)
    {t tail : Str} (ht : p.listText = some t) (htail : contents = t ++ tail)
    {pre suf : Str} (hc : contents = pre ++ suf) (hstart : d.range.start = blen pre) (hin : blen pre < blen t)
    (hx : suf.head? ≠ some '\n') (hfirst : ∀ l, pre = '\n' :: l → '\n' ∈ l) :
    d.location = some (rowCol pre) := by
  obtain ⟨p', m, exprs, unreach, t', hp', hm, he, hu, ht', rfl⟩ := getChecksR_ok hr h
  rw [hp] at hp'; cases hp'
  rw [ht] at ht'; cases ht'
  obtain ⟨d0, hd0, rfl⟩ := List.mem_map.mp hd
  show findRowCol _ _ = _
  have hs : (applyFixSettings cfg file d0).range.start = blen pre := hstart
  rw [hs]
  -- `pre` is a proper prefix of `t`
  rw [hc] at htail
  rcases List.append_eq_append_iff.mp htail with ⟨a, h1, h2⟩ | ⟨a, h1, h2⟩
  · subst h1
    have hne : a ≠ [] := by rintro rfl; simp at hin
    refine C17_row_col_partial pre a ?_ hfirst
    cases a with
    | nil => exact absurd rfl hne
    | cons y ys => rw [h2] at hx; simpa using hx
  · subst h1
    simp at hin
    omega

/-- **C17 (partial), documents.** The location of a diagnostic of an Rmd/Qmd file that does not start on a newline is its
row and column in the file. Missing: the second row of a document that starts with a newline. -/
theorem C17_rmd_location_partial {L : Lints} {pkg : PackageAnalysis} {cfg : Config} {file contents : Str}
    {ds : List Diagnostic} (hr : hasRmdExtension file = true) (h : getChecks L pkg cfg file contents = .ok ds)
    {d : Diagnostic} (hd : d ∈ ds) {pre suf : Str} (hc : contents = pre ++ suf)
    (hstart : d.range.start = blen pre) (hx : suf.head? ≠ some '\n') (hfirst : ∀ l, pre = '\n' :: l → '\n' ∈ l) :
    d.location = some (rowCol pre) := by
  rw [(C15_rmd_reports hr h d hd).2.1, hstart, hc]
  exact C17_row_col_partial pre suf hx hfirst

/-- F8: for an R file the newlines behind the last expression are not seen. A comment on the last of three lines, behind
the only expression, is reported on row 1. -/
def exEofSource : Str := cs! "x\n\n# jarl-ignore\n"
def exEofLints : Lints where
  parse code := if code = exEofSource then
      some ⟨.mk ⟨0, 1⟩ false [] [⟨cs! "# jarl-ignore", ⟨3, 16⟩⟩] [] [.mk ⟨0, 1⟩ false [] [] [] []], some (cs! "x")⟩
    else none
  expressions _ _ := .ok []
  unreachable _ _ := .ok []

theorem C17_false_trailing_comment : (match getChecks exEofLints exPkg exConfig (cs! "a.R") exEofSource with
    | .ok ds => ds.map (fun d => (d.name, d.location))
    | .error _ => []) = [(cs! "blanket_suppression", some (1, 3))] ∧
    rowCol (cs! "x\n\n") = (3, 0) := by decide +kernel

/-! ### C16: outdated file suppressions -/

theorem getChecksRmd_ok {L : Lints} {pkg : PackageAnalysis} {cfg : Config} {file contents : Str} {ds : List Diagnostic}
    (hr : hasRmdExtension file = true) (h : getChecks L pkg cfg file contents = .ok ds) :
    ∃ states all, rmdStates L 0 (extractRChunks contents) = .ok states ∧ rmdDiagnostics L cfg file states = .ok all ∧
      ds = (applyFileSuppressions (rmdFileSuppressions states)
        (dropSpuriousOutdated (rmdFileSuppressions states) all)).map (located (findNewLines contents)) := by
  unfold getChecks at h
  rw [if_pos hr] at h
  unfold getChecksRmd at h
  cases hs : rmdStates L 0 (extractRChunks contents) with
  | error e => rw [hs] at h; cases h
  | ok states =>
    rw [hs] at h
    cases ha : rmdDiagnostics L cfg file states with
    | error e => simp only [bind, Except.bind, ha] at h; cases h
    | ok all =>
      simp only [bind, Except.bind, ha] at h
      exact ⟨states, all, rfl, ha, (computeLocations_ok h).1⟩

/-- The diagnostics of pass 2, chunk by chunk. -/
theorem mem_all_iff {L : Lints} {cfg : Config} {file contents : Str} {states : List (Option ChunkState)}
    {all : List Diagnostic} (hs : rmdStates L 0 (extractRChunks contents) = .ok states)
    (ha : rmdDiagnostics L cfg file states = .ok all) (d : Diagnostic) :
    d ∈ all ↔ ∃ k c p m raw, ChunkFinds L cfg contents k c p m raw ∧
      ∃ d0 ∈ (filterDiagnostics (demoteFile k m) raw).1 ++ gate cfg.rulesToApply .outdatedSuppression
          (outdatedDiags (unusedSuppressions (demoteFile k m) (filterDiagnostics (demoteFile k m) raw).2)),
        d = remap file c.startByte d0 := by
  obtain ⟨hlen, hst⟩ := rmdStates_ok hs
  obtain ⟨h1, h2⟩ := rmdDiagnostics_ok ha
  have hrun : ∀ m code ds0, runChecker L cfg.lintInput m code [] [] = .ok ds0 →
      ∃ exprs unreach, L.expressions cfg.lintInput code = .ok exprs ∧
        (Rule.unreachableCode ∈ cfg.rulesToApply → L.unreachable cfg.lintInput code = .ok unreach) ∧
        (Rule.unreachableCode ∉ cfg.rulesToApply → unreach = []) ∧
        ds0 = checkDocument cfg.rulesToApply m exprs unreach [] [] := by
    intro m code ds0 hrun
    unfold runChecker at hrun
    cases he : L.expressions cfg.lintInput code with
    | error e => rw [he] at hrun; cases hrun
    | ok exprs =>
      rw [he] at hrun
      cases hu : unreachableDiags L cfg.lintInput code with
      | error e => simp only [bind, Except.bind, hu] at hrun; cases hrun
      | ok unreach =>
        simp only [bind, Except.bind, hu, pure, Except.pure, Except.ok.injEq] at hrun
        refine ⟨exprs, unreach, rfl, ?_, ?_, hrun.symm⟩
        · intro hmem
          unfold unreachableDiags at hu
          rw [if_pos (show Rule.unreachableCode ∈ cfg.lintInput.ruleSet from hmem)] at hu
          exact hu
        · intro hmem
          unfold unreachableDiags at hu
          rw [if_neg (show Rule.unreachableCode ∉ cfg.lintInput.ruleSet from hmem)] at hu
          cases hu
          rfl
  constructor
  · intro hd
    obtain ⟨s, ds0, hs1, hs2, d0, hd0, rfl⟩ := h1 d hd
    obtain ⟨k, hk, hks⟩ := List.mem_iff_getElem.mp hs1
    have hst := hst k (by omega) hk
    generalize hcg : (extractRChunks contents)[k]'(by omega) = c at hst
    rw [hks] at hst
    cases hst with
    | @good p m hp hm =>
      obtain ⟨exprs, unreach, e1, e2, e3, e4⟩ := hrun _ _ _ hs2
      simp only [Nat.zero_add] at e4
      refine ⟨k, c, p, m, _, ⟨by rw [← hcg]; simp, hp, hm, exprs, unreach, e1, e2, e3, rfl⟩, d0, ?_, rfl⟩
      rw [e4] at hd0
      exact hd0
  · rintro ⟨k, c, p, m, raw, ⟨hc, hp, hm, exprs, unreach, e1, e2, e3, rfl⟩, d0, hd0, rfl⟩
    obtain ⟨hk, hck⟩ := List.getElem?_eq_some_iff.mp hc
    have hst := hst k hk (by omega)
    rw [hck] at hst
    generalize hog : states[k]'(by omega) = o at hst
    cases hst with
    | bad hb => rw [hp] at hb; cases hb
    | @good p' m' hp' hm' =>
      rw [hp] at hp'; cases hp'
      rw [hm] at hm'; cases hm'
      obtain ⟨ds0, hs2, hall⟩ := h2 _ (by rw [← hog]; exact List.getElem_mem _)
      obtain ⟨exprs', unreach', f1, f2, f3, f4⟩ := hrun _ _ _ hs2
      simp only at f1 f2 f3 f4 hall
      rw [e1] at f1; cases f1
      have : unreach' = unreach := by
        by_cases hmem : Rule.unreachableCode ∈ cfg.rulesToApply
        · have := e2 hmem; rw [f2 hmem] at this; cases this; rfl
        · rw [e3 hmem, f3 hmem]
      subst this
      refine hall d0 ?_
      rw [f4]
      simpa [checkDocument] using hd0

theorem dropSpurious_mem {fs : List (Rule × Range)} {ds : List Diagnostic} {d : Diagnostic} :
    d ∈ dropSpuriousOutdated fs ds ↔ d ∈ ds ∧ ¬ (d.name = Rule.outdatedSuppression.name ∧
      ∃ f ∈ fs, f.2 = d.range ∧ ∃ e ∈ ds, e.name ≠ Rule.outdatedSuppression.name ∧ e.name = f.1.name) := by
  have hv : ∀ r : Rule, r ∈ ((ds.filter (fun d => d.name ≠ Rule.outdatedSuppression.name)).filterMap
      (fun d => Rule.fromName d.name)).filter (fun r => fs.any (fun f => f.1 = r)) ↔
      (∃ e ∈ ds, e.name ≠ Rule.outdatedSuppression.name ∧ e.name = r.name) ∧ ∃ f ∈ fs, f.1 = r := by
    intro r
    simp only [List.mem_filter, List.mem_filterMap, List.any_eq_true, decide_eq_true_eq, Rule.fromName_eq_some]
    constructor
    · rintro ⟨⟨e, ⟨h1, h2⟩, h3⟩, h4⟩; exact ⟨⟨e, h1, h2, h3.symm⟩, h4⟩
    · rintro ⟨⟨e, h1, h2, h3⟩, h4⟩; exact ⟨⟨e, ⟨h1, h2⟩, h3.symm⟩, h4⟩
  unfold dropSpuriousOutdated
  simp only
  generalize hV : ((ds.filter (fun d => d.name ≠ Rule.outdatedSuppression.name)).filterMap
      (fun d => Rule.fromName d.name)).filter (fun r => fs.any (fun f => f.1 = r)) = V at hv
  split
  · rename_i he
    constructor
    · intro hd
      refine ⟨hd, ?_⟩
      rintro ⟨_, f, hf, _, hex⟩
      have : f.1 ∈ V := (hv f.1).mpr ⟨hex, f, hf, rfl⟩
      simp only [Bool.or_eq_true, List.isEmpty_iff] at he
      rcases he with rfl | rfl
      · cases hf
      · cases this
    · exact fun h => h.1
  · rw [List.mem_filter]
    simp only [Bool.not_eq_true', Bool.and_eq_false_iff, decide_eq_false_iff_not,
      List.contains_eq_mem, List.mem_map, List.mem_filter, decide_eq_true_eq]
    constructor
    · rintro ⟨h1, h2⟩
      refine ⟨h1, ?_⟩
      rintro ⟨h3, f, hf, hfr, hex⟩
      rcases h2 with h2 | h2
      · exact h2 h3
      · exact h2 ⟨f, ⟨hf, (hv f.1).mpr ⟨hex, f, hf, rfl⟩⟩, hfr⟩
    · rintro ⟨h1, h2⟩
      refine ⟨h1, ?_⟩
      by_cases h3 : d.name = Rule.outdatedSuppression.name
      · right
        rintro ⟨f, ⟨hf, hfv⟩, hfr⟩
        exact h2 ⟨h3, f, hf, hfr, ((hv f.1).mp hfv).1⟩
      · exact .inl h3

theorem rawDiagnostics_names {rules : List Rule} {m : Manager} {exprs unreach : List Diagnostic}
    (hnames : ∀ d ∈ exprs ++ unreach, d.name ≠ Rule.outdatedSuppression.name) :
    ∀ d ∈ rawDiagnostics rules m exprs unreach [] [], d.name ≠ Rule.outdatedSuppression.name := by
  intro d hd
  have hgate : ∀ r l (d : Diagnostic), r ≠ Rule.outdatedSuppression → (∀ x ∈ l, x.name = r.name) →
      d ∈ gate rules r l → d.name ≠ Rule.outdatedSuppression.name := by
    intro r l d hr hl hd
    rw [hl d (mem_gate.mp hd).2]; exact fun h => hr (Rule.name_inj h)
  have hcom : ∀ r b hp l, ∀ x ∈ commentDiags r b hp l, x.name = r.name := by
    intro r b hp l x hx
    obtain ⟨_, _, rfl⟩ := List.mem_map.mp hx
    rfl
  have hpk : ∀ r b l, ∀ x ∈ pkgDiags r b l, x.name = r.name := by
    intro r b l x hx
    obtain ⟨⟨_, _, _⟩, _, rfl⟩ := List.mem_map.mp hx
    rfl
  simp only [rawDiagnostics, List.mem_append] at hd
  rcases hd with ((((((((((hd | hd) | hd) | hd) | hd) | hd) | hd) | hd) | hd) | hd) | hd) | hd
  · exact hnames d (by simp [hd])
  · exact hnames d (by simp [(mem_gate.mp hd).2])
  all_goals first
    | exact hgate _ _ d (by decide) (hcom _ _ _ _) hd
    | exact hgate _ _ d (by decide) (hpk _ _ _) hd

theorem chunk_names {L : Lints} {cfg : Config} {contents : Str} {k : Nat} {c : RChunk} {p : Parsed} {m : Manager}
    {raw : List Diagnostic}
    (hnames : ∀ code es, (L.expressions cfg.lintInput code = .ok es ∨ L.unreachable cfg.lintInput code = .ok es) →
      ∀ d ∈ es, d.name ≠ Rule.outdatedSuppression.name)
    (h : ChunkFinds L cfg contents k c p m raw) : ∀ d ∈ raw, d.name ≠ Rule.outdatedSuppression.name := by
  obtain ⟨_, _, _, exprs, unreach, e1, e2, e3, rfl⟩ := h
  apply rawDiagnostics_names
  intro d hd
  rcases List.mem_append.mp hd with hd | hd
  · exact hnames _ _ (.inl e1) d hd
  · by_cases hmem : Rule.unreachableCode ∈ cfg.rulesToApply
    · exact hnames _ _ (.inr (e2 hmem)) d hd
    · rw [e3 hmem] at hd; cases hd

/-- **C16 (outdated file suppressions).** A `jarl-ignore-file` comment of the first chunk of an Rmd/Qmd file is reported
as outdated exactly when the report is enabled and not itself suppressed for the document, the comment hides nothing in
its own chunk (it is the first match of none of the diagnostics found there), and in every later chunk each diagnostic
of its rule is hidden by a comment of that chunk. -/
theorem C16_outdated_file {L : Lints} (hP : ParserOk L) {pkg : PackageAnalysis} {cfg : Config}
    {file contents : Str} {ds : List Diagnostic} (hr : hasRmdExtension file = true)
    (h : getChecks L pkg cfg file contents = .ok ds)
    (hnames : ∀ code es, (L.expressions cfg.lintInput code = .ok es ∨ L.unreachable cfg.lintInput code = .ok es) →
      ∀ d ∈ es, d.name ≠ Rule.outdatedSuppression.name)
    {c : RChunk} {p : Parsed} {m : Manager} {raw : List Diagnostic} (h0 : ChunkFinds L cfg contents 0 c p m raw)
    (hexact : CommentsExact p.root c.code) {n : SynNode} {l : Nat} {cm : Comment} {r : Rule}
    (hreach : Reach p.root true l n) (hlead : cm ∈ n.leading) (hv : ValidComment cm.text (.ignoreFile r)) :
    (∃ d ∈ ds, d.name = cs! "outdated_suppression" ∧ d.range = cm.range.shift c.startByte) ↔
    Rule.outdatedSuppression ∈ cfg.rulesToApply ∧ ¬ DocSuppressed L contents .outdatedSuppression ∧
    (¬ ∃ d ∈ raw, ∃ s, FirstMatch (suppressions m) d s ∧ s.comment = cm.range) ∧
    ∀ k c' p' m' raw', 0 < k → ChunkFinds L cfg contents k c' p' m' raw' → ∀ d ∈ raw', d.name = r.name →
      HiddenLocal p'.root c'.code d := by
  obtain ⟨states, all, hs, ha, rfl⟩ := getChecksRmd_ok hr h
  have hall := mem_all_iff hs ha
  have hdoc := mem_rmdFileSuppressions hP hs
  obtain ⟨hlen, hst⟩ := rmdStates_ok hs
  have hname : Rule.outdatedSuppression.name = cs! "outdated_suppression" := rfl
  rw [← hname]
  -- the first chunk
  obtain ⟨hc, hp, hm, _⟩ := id h0
  have hd0 : demoteFile 0 m = m := by simp [demoteFile]
  have hmc : collect p.root c.code = some m := by rw [← fromNode_eq_collect (hP _ _ hp)]; exact hm
  have hfile : ∀ r' rg, (r', rg) ∈ m.file ↔ ∃ n l cm, Reach p.root true l n ∧ cm ∈ n.leading ∧
      ValidComment cm.text (.ignoreFile r') ∧ cm.range = rg := by
    intro r' rg
    have hf : m.file = (visitNode c.code true 0 p.root).filterMap fileOf := by
      unfold collect at hmc
      cases hrun : runVisits {} (visitNode c.code true 0 p.root) with
      | none => rw [hrun] at hmc; cases hmc
      | some col =>
        rw [hrun] at hmc
        cases hmc
        show col.file = _
        rw [(run_fields hrun).file]
        rfl
    rw [hf]
    exact file_source
  have hmf : (r, cm.range) ∈ m.file := (hfile _ _).mpr ⟨n, l, cm, hreach, hlead, hv, rfl⟩
  have hin : cm.range.start ≤ blen c.code := by
    have := hexact n true l cm hreach (.inl hlead)
    obtain ⟨a, b, e1, e2, e3⟩ := slice_iff.mp this
    rw [e1]; simp; omega
  -- the file suppressions with this range have rule `r`
  have hfs0 : ∀ f, f ∈ rmdFileSuppressions states ↔ ∃ g ∈ m.file, f = (g.1, g.2.shift c.startByte) := by
    intro f
    unfold rmdFileSuppressions
    rw [List.mem_flatMap]
    constructor
    · rintro ⟨o, ho, hf⟩
      obtain ⟨k, hk, rfl⟩ := List.mem_iff_getElem.mp ho
      have := hst k (by omega) hk
      generalize hcg : (extractRChunks contents)[k]'(by omega) = c' at this
      generalize states[k] = o at this hf
      cases this with
      | bad => simp at hf
      | @good p' m' hp' hm' =>
        simp only [List.mem_map] at hf
        obtain ⟨g, hg, rfl⟩ := hf
        cases k with
        | zero =>
          have hcc : c' = c := by
            have : (extractRChunks contents)[0]? = some c' := by rw [← hcg]; simp
            rw [hc] at this; cases this; rfl
          subst hcc
          rw [hp] at hp'; cases hp'
          rw [hm] at hm'; cases hm'
          exact ⟨g, by simpa [demoteFile] using hg, rfl⟩
        | succ k => rw [demoteFile_pos (by omega)] at hg; simp at hg
    · rintro ⟨g, hg, rfl⟩
      obtain ⟨hk, hck⟩ := List.getElem?_eq_some_iff.mp hc
      have := hst 0 hk (by omega)
      rw [hck] at this
      generalize hog : states[0]'(by omega) = o at this
      cases this with
      | bad hb => rw [hp] at hb; cases hb
      | @good p' m' hp' hm' =>
        rw [hp] at hp'; cases hp'
        rw [hm] at hm'; cases hm'
        refine ⟨_, List.getElem_mem (n := 0) (by omega), ?_⟩
        rw [hog]
        exact List.mem_map.mpr ⟨g, by simpa [demoteFile] using hg, rfl⟩
  have hfs : ∀ r', (r', cm.range.shift c.startByte) ∈ rmdFileSuppressions states ↔ r' = r := by
    intro r'
    rw [hfs0]
    constructor
    · rintro ⟨⟨r1, rg⟩, hg, he⟩
      simp only [Prod.mk.injEq, Range.shift, Range.mk.injEq] at he
      obtain ⟨rfl, he1, he2⟩ := he
      obtain ⟨n2, l2, cm2, hr2, hl2, hv2, hrg⟩ := (hfile _ _).mp hg
      have hrr : cm2.range = cm.range := by
        rw [hrg]
        cases hcr : cm.range with
        | mk s e => cases rg; rw [hcr] at he1 he2; simp only at *; congr 1 <;> omega
      have ht1 := hexact n true l cm hreach (.inl hlead)
      have ht2 := hexact n2 true l2 cm2 hr2 (.inl hl2)
      rw [hrr, ht1] at ht2
      have ht2 : cm.text = cm2.text := Option.some.inj ht2
      rw [← ht2] at hv2
      have hxx := (C11_valid.mpr hv).symm.trans (C11_valid.mpr hv2)
      cases hxx; rfl
    · rintro rfl
      exact ⟨_, hmf, rfl⟩
  -- `all` contains a report of rule `r` iff some later chunk has one that is not hidden there
  have hviol : (∃ e ∈ all, e.name ≠ Rule.outdatedSuppression.name ∧ e.name = r.name) ↔
      r ≠ .outdatedSuppression ∧ ∃ k c' p' m' raw', 0 < k ∧ ChunkFinds L cfg contents k c' p' m' raw' ∧ ∃ d ∈ raw', d.name = r.name ∧
        ¬ HiddenLocal p'.root c'.code d := by
    constructor
    · rintro ⟨e, he, hne, hn⟩
      refine ⟨fun h => hne (by rw [hn, h]), ?_⟩
      obtain ⟨k, c', p', m', raw', hf, e0, he0, rfl⟩ := (hall e).mp he
      rcases List.mem_append.mp he0 with he0 | he0
      · have hmc' : collect p'.root c'.code = some m' := by
          rw [← fromNode_eq_collect (hP _ _ hf.2.1)]; exact hf.2.2.1
        have hany : (demoteFile k m').hasAny = false → suppressions (demoteFile k m') = [] := by
          intro hff
          rw [(demoteFile_same k m').2.2.2] at hff
          exact demoteFile_suppressions (collect_hasAny hmc' hff)
        rw [(filterDiagnostics_eq hany raw').1] at he0
        obtain ⟨h1, h2⟩ := List.mem_filter.mp he0
        by_cases hk : 0 < k
        · refine ⟨k, c', p', m', raw', hk, hf, e0, h1, hn, ?_⟩
          intro hid
          obtain ⟨g1, g2, g3, _⟩ := demoteFile_same k m'
          have := (hiddenLocal_iff hmc' e0 (demoteFile k m') (demoteFile_pos hk) g1 g2 g3).mpr hid
          revert h2 this
          cases suppressedBy (demoteFile k m') e0 <;> simp
        · exfalso
          have : k = 0 := by omega
          subst this
          have hcc := hf.1; rw [hc] at hcc; cases hcc
          have hpp := hf.2.1; rw [hp] at hpp; cases hpp
          have hmm := hf.2.2.1; rw [hm] at hmm; cases hmm
          rw [hd0, suppressedBy_find] at h2
          have hcov : (List.find? (fun s => s.covers e0) (suppressions m)).isSome = true := by
            rw [List.find?_isSome]
            refine ⟨⟨cm.range, fun d => r.name = d.name⟩, ?_, decide_eq_true (show r.name = e0.name from hn.symm)⟩
            unfold suppressions
            simp only [List.mem_append, List.mem_map]
            exact .inl (.inl (.inl ⟨_, hmf, rfl⟩))
          revert h2 hcov
          cases (List.find? (fun s => s.covers e0) (suppressions m)) <;> simp
      · exfalso
        obtain ⟨rg, _, rfl⟩ := List.mem_map.mp (mem_gate.mp he0).2
        exact hne rfl
    · rintro ⟨hro, k, c', p', m', raw', hk, hf, d, hd, hn, hid⟩
      refine ⟨remap file c'.startByte d, (hall _).mpr ⟨k, c', p', m', raw', hf, d, ?_, rfl⟩, ?_, hn⟩
      · have hmc' : collect p'.root c'.code = some m' := by
          rw [← fromNode_eq_collect (hP _ _ hf.2.1)]; exact hf.2.2.1
        have hany : (demoteFile k m').hasAny = false → suppressions (demoteFile k m') = [] := by
          intro hff
          rw [(demoteFile_same k m').2.2.2] at hff
          exact demoteFile_suppressions (collect_hasAny hmc' hff)
        refine List.mem_append.mpr (.inl ?_)
        rw [(filterDiagnostics_eq hany raw').1]
        refine List.mem_filter.mpr ⟨hd, ?_⟩
        obtain ⟨g1, g2, g3, _⟩ := demoteFile_same k m'
        have := hiddenLocal_iff hmc' d (demoteFile k m') (demoteFile_pos hk) g1 g2 g3
        revert this
        cases suppressedBy (demoteFile k m') d <;> simp [hid]
      · show d.name ≠ _
        rw [hn]
        exact fun h => hro (Rule.name_inj h)
  -- membership of the outdated report in `all`
  have hout : (∃ e ∈ all, e.name = Rule.outdatedSuppression.name ∧ e.range = cm.range.shift c.startByte) ↔
      Rule.outdatedSuppression ∈ cfg.rulesToApply ∧
      ¬ ∃ d ∈ raw, ∃ s, FirstMatch (suppressions m) d s ∧ s.comment = cm.range := by
    have hun := C10_outdated_iff hmc raw cm.range
    have hsup : ∃ s ∈ suppressions m, s.comment = cm.range := by
      refine ⟨⟨cm.range, fun d => r.name = d.name⟩, ?_, rfl⟩
      unfold suppressions
      simp only [List.mem_append, List.mem_map]
      exact .inl (.inl (.inl ⟨_, hmf, rfl⟩))
    constructor
    · rintro ⟨e, he, hn, hrg⟩
      obtain ⟨k, c', p', m', raw', hf, e0, he0, rfl⟩ := (hall e).mp he
      rcases List.mem_append.mp he0 with he0 | he0
      · exfalso
        have hmc' : collect p'.root c'.code = some m' := by
          rw [← fromNode_eq_collect (hP _ _ hf.2.1)]; exact hf.2.2.1
        have hany : (demoteFile k m').hasAny = false → suppressions (demoteFile k m') = [] := by
          intro hff
          rw [(demoteFile_same k m').2.2.2] at hff
          exact demoteFile_suppressions (collect_hasAny hmc' hff)
        rw [(filterDiagnostics_eq hany raw').1] at he0
        exact chunk_names hnames hf e0 (List.mem_filter.mp he0).1 hn
      · obtain ⟨hen, he0⟩ := mem_gate.mp he0
        obtain ⟨rg, hrg0, rfl⟩ := List.mem_map.mp he0
        have hrg : rg.shift c'.startByte = cm.range.shift c.startByte := hrg
        have hk0 : k = 0 := by
          rcases Nat.eq_zero_or_pos k with h | h
          · exact h
          · exfalso
            obtain ⟨hk, hck⟩ := List.getElem?_eq_some_iff.mp hf.1
            obtain ⟨hk0, hc0⟩ := List.getElem?_eq_some_iff.mp hc
            have := List.pairwise_iff_getElem.mp (C14_disjoint contents) 0 k hk0 hk h
            rw [hck, hc0] at this
            simp only [Range.shift, Range.mk.injEq] at hrg
            omega
        subst hk0
        have hcc := hf.1; rw [hc] at hcc; cases hcc
        have hpp := hf.2.1; rw [hp] at hpp; cases hpp
        have hmm := hf.2.2.1; rw [hm] at hmm; cases hmm
        have hraweq : raw' = raw := by
          obtain ⟨_, _, _, exprs, unreach, e1, e2, e3, rfl⟩ := hf
          obtain ⟨_, _, _, exprs', unreach', f1, f2, f3, rfl⟩ := h0
          rw [e1] at f1; cases f1
          by_cases hmem : Rule.unreachableCode ∈ cfg.rulesToApply
          · have := e2 hmem; rw [f2 hmem] at this; cases this; rfl
          · rw [e3 hmem, f3 hmem]
        subst hraweq
        rw [hd0] at hrg0
        have hrr : rg = cm.range := by
          cases hcr : cm.range with
          | mk s e =>
            cases rg
            rw [hcr] at hrg
            simp only [Range.shift, Range.mk.injEq] at hrg ⊢
            omega
        subst hrr
        exact ⟨hen, (hun.mp hrg0).2⟩
    · rintro ⟨hen, hno⟩
      have := hun.mpr ⟨hsup, hno⟩
      refine ⟨_, (hall _).mpr ⟨0, c, p, m, raw, h0, _, List.mem_append.mpr (.inr (mem_gate.mpr ⟨hen,
        List.mem_map.mpr ⟨cm.range, by rw [hd0]; exact this, rfl⟩⟩)), rfl⟩, rfl, rfl⟩
  constructor
  · rintro ⟨d, hd, hn, hrg⟩
    obtain ⟨e, he, rfl⟩ := List.mem_map.mp hd
    have hn : e.name = Rule.outdatedSuppression.name := hn
    have hrg : e.range = cm.range.shift c.startByte := hrg
    obtain ⟨he1, he2⟩ := List.mem_filter.mp he
    obtain ⟨he3, he4⟩ := dropSpurious_mem.mp he1
    obtain ⟨ho1, ho2⟩ := hout.mp ⟨e, he3, hn, hrg⟩
    have hndoc : ¬ DocSuppressed L contents .outdatedSuppression := by
      intro hdd
      obtain ⟨f, hf, hfr⟩ := (hdoc .outdatedSuppression).mpr hdd
      have hnn : Rule.fromName e.name = some .outdatedSuppression := Rule.fromName_eq_some.mpr hn.symm
      simp only [hnn, Bool.not_eq_true', List.any_eq_false, decide_eq_true_eq] at he2
      exact he2 f hf hfr
    refine ⟨ho1, hndoc, ho2, ?_⟩
    intro k c' p' m' raw' hk hf d hd' hdn
    apply Classical.byContradiction
    intro hid
    refine he4 ⟨hn, (r, cm.range.shift c.startByte), (hfs r).mpr rfl, hrg.symm, hviol.mpr ⟨?_, k, c', p', m', raw', hk, hf, d, hd', hdn, hid⟩⟩
    rintro rfl
    exact hndoc ⟨c, p, hc, hp, n, l, cm, hreach, hlead, hv⟩
  · rintro ⟨hen, hndoc, hno, hlater⟩
    obtain ⟨e, he, hn, hrg⟩ := hout.mpr ⟨hen, hno⟩
    refine ⟨located (findNewLines contents) e, List.mem_map.mpr ⟨e, ?_, rfl⟩, hn, hrg⟩
    unfold applyFileSuppressions
    rw [List.mem_filter, dropSpurious_mem]
    refine ⟨⟨he, ?_⟩, ?_⟩
    · rintro ⟨_, ⟨r', rg⟩, hf, hfr, hex⟩
      simp only at hfr hex
      rw [hrg] at hfr
      subst hfr
      have := (hfs r').mp hf
      subst this
      obtain ⟨_, k, c', p', m', raw', hk, hf', d, hd, hdn, hid⟩ := hviol.mp hex
      exact hid (hlater k c' p' m' raw' hk hf' d hd hdn)
    · have hnn : Rule.fromName e.name = some .outdatedSuppression := Rule.fromName_eq_some.mpr hn.symm
      simp only [hnn, Bool.not_eq_true', List.any_eq_false, decide_eq_true_eq]
      intro f hf hfr
      exact hndoc ((hdoc .outdatedSuppression).mp ⟨f, hf, hfr⟩)

/-! ### A concrete document: one file suppression is used by the second chunk only, the other one is outdated (test) -/

def exOut1 : Str := cs! "# jarl-ignore-file any_is_na: a\n# jarl-ignore-file repeat: b\nx\n"
def exOut2 : Str := cs! "any(is.na(y))\n"
def exOutRmd : Str := cs! "```{r}\n" ++ exOut1 ++ cs! "```\n```{r}\n" ++ exOut2 ++ cs! "```\n"

def exOutLints : Lints where
  parse code :=
    if code = exOut1 then some ⟨.mk ⟨61, 62⟩ false [] [] []
      [.mk ⟨61, 62⟩ false [⟨cs! "# jarl-ignore-file any_is_na: a", ⟨0, 31⟩⟩, ⟨cs! "# jarl-ignore-file repeat: b", ⟨32, 60⟩⟩] [] [] []],
      some code⟩
    else if code = exOut2 then some ⟨.mk ⟨0, 13⟩ false [] [] [] [.mk ⟨0, 13⟩ false [] [] [] []], some code⟩
    else none
  expressions _ code :=
    if code = exOut2 then .ok [.new (cs! "any_is_na") [] none ⟨0, 13⟩ ⟨cs! "anyNA(x)", 0, 13, false⟩] else .ok []
  unreachable _ _ := .ok []

example : (match getChecks exOutLints exPkg exConfig (cs! "a.qmd") exOutRmd with
    | .ok ds => ds.map (fun d => (d.name, d.range, d.location))
    | .error _ => []) = [(cs! "outdated_suppression", ⟨39, 67⟩, some (3, 0))] := by decide +kernel

/-! ### Which files are documents -/

theorem extension_iff {path e : Str} : extension path = some e ↔ FileExt path e := by
  unfold extension FileExt
  have key : ∀ (dir name : Str), '/' ∉ name → (dir = [] ∨ ∃ d, dir = d ++ ['/']) →
      (nameExtension name = some e ↔
       ∃ dir' stem, dir ++ name = dir' ++ stem ++ '.' :: e ∧ (dir' = [] ∨ ∃ d, dir' = d ++ ['/']) ∧ stem ≠ [] ∧ '/' ∉ stem ∧
        '/' ∉ e ∧ '.' ∉ e) := by
    intro dir name hname hdir
    -- the directory part of a path is unique
    have uniq : ∀ dir' name', '/' ∉ name' → (dir' = [] ∨ ∃ d, dir' = d ++ ['/']) → dir ++ name = dir' ++ name' →
        name = name' := by
      intro dir' name' hn' hd' he
      have aux : ∀ (a b : Str), (a = [] ∨ ∃ d, a = d ++ ['/']) → '/' ∉ b → ∀ u v : Str, a ++ b = u ++ v →
          (u = [] ∨ ∃ d, u = d ++ ['/']) → '/' ∉ v → ∀ w, u = a ++ w → w = [] := by
        intro a b _ hb u v hab hu hv w hw
        subst hw
        rw [List.append_assoc] at hab
        have hbw := List.append_cancel_left hab
        rcases hu with hu | ⟨d, hu⟩
        · exact (List.append_eq_nil_iff.mp hu).2
        · cases hw : w.getLast? with
          | none => simpa using hw
          | some x =>
            obtain ⟨w', rfl⟩ : ∃ w', w = w' ++ [x] := by
              refine ⟨w.dropLast, ?_⟩
              have hne : w ≠ [] := by rintro rfl; simp at hw
              rw [List.getLast?_eq_some_getLast hne] at hw
              cases hw
              exact (List.dropLast_concat_getLast hne).symm
            rw [← List.append_assoc] at hu
            have := List.append_inj_right' hu rfl
            simp at this
            subst this
            exact absurd (by rw [hbw]; simp) hb
      rcases List.append_eq_append_iff.mp he with ⟨a, h1, h2⟩ | ⟨a, h1, h2⟩
      · have := aux dir name hdir hname dir' name' he hd' hn' a h1
        subst this; simpa using h2
      · have := aux dir' name' hd' hn' dir name he.symm hdir hname a h1
        subst this; simpa using h2.symm
    constructor
    · intro h
      unfold nameExtension at h
      split at h
      · cases h
      · rename_i a e' hne hs
        cases h
        obtain ⟨h1, h2⟩ := splitLast_iff.mp hs
        subst h1
        refine ⟨dir, a, by simp, hdir, ?_, ?_, ?_, h2⟩
        · rintro rfl; exact hne rfl
        · intro h; exact hname (by simp [h])
        · intro h; exact hname (by simp [h])
      · cases h
    · rintro ⟨dir', stem, he, hd', hs, hs1, he1, he2⟩
      have := uniq dir' (stem ++ '.' :: e) (by simp [hs1, he1]) hd' (by rw [he]; simp)
      unfold nameExtension
      rw [splitLast_iff.mpr ⟨this, he2⟩]
      cases stem with
      | nil => exact absurd rfl hs
      | cons x xs => rfl
  cases hs : splitLast '/' path with
  | none =>
    have := key [] path (splitLast_none.mp hs) (.inl rfl)
    simpa using this
  | some q =>
    obtain ⟨d, n⟩ := q
    obtain ⟨h1, h2⟩ := splitLast_iff.mp hs
    have := key (d ++ ['/']) n h2 (.inr ⟨d, rfl⟩)
    rw [this, h1]
    simp

/-- **C15 (documents).** Exactly the files with extension `Rmd`, `rmd`, `Qmd` or `qmd` are treated as documents. -/
theorem C15_documents (path : Str) : hasRmdExtension path = true ↔ IsDocument path := by
  unfold hasRmdExtension IsDocument
  constructor
  · intro h
    split at h
    · rename_i e he
      refine ⟨e, ?_, extension_iff.mp he⟩
      simp at h ⊢
      rcases h with ((rfl | rfl) | rfl) | rfl <;> simp
    · cases h
  · rintro ⟨e, hm, he⟩
    rw [extension_iff.mpr he]
    simp at hm ⊢
    rcases hm with rfl | rfl | rfl | rfl <;> simp

theorem hasRExtension_iff (path : Str) : hasRExtension path = true ↔ IsRFile path := by
  unfold hasRExtension IsRFile
  constructor
  · intro h
    split at h
    · rename_i e he
      refine ⟨e, ?_, extension_iff.mp he⟩
      simp at h ⊢
      rcases h with rfl | rfl <;> simp
    · cases h
  · rintro ⟨e, hm, he⟩
    rw [extension_iff.mpr he]
    simp at hm ⊢
    rcases hm with rfl | rfl <;> simp

/-- **C21 (documents are never written).** -/
theorem C21_documents_untouched {L : Lints} {pkg : PackageAnalysis} {cfg : Config} {path : Str} {io : Io} {fuel : Nat}
    {d : Option Str} (h : IsDocument path) : (checkPath L pkg cfg path io fuel d).1 = d :=
  C21_no_writes (.inl ((C15_documents path).mpr h))

example : IsDocument (cs! "a.b/doc.v1.Qmd") :=
  ⟨cs! "Qmd", by decide +kernel, cs! "a.b/", cs! "doc.v1", by decide +kernel, .inr ⟨cs! "a.b", by decide +kernel⟩, by decide +kernel⟩

/-! ### C06: only safe fixes reach the file -/

/-- **C06 (partial), end to end.** With `--fix`, without `--unsafe-fixes` and without `--fix-only`, if the lint rules
report only rules they were asked to run, every fix left in the diagnostics of an R file belongs to a rule whose fix is
safe. Missing from the full claim: `--fix-only`, for which it is false. -/
theorem C06_safe_fixes_only_partial {L : Lints} {pkg : PackageAnalysis} {args toml op probes cfg} {file contents : Str}
    {ds : List Diagnostic} (hb : buildConfig args toml op probes = .ok cfg)
    (hf : args.fix = true) (hu : args.unsafeFixes = false) (ho : args.fixOnly = false)
    (hr : hasRmdExtension file = false) (h : getChecks L pkg cfg file contents = .ok ds)
    (hlints : ∀ inp code es, (L.expressions inp code = .ok es ∨ L.unreachable inp code = .ok es) →
      ∀ d ∈ es, ∃ r ∈ inp.ruleSet, r.name = d.name) :
    ∀ d ∈ ds, d.fix ≠ Fix.empty → ∃ r ∈ cfg.rules, r.name = d.name ∧ r.fixStatus = .safe := by
  intro d hd hne
  obtain ⟨p, m, exprs, unreach, t, hp, hm, he, hun, ht, rfl⟩ := getChecksR_ok hr h
  obtain ⟨d0, hd0, rfl⟩ := List.mem_map.mp hd
  have hfix : (applyFixSettings cfg file d0).fix ≠ Fix.empty := hne
  have hnd : ¬ FixDenied cfg d0 := fun hden => hfix ((applyFixSettings_fix cfg file d0).1 hden)
  have hname : (applyFixSettings cfg file d0).name = d0.name := (applyFixSettings_same cfg file d0).1
  suffices hs : ∃ r ∈ cfg.rulesToApply, r.name = d0.name by
    obtain ⟨r, hr, hn⟩ := hs
    have hunsafe := C06_no_unsafe_fix_partial hb hf hu ho r hr
    refine ⟨r, ((C06_only_unsafe_removed hb ho r).mp hr).1, ?_, ?_⟩
    · show r.name = (applyFixSettings cfg file d0).name
      rw [hname, hn]
    · cases hst : r.fixStatus with
      | safe => rfl
      | unsafe_ => exact absurd hst hunsafe
      | none => exact absurd (.inr (.inr (.inl ⟨r, hr, hn, hst⟩))) hnd
  unfold checkDocument at hd0
  have hgate : ∀ r l, (∀ x ∈ l, x.name = r.name) → d0 ∈ gate cfg.rulesToApply r l →
      ∃ r ∈ cfg.rulesToApply, r.name = d0.name := by
    intro r l hl hd
    obtain ⟨h1, h2⟩ := mem_gate.mp hd
    exact ⟨r, h1, (hl _ h2).symm⟩
  have hcom : ∀ r b hp l, ∀ x ∈ commentDiags r b hp l, x.name = r.name := by
    intro r b hp l x hx
    obtain ⟨_, _, rfl⟩ := List.mem_map.mp hx
    rfl
  have hpk : ∀ r b l, ∀ x ∈ pkgDiags r b l, x.name = r.name := by
    intro r b l x hx
    obtain ⟨⟨_, _, _⟩, _, rfl⟩ := List.mem_map.mp hx
    rfl
  rcases List.mem_append.mp hd0 with hd0 | hd0
  · have hmem : d0 ∈ rawDiagnostics cfg.rulesToApply m exprs unreach (pkg.duplicates file) (pkg.unused file) := by
      change d0 ∈ (filterDiagnostics m _).1 at hd0
      unfold filterDiagnostics at hd0
      split at hd0
      · exact hd0
      · rw [(filterLoop_eq m _ _).1] at hd0
        exact (List.mem_filter.mp hd0).1
    simp only [rawDiagnostics, List.mem_append] at hmem
    rcases hmem with ((((((((((hd | hd) | hd) | hd) | hd) | hd) | hd) | hd) | hd) | hd) | hd) | hd
    · exact hlints _ _ _ (.inl he) _ hd
    · obtain ⟨h1, h2⟩ := mem_gate.mp hd
      unfold unreachableDiags at hun
      split at hun
      · exact hlints _ _ _ (.inr hun) _ h2
      · cases hun; cases h2
    all_goals first
      | exact hgate _ _ (hcom _ _ _ _) hd
      | exact hgate _ _ (hpk _ _ _) hd
  · exact hgate _ _ (hcom _ _ _ _) hd0

end Jarl
