import Verif.Spec.Check
import Verif.Props.Suppression
import Verif.Props.Rmd
import Verif.Props.Location
/-!
# C07 (fix settings), C15 and C16 (Rmd and Qmd files)
-/
namespace Jarl
open Spec

/-! ### Locations -/

/-- The location given to a diagnostic. -/
def located (nl : List Nat) (d : Diagnostic) : Diagnostic := { d with location := findRowCol d.range.start nl }

theorem computeLocations_ok {nl : List Nat} {ds out : List Diagnostic} (h : computeLocations nl ds = .ok out) :
    out = ds.map (located nl) ∧ ∀ d ∈ ds, (findRowCol d.range.start nl).isSome = true := by
  induction ds generalizing out with
  | nil => cases h; simp
  | cons d ds ih =>
    unfold computeLocations at h
    split at h
    · cases h
    · rename_i loc hl
      cases hr : computeLocations nl ds with
      | error e => rw [hr] at h; cases h
      | ok rest =>
        rw [hr] at h
        cases h
        obtain ⟨h1, h2⟩ := ih hr
        refine ⟨?_, ?_⟩
        · rw [List.map_cons, ← h1]
          simp [located, hl]
        · intro x hx
          rcases List.mem_cons.mp hx with rfl | hx
          · rw [hl]; rfl
          · exact h2 x hx

theorem computeLocations_of_ranges {nl : List Nat} : ∀ {ds es : List Diagnostic},
    ds.map (·.range) = es.map (·.range) →
    (∀ e, computeLocations nl ds = .error e ↔ computeLocations nl es = .error e)
  | [], [], _ => fun _ => Iff.rfl
  | [], _ :: _, h => by simp at h
  | _ :: _, [], h => by simp at h
  | d :: ds, f :: es, h => by
    intro e
    simp only [List.map_cons, List.cons.injEq] at h
    have ih := computeLocations_of_ranges (nl := nl) h.2
    unfold computeLocations
    rw [h.1]
    cases findRowCol f.range.start nl with
    | none => exact Iff.rfl
    | some loc =>
      cases h1 : computeLocations nl ds with
      | error e1 => rw [(ih e1).mp h1]; exact Iff.rfl
      | ok a =>
        cases h2 : computeLocations nl es with
        | error e2 => rw [(ih e2).mpr h2] at h1; cases h1
        | ok b => constructor <;> (intro h; cases h)

/-! ### C07 -/

theorem clearFixIf_fix (b : Bool) (d : Diagnostic) : (d.clearFixIf b).fix = if b then Fix.empty else d.fix := by
  cases b <;> rfl

theorem clearFixIf_same (b : Bool) (d : Diagnostic) :
    (d.clearFixIf b).name = d.name ∧ (d.clearFixIf b).body = d.body ∧ (d.clearFixIf b).suggestion = d.suggestion ∧
    (d.clearFixIf b).filename = d.filename ∧ (d.clearFixIf b).range = d.range ∧
    (d.clearFixIf b).location = d.location := by
  cases b <;> exact ⟨rfl, rfl, rfl, rfl, rfl, rfl⟩

theorem applyFixSettings_same (cfg : Config) (file : Str) (d : Diagnostic) :
    (applyFixSettings cfg file d).name = d.name ∧ (applyFixSettings cfg file d).body = d.body ∧
    (applyFixSettings cfg file d).suggestion = d.suggestion ∧ (applyFixSettings cfg file d).filename = file ∧
    (applyFixSettings cfg file d).range = d.range ∧ (applyFixSettings cfg file d).location = d.location := by
  unfold applyFixSettings
  simp only [clearFixIf_same, and_self]

theorem applyFixSettings_fix (cfg : Config) (file : Str) (d : Diagnostic) :
    (FixDenied cfg d → (applyFixSettings cfg file d).fix = Fix.empty) ∧
    (¬ FixDenied cfg d → (applyFixSettings cfg file d).fix = d.fix) := by
  have hc : ((cfg.rulesToApply.filter Rule.hasNoFix).map Rule.name).contains d.name = true ↔
      ∃ r ∈ cfg.rulesToApply, r.name = d.name ∧ r.fixStatus = .none := by
    simp only [List.contains_iff_mem, List.mem_map, List.mem_filter, Rule.hasNoFix, decide_eq_true_eq]
    constructor
    · rintro ⟨r, ⟨h1, h2⟩, h3⟩; exact ⟨r, h1, h3, h2⟩
    · rintro ⟨r, h1, h3, h2⟩; exact ⟨r, ⟨h1, h2⟩, h3⟩
  unfold FixDenied applyFixSettings
  rw [← hc]
  simp only [clearFixIf_same, clearFixIf_fix]
  simp only [← List.contains_iff_mem]
  generalize ((cfg.rulesToApply.filter Rule.hasNoFix).map Rule.name).contains d.name = A
  generalize cfg.unfixable.contains d.name = B
  cases hC : cfg.fixable with
  | none =>
    cases A <;> cases B <;> cases hs : d.fix.toSkip <;> simp [Fix.empty, hs]
  | some l =>
    cases A <;> cases B <;> cases hD : l.contains d.name <;> cases hs : d.fix.toSkip <;> simp_all [Fix.empty]

/-- **C07 (which fixes survive).** The diagnostics of an R file are those the checks produced, in the same order, with
the same rule, message and range; a diagnostic whose fix is denied has no fix, every other one keeps its fix. -/
theorem C07_fixes {L : Lints} {pkg : PackageAnalysis} {cfg : Config} {file contents : Str} {ds : List Diagnostic}
    (hr : hasRmdExtension file = false) (h : getChecks L pkg cfg file contents = .ok ds) :
    ∃ p raw, checkerDiagnostics L pkg cfg file contents = .ok (p, raw) ∧ ds.length = raw.length ∧
      ∀ i (h1 : i < ds.length) (h2 : i < raw.length),
        ds[i].name = raw[i].name ∧ ds[i].body = raw[i].body ∧ ds[i].suggestion = raw[i].suggestion ∧
        ds[i].range = raw[i].range ∧ ds[i].filename = file ∧
        (FixDenied cfg raw[i] → ds[i].fix = ⟨[], 0, 0, true⟩) ∧ (¬ FixDenied cfg raw[i] → ds[i].fix = raw[i].fix) := by
  unfold getChecks at h
  rw [hr] at h
  simp only [Bool.false_eq_true, if_false] at h
  unfold getChecksR at h
  cases hc : checkerDiagnostics L pkg cfg file contents with
  | error e => rw [hc] at h; cases h
  | ok pr =>
    obtain ⟨p, raw⟩ := pr
    rw [hc] at h
    simp only [bind, Except.bind] at h
    split at h
    · cases h
    · rename_i t _
      obtain ⟨h1, _⟩ := computeLocations_ok h
      subst h1
      refine ⟨p, raw, rfl, by simp, ?_⟩
      intro i h1 h2
      obtain ⟨a1, a2, a3, a4, a5, a6⟩ := applyFixSettings_same cfg file raw[i]
      obtain ⟨b1, b2⟩ := applyFixSettings_fix cfg file raw[i]
      simp only [List.getElem_map, located]
      exact ⟨a1, a2, a3, a5, a4, b1, b2⟩

theorem checkerDiagnostics_same {L pkg cfg cfg' file contents} (h : SameButFixable cfg cfg') :
    checkerDiagnostics L pkg cfg' file contents = checkerDiagnostics L pkg cfg file contents := by
  obtain ⟨a, b, rfl⟩ := h
  rfl

theorem rmdDiagnostics_same {L cfg cfg' file} (h : SameButFixable cfg cfg') (ss : List (Option ChunkState)) :
    rmdDiagnostics L cfg' file ss = rmdDiagnostics L cfg file ss := by
  obtain ⟨a, b, rfl⟩ := h
  induction ss with
  | nil => rfl
  | cons s ss ih =>
    cases s with
    | none => exact ih
    | some s =>
      unfold rmdDiagnostics
      rw [ih]
      rfl

/-- **C07 (nothing else changes).** Changing `fixable` and `unfixable` changes neither success nor the reported
messages: rule, text, file, range, location and order. -/
theorem C07_only_fixes {L : Lints} {pkg : PackageAnalysis} {cfg cfg' : Config} {file contents : Str}
    (hs : SameButFixable cfg cfg') :
    (∀ e, getChecks L pkg cfg file contents = .error e ↔ getChecks L pkg cfg' file contents = .error e) ∧
    ∀ ds ds', getChecks L pkg cfg file contents = .ok ds → getChecks L pkg cfg' file contents = .ok ds' →
      ds.map message = ds'.map message := by
  unfold getChecks
  by_cases hr : hasRmdExtension file = true
  · have : getChecksRmd L cfg' file contents = getChecksRmd L cfg file contents := by
      unfold getChecksRmd
      cases rmdStates L 0 (extractRChunks contents) with
      | error e => rfl
      | ok states => simp only [bind, Except.bind, rmdDiagnostics_same hs]
    rw [if_pos hr, if_pos hr, this]
    refine ⟨fun _ => Iff.rfl, fun ds ds' h h' => ?_⟩
    rw [h] at h'
    cases h'
    rfl
  · rw [if_neg hr, if_neg hr]
    unfold getChecksR
    rw [checkerDiagnostics_same hs]
    cases checkerDiagnostics L pkg cfg file contents with
    | error e => exact ⟨fun _ => Iff.rfl, fun ds ds' h => by cases h⟩
    | ok pr =>
      obtain ⟨p, raw⟩ := pr
      simp only [bind, Except.bind]
      cases p.listText with
      | none => exact ⟨fun _ => Iff.rfl, fun ds ds' h => by cases h⟩
      | some t =>
        refine ⟨computeLocations_of_ranges ?_, ?_⟩
        · simp only [List.map_map, Function.comp_def]
          apply List.map_congr_left
          intro d _
          rw [(applyFixSettings_same cfg file d).2.2.2.2.1, (applyFixSettings_same cfg' file d).2.2.2.2.1]
        · intro ds ds' h h'
          rw [(computeLocations_ok h).1, (computeLocations_ok h').1]
          simp only [List.map_map, Function.comp_def]
          apply List.map_congr_left
          intro d _
          obtain ⟨a1, a2, a3, a4, a5, a6⟩ := applyFixSettings_same cfg file d
          obtain ⟨b1, b2, b3, b4, b5, b6⟩ := applyFixSettings_same cfg' file d
          simp only [message, located, a1, a2, a3, a4, a5, b1, b2, b3, b4, b5]

/-! ### C15 -/

/-- What pass 1 makes of the chunk at index `i`. -/
inductive StateOf (L : Lints) (i : Nat) (c : RChunk) : Option ChunkState → Prop
  | bad : L.parse c.code = none → StateOf L i c none
  | good {p m} : L.parse c.code = some p → fromNode p.root c.code = some m →
      StateOf L i c (some ⟨c.code, demoteFile i m, c.startByte⟩)

theorem rmdStates_ok {L : Lints} : ∀ {cs : List RChunk} {i : Nat} {ss : List (Option ChunkState)},
    rmdStates L i cs = .ok ss →
    ss.length = cs.length ∧ ∀ k (h1 : k < cs.length) (h2 : k < ss.length), StateOf L (i + k) cs[k] ss[k]
  | [], i, ss, h => by cases h; simp
  | c :: cs, i, ss, h => by
    unfold rmdStates at h
    split at h
    · rename_i hp
      cases hr : rmdStates L (i + 1) cs with
      | error e => rw [hr] at h; cases h
      | ok rest =>
        rw [hr] at h; cases h
        obtain ⟨h1, h2⟩ := rmdStates_ok hr
        refine ⟨by simp [h1], ?_⟩
        intro k hk hk'
        cases k with
        | zero => exact .bad hp
        | succ k =>
          have := h2 k (by simpa using hk) (by simpa using hk')
          simpa [Nat.add_assoc, Nat.add_comm 1 k] using this
    · rename_i p hp
      split at h
      · cases h
      · rename_i m hm
        cases hr : rmdStates L (i + 1) cs with
        | error e => rw [hr] at h; cases h
        | ok rest =>
          rw [hr] at h; cases h
          obtain ⟨h1, h2⟩ := rmdStates_ok hr
          refine ⟨by simp [h1], ?_⟩
          intro k hk hk'
          cases k with
          | zero => exact .good hp hm
          | succ k =>
            have := h2 k (by simpa using hk) (by simpa using hk')
            simpa [Nat.add_assoc, Nat.add_comm 1 k] using this

theorem rmdDiagnostics_ok {L : Lints} {cfg : Config} {file : Str} :
    ∀ {ss : List (Option ChunkState)} {all : List Diagnostic}, rmdDiagnostics L cfg file ss = .ok all →
      (∀ d ∈ all, ∃ s ds0, some s ∈ ss ∧ runChecker L cfg.lintInput s.manager s.code [] [] = .ok ds0 ∧
        ∃ d0 ∈ ds0, d = remap file s.startByte d0) ∧
      (∀ s, some s ∈ ss → ∃ ds0, runChecker L cfg.lintInput s.manager s.code [] [] = .ok ds0 ∧
        ∀ d0 ∈ ds0, remap file s.startByte d0 ∈ all)
  | [], all, h => by cases h; simp
  | none :: ss, all, h => by
    unfold rmdDiagnostics at h
    obtain ⟨h1, h2⟩ := rmdDiagnostics_ok h
    refine ⟨fun d hd => ?_, fun s hs => h2 s (by simpa using hs)⟩
    obtain ⟨s, ds0, h3, h4⟩ := h1 d hd
    exact ⟨s, ds0, by simp [h3], h4⟩
  | some s :: ss, all, h => by
    unfold rmdDiagnostics at h
    cases hd : runChecker L cfg.lintInput s.manager s.code [] [] with
    | error e => rw [hd] at h; cases h
    | ok ds0 =>
      rw [hd] at h
      cases hr : rmdDiagnostics L cfg file ss with
      | error e => rw [hr] at h; cases h
      | ok rest =>
        rw [hr] at h
        cases h
        obtain ⟨h1, h2⟩ := rmdDiagnostics_ok hr
        constructor
        · intro d hd'
          rcases List.mem_append.mp hd' with hd' | hd'
          · obtain ⟨d0, h3, rfl⟩ := List.mem_map.mp hd'
            exact ⟨s, ds0, by simp, hd, d0, h3, rfl⟩
          · obtain ⟨s', ds', h3, h4⟩ := h1 d hd'
            exact ⟨s', ds', by simp [h3], h4⟩
        · intro s' hs'
          rcases List.mem_cons.mp hs' with hs' | hs'
          · cases hs'
            exact ⟨ds0, hd, fun d0 h3 => List.mem_append.mpr (.inl (List.mem_map.mpr ⟨d0, h3, rfl⟩))⟩
          · obtain ⟨ds', h3, h4⟩ := h2 s' hs'
            exact ⟨ds', h3, fun d0 h5 => List.mem_append.mpr (.inr (h4 d0 h5))⟩

theorem mem_dropSpurious {fs : List (Rule × Range)} {ds : List Diagnostic} {d : Diagnostic}
    (h : d ∈ dropSpuriousOutdated fs ds) : d ∈ ds := by
  unfold dropSpuriousOutdated at h
  simp only at h
  split at h
  · exact h
  · exact (List.mem_filter.mp h).1

theorem remap_reportOf (file : Str) (o : Nat) (d : Diagnostic) (nl : List Nat) :
    ReportOf file o d (located nl (remap file o d)) := ⟨rfl, rfl, rfl, rfl, rfl, rfl, rfl⟩

/-- **C15.** Every diagnostic of an Rmd/Qmd file reports what the checks said about one of its chunks, carries no fix,
and the text of the document at its range is the text of the chunk at the range the checks reported. -/
theorem C15_rmd_reports {L : Lints} {pkg : PackageAnalysis} {cfg : Config} {file contents : Str} {ds : List Diagnostic}
    (hr : hasRmdExtension file = true) (h : getChecks L pkg cfg file contents = .ok ds) (d : Diagnostic) (hd : d ∈ ds) :
    d.fix = Fix.empty ∧ d.location = findRowCol d.range.start (findNewLines contents) ∧
    ∃ k c, (extractRChunks contents)[k]? = some c ∧ ∃ p m ds0, L.parse c.code = some p ∧
      fromNode p.root c.code = some m ∧ runChecker L cfg.lintInput (demoteFile k m) c.code [] [] = .ok ds0 ∧ ∃ d0 ∈ ds0, ReportOf file c.startByte d0 d ∧
      ∀ t, slice d0.range.start d0.range.stop c.code = some t →
        slice d.range.start d.range.stop contents = some t := by
  unfold getChecks at h
  rw [if_pos hr] at h
  unfold getChecksRmd at h
  cases hs : rmdStates L 0 (extractRChunks contents) with
  | error e => rw [hs] at h; cases h
  | ok states =>
    rw [hs] at h
    cases ha : rmdDiagnostics L cfg file states with
    | error e => simp only [bind, Except.bind, ha] at h; cases h
    | ok all =>
      simp only [bind, Except.bind, ha] at h
      obtain ⟨h1, _⟩ := computeLocations_ok h
      subst h1
      obtain ⟨d1, hd1, rfl⟩ := List.mem_map.mp hd
      have hall := mem_dropSpurious (List.mem_filter.mp hd1).1
      obtain ⟨s, ds0, hs1, hs2, d0, hd0, rfl⟩ := (rmdDiagnostics_ok ha).1 d1 hall
      obtain ⟨k, hk, hks⟩ := List.mem_iff_getElem.mp hs1
      obtain ⟨hlen, hst⟩ := rmdStates_ok hs
      have hst := hst k (by omega) hk
      have hc := List.getElem_mem (l := extractRChunks contents) (n := k) (by omega)
      generalize hcg : (extractRChunks contents)[k]'(by omega) = c at hst hc
      rw [hks] at hst
      cases hst with
      | @good p m hp hm =>
        have hrep := remap_reportOf file c.startByte d0 (findNewLines contents)
        refine ⟨rfl, rfl, k, c, by rw [← hcg]; simp, p, m, ds0, hp, hm, by simpa using hs2, d0, hd0, hrep, ?_⟩
        intro t ht
        obtain ⟨a, b, e1, e2, e3⟩ := slice_iff.mp ht
        obtain ⟨a', b', f1, f2, f3⟩ := slice_iff.mp (C14_slice contents c hc)
        rw [hrep.start, hrep.stop]
        rw [slice_iff]
        refine ⟨a' ++ a, b ++ b', ?_, ?_, ?_⟩
        · rw [f1, e1]; simp
        · simp; omega
        · omega

/-! ### C16 -/

theorem rmdDiagnostics_parts {L : Lints} {cfg : Config} {file : Str} :
    ∀ {ss : List (Option ChunkState)} {all : List Diagnostic}, rmdDiagnostics L cfg file ss = .ok all →
      ∃ parts : List (List Diagnostic), parts.length = ss.length ∧ all = parts.flatten ∧
        ∀ k (h1 : k < parts.length) (h2 : k < ss.length),
          (ss[k] = none → parts[k] = []) ∧
          (∀ s, ss[k] = some s → ∃ ds0, runChecker L cfg.lintInput s.manager s.code [] [] = .ok ds0 ∧
            parts[k] = ds0.map (remap file s.startByte))
  | [], all, h => by cases h; exact ⟨[], rfl, rfl, by simp⟩
  | none :: ss, all, h => by
    unfold rmdDiagnostics at h
    obtain ⟨parts, h1, h2, h3⟩ := rmdDiagnostics_parts h
    refine ⟨[] :: parts, by simp [h1], by simp [h2], ?_⟩
    intro k hk hk'
    cases k with
    | zero => exact ⟨fun _ => rfl, fun s hs => by simp at hs⟩
    | succ k => simpa using h3 k (by simpa using hk) (by simpa using hk')
  | some s :: ss, all, h => by
    unfold rmdDiagnostics at h
    cases hd : runChecker L cfg.lintInput s.manager s.code [] [] with
    | error e => rw [hd] at h; cases h
    | ok ds0 =>
      rw [hd] at h
      cases hr : rmdDiagnostics L cfg file ss with
      | error e => rw [hr] at h; cases h
      | ok rest =>
        rw [hr] at h
        cases h
        obtain ⟨parts, h1, h2, h3⟩ := rmdDiagnostics_parts hr
        refine ⟨ds0.map (remap file s.startByte) :: parts, by simp [h1], by simp [h2], ?_⟩
        intro k hk hk'
        cases k with
        | zero =>
          refine ⟨fun h => by simp at h, fun s' hs' => ?_⟩
          simp only [List.getElem_cons_zero, Option.some.injEq] at hs'
          subst hs'
          exact ⟨ds0, hd, rfl⟩
        | succ k => simpa using h3 k (by simpa using hk) (by simpa using hk')

theorem dropSpurious_filter (fs : List (Rule × Range)) (ds : List Diagnostic) :
    ∃ P : Diagnostic → Bool, dropSpuriousOutdated fs ds = ds.filter P ∧
      ∀ d : Diagnostic, d.name ≠ Rule.outdatedSuppression.name → P d = true := by
  unfold dropSpuriousOutdated
  simp only
  split
  · exact ⟨fun _ => true, (List.filter_eq_self.mpr (by simp)).symm, fun _ _ => rfl⟩
  · refine ⟨_, rfl, fun d hd => ?_⟩
    simp [hd]

theorem demoteFile_pos {k : Nat} {m : Manager} (h : 0 < k) : (demoteFile k m).file = [] := by
  simp [demoteFile, h]

theorem demoteFile_same (k : Nat) (m : Manager) : (demoteFile k m).chunk = m.chunk ∧
    (demoteFile k m).regions = m.regions ∧ (demoteFile k m).node = m.node ∧ (demoteFile k m).hasAny = m.hasAny := by
  unfold demoteFile
  split <;> exact ⟨rfl, rfl, rfl, rfl⟩

theorem demoteFile_suppressions {k : Nat} {m : Manager} (h : suppressions m = []) :
    suppressions (demoteFile k m) = [] := by
  unfold suppressions at *
  obtain ⟨h1, h2, h3, _⟩ := demoteFile_same k m
  rw [h1, h2, h3]
  simp only [List.append_eq_nil_iff, List.map_eq_nil_iff] at *
  refine ⟨⟨⟨?_, h.1.1.2⟩, h.1.2⟩, h.2⟩
  unfold demoteFile
  split
  · rfl
  · exact h.1.1.1

/-- The parser puts only comments of the text into the tree. -/
def ParserOk (L : Lints) : Prop := ∀ code p, L.parse code = some p → CommentsFromSource p.root code

/-- The first R chunk of the document suppresses rule `r` with a `jarl-ignore-file` comment in front of its code. -/
def DocSuppressed (L : Lints) (contents : Str) (r : Rule) : Prop :=
  ∃ c p, (extractRChunks contents)[0]? = some c ∧ L.parse c.code = some p ∧ FileSuppressed p.root r

theorem mem_rmdFileSuppressions {L : Lints} (hP : ParserOk L) {contents : Str} {states : List (Option ChunkState)}
    (hs : rmdStates L 0 (extractRChunks contents) = .ok states) (r : Rule) :
    (∃ f ∈ rmdFileSuppressions states, f.1 = r) ↔ DocSuppressed L contents r := by
  obtain ⟨hlen, hst⟩ := rmdStates_ok hs
  constructor
  · rintro ⟨f, hf, rfl⟩
    unfold rmdFileSuppressions at hf
    rw [List.mem_flatMap] at hf
    obtain ⟨o, ho, hf⟩ := hf
    obtain ⟨k, hk, rfl⟩ := List.mem_iff_getElem.mp ho
    have := hst k (by omega) hk
    generalize hcg : (extractRChunks contents)[k]'(by omega) = c at this
    generalize states[k] = o at this hf
    cases this with
    | bad => simp at hf
    | @good p m hp hm =>
      simp only [List.mem_map] at hf
      obtain ⟨⟨r, rg⟩, hf, rfl⟩ := hf
      cases k with
      | zero =>
        refine ⟨c, p, by rw [← hcg]; simp, hp, ?_⟩
        rw [fromNode_eq_collect (hP _ _ hp)] at hm
        exact (file_suppressed_iff hm r).mp ⟨rg, by simpa [demoteFile] using hf⟩
      | succ k => rw [demoteFile_pos (by omega)] at hf; simp at hf
  · rintro ⟨c, p, hc, hp, hf⟩
    obtain ⟨h0, hc⟩ := List.getElem?_eq_some_iff.mp hc
    have := hst 0 h0 (by omega)
    rw [hc] at this
    generalize hog : states[0]'(by omega) = o at this
    cases this with
    | bad h => rw [hp] at h; cases h
    | @good p' m hp' hm =>
      rw [hp] at hp'; cases hp'
      rw [fromNode_eq_collect (hP _ _ hp)] at hm
      obtain ⟨rg, hrg⟩ := (file_suppressed_iff hm r).mpr hf
      refine ⟨(r, rg.shift c.startByte), ?_, rfl⟩
      unfold rmdFileSuppressions
      rw [List.mem_flatMap]
      refine ⟨_, List.getElem_mem (n := 0) (by omega), ?_⟩
      rw [hog]
      simp only [List.mem_map]
      exact ⟨(r, rg), by simpa [demoteFile] using hrg, rfl⟩

theorem demoted_hidden_iff {L : Lints} (hP : ParserOk L) {contents : Str} {k : Nat} {c : RChunk} {p : Parsed}
    {m : Manager} (hc : (extractRChunks contents)[k]? = some c) (hp : L.parse c.code = some p)
    (hm : fromNode p.root c.code = some m) (d : Diagnostic) :
    ((suppressedBy (demoteFile k m) d).isSome = true ∨ ∃ r, DocSuppressed L contents r ∧ r.name = d.name) ↔
    (HiddenLocal p.root c.code d ∨ ∃ r, DocSuppressed L contents r ∧ r.name = d.name) := by
  have hcs := hP _ _ hp
  have hm' := hm
  rw [fromNode_eq_collect hcs] at hm
  by_cases hk : 0 < k
  · obtain ⟨h1, h2, h3, _⟩ := demoteFile_same k m
    rw [hiddenLocal_iff hm d (demoteFile k m) (demoteFile_pos hk) h1 h2 h3]
  · have hk0 : k = 0 := by omega
    subst hk0
    have hd : demoteFile 0 m = m := by simp [demoteFile]
    rw [hd]
    obtain ⟨keep, hkeep, _⟩ := C08_hidden_iff_suppressed hcs hm' []
    have hl := hiddenLocal_iff hm d { m with file := [] } rfl rfl rfl rfl
    have hfile : (suppressedBy m d).isSome = true ↔
        ((∃ r : Rule, r.name = d.name ∧ ∃ rg, (r, rg) ∈ m.file) ∨
          (suppressedBy { m with file := [] } d).isSome = true) := by
      rw [suppressedBy_find, suppressedBy_find, find_map_isSome, find_map_isSome]
      unfold suppressions
      simp only [List.mem_append, List.map_nil, List.not_mem_nil, false_or, List.mem_map]
      constructor
      · rintro ⟨s, ((⟨⟨r, rg⟩, h, rfl⟩ | h) | h) | h, hcov⟩
        · exact .inl ⟨r, by simpa using hcov, rg, h⟩
        · exact .inr ⟨s, .inl (.inl h), hcov⟩
        · exact .inr ⟨s, .inl (.inr h), hcov⟩
        · exact .inr ⟨s, .inr h, hcov⟩
      · rintro (⟨r, hn, rg, h⟩ | ⟨s, (h | h) | h, hcov⟩)
        · exact ⟨_, .inl (.inl (.inl ⟨(r, rg), h, rfl⟩)), by simpa using hn⟩
        · exact ⟨s, .inl (.inl (.inr h)), hcov⟩
        · exact ⟨s, .inl (.inr h), hcov⟩
        · exact ⟨s, .inr h, hcov⟩
    rw [hfile, hl]
    constructor
    · rintro ((⟨r, hn, h⟩ | h) | h)
      · exact .inr ⟨r, ⟨c, p, hc, hp, (file_suppressed_iff hm r).mp h⟩, hn⟩
      · exact .inl h
      · exact .inr h
    · rintro (h | h)
      · exact .inl (.inr h)
      · exact .inr h

/-- **C16 (what is reported).** The diagnostics of an Rmd/Qmd file are, chunk after chunk: nothing for a chunk with a
syntax error; otherwise the diagnostics of the chunk that no comment *of this chunk* (other than `jarl-ignore-file`)
hides and whose rule no `jarl-ignore-file` *of the first chunk* names, in order, followed by
`outdated_suppression` reports only. -/
theorem C16_chunks {L : Lints} (hP : ParserOk L) {pkg : PackageAnalysis} {cfg : Config} {file contents : Str}
    {ds : List Diagnostic} (hr : hasRmdExtension file = true) (h : getChecks L pkg cfg file contents = .ok ds) :
    ∃ parts : List (List Diagnostic), parts.length = (extractRChunks contents).length ∧ ds = parts.flatten ∧
      ∀ k c, (extractRChunks contents)[k]? = some c → ∃ part, parts[k]? = some part ∧
        (L.parse c.code = none → part = []) ∧
        ∀ p, L.parse c.code = some p → ∃ m exprs unreach, fromNode p.root c.code = some m ∧
          L.expressions cfg.lintInput c.code = .ok exprs ∧
          (Rule.unreachableCode ∈ cfg.rulesToApply → L.unreachable cfg.lintInput c.code = .ok unreach) ∧
          (Rule.unreachableCode ∉ cfg.rulesToApply → unreach = []) ∧
          ((∀ d ∈ exprs ++ unreach, d.name ≠ Rule.outdatedSuppression.name) →
            ∃ (keep : Diagnostic → Bool) (tail : List Diagnostic),
              (∀ d, keep d = true ↔ ¬ HiddenLocal p.root c.code d ∧ ∀ r, DocSuppressed L contents r → r.name ≠ d.name) ∧
              (∀ d ∈ tail, d.name = Rule.outdatedSuppression.name) ∧
              part = ((rawDiagnostics cfg.rulesToApply (demoteFile k m) exprs unreach [] []).filter keep).map
                (fun d => located (findNewLines contents) (remap file c.startByte d)) ++ tail) := by
  unfold getChecks at h
  rw [if_pos hr] at h
  unfold getChecksRmd at h
  cases hs : rmdStates L 0 (extractRChunks contents) with
  | error e => rw [hs] at h; cases h
  | ok states =>
    rw [hs] at h
    cases ha : rmdDiagnostics L cfg file states with
    | error e => simp only [bind, Except.bind, ha] at h; cases h
    | ok all =>
      simp only [bind, Except.bind, ha] at h
      obtain ⟨h1, _⟩ := computeLocations_ok h
      subst h1
      obtain ⟨parts, hlen, hall, hparts⟩ := rmdDiagnostics_parts ha
      obtain ⟨P, hP1, hP2⟩ := dropSpurious_filter (rmdFileSuppressions states) all
      obtain ⟨hslen, hst⟩ := rmdStates_ok hs
      rw [hP1, hall]
      unfold applyFileSuppressions
      rw [List.filter_filter, List.filter_flatten, List.map_flatten, List.map_map]
      refine ⟨_, by simp only [List.length_map]; omega, rfl, ?_⟩
      intro k c hc
      obtain ⟨hk, hck⟩ := List.getElem?_eq_some_iff.mp hc
      have hk1 : k < parts.length := by omega
      have hk2 : k < states.length := by omega
      refine ⟨_, by rw [List.getElem?_map, List.getElem?_eq_getElem hk1]; rfl, ?_, ?_⟩
      · intro hbad
        have hsk := hst k hk hk2
        rw [hck] at hsk
        generalize hog : states[k] = o at hsk
        cases hsk with
        | bad =>
          have := (hparts k hk1 hk2).1 hog
          simp [this]
        | good hp => rw [hbad] at hp; cases hp
      · intro p hp
        have hsk := hst k hk hk2
        rw [hck] at hsk
        generalize hog : states[k] = o at hsk
        cases hsk with
        | bad hbad => rw [hbad] at hp; cases hp
        | @good p' m hp' hm =>
          rw [hp] at hp'; cases hp'
          simp only [Nat.zero_add] at hog
          obtain ⟨ds0, hrun, hpart⟩ := (hparts k hk1 hk2).2 _ hog
          simp only at hrun hpart
          unfold runChecker at hrun
          cases he : L.expressions cfg.lintInput c.code with
          | error e => rw [he] at hrun; cases hrun
          | ok exprs =>
            rw [he] at hrun
            simp only [bind, Except.bind] at hrun
            cases hu : unreachableDiags L cfg.lintInput c.code with
            | error e => rw [hu] at hrun; cases hrun
            | ok unreach =>
              rw [hu] at hrun
              simp only [pure, Except.pure, Except.ok.injEq] at hrun
              refine ⟨m, exprs, unreach, hm, rfl, ?_, ?_, ?_⟩
              · intro hmem
                unfold unreachableDiags at hu
                rw [if_pos (show Rule.unreachableCode ∈ cfg.lintInput.ruleSet from hmem)] at hu
                exact hu
              · intro hmem
                unfold unreachableDiags at hu
                rw [if_neg (show Rule.unreachableCode ∉ cfg.lintInput.ruleSet from hmem)] at hu
                cases hu
                rfl
              · intro hnames
                let raw := rawDiagnostics cfg.rulesToApply (demoteFile k m) exprs unreach [] []
                have hraw : ∀ d ∈ raw, d.name ≠ Rule.outdatedSuppression.name := by
                  intro d hd
                  have hgate : ∀ r l (d : Diagnostic), r ≠ Rule.outdatedSuppression → (∀ x ∈ l, x.name = r.name) →
                      d ∈ gate cfg.rulesToApply r l → d.name ≠ Rule.outdatedSuppression.name := by
                    intro r l d hr hl hd
                    unfold gate at hd
                    split at hd
                    · rw [hl d hd]; exact fun h => hr (Rule.name_inj h)
                    · simp at hd
                  have hcom : ∀ r b hp l, ∀ x ∈ commentDiags r b hp l, x.name = r.name := by
                    intro r b hp l x hx
                    obtain ⟨_, _, rfl⟩ := List.mem_map.mp hx
                    rfl
                  have hpk : ∀ r b l, ∀ x ∈ pkgDiags r b l, x.name = r.name := by
                    intro r b l x hx
                    obtain ⟨⟨_, _, _⟩, _, rfl⟩ := List.mem_map.mp hx
                    rfl
                  simp only [raw, rawDiagnostics, List.mem_append] at hd
                  rcases hd with ((((((((((hd | hd) | hd) | hd) | hd) | hd) | hd) | hd) | hd) | hd) | hd) | hd
                  · exact hnames d (by simp [hd])
                  · unfold gate at hd
                    split at hd
                    · exact hnames d (by simp [hd])
                    · simp at hd
                  · exact hgate _ _ d (by decide) (hcom _ _ _ _) hd
                  · exact hgate _ _ d (by decide) (hcom _ _ _ _) hd
                  · exact hgate _ _ d (by decide) (hcom _ _ _ _) hd
                  · exact hgate _ _ d (by decide) (hcom _ _ _ _) hd
                  · exact hgate _ _ d (by decide) (hcom _ _ _ _) hd
                  · exact hgate _ _ d (by decide) (hcom _ _ _ _) hd
                  · exact hgate _ _ d (by decide) (hcom _ _ _ _) hd
                  · exact hgate _ _ d (by decide) (hcom _ _ _ _) hd
                  · exact hgate _ _ d (by decide) (hpk _ _ _) hd
                  · exact hgate _ _ d (by decide) (hpk _ _ _) hd
                have hmc : collect p.root c.code = some m := by rw [← fromNode_eq_collect (hP _ _ hp)]; exact hm
                have hany : (demoteFile k m).hasAny = false → suppressions (demoteFile k m) = [] := by
                  intro hf
                  rw [(demoteFile_same k m).2.2.2] at hf
                  exact demoteFile_suppressions (collect_hasAny hmc hf)
                have hkept := (filterDiagnostics_eq hany raw).1
                let F : Diagnostic → Bool := fun d => match Rule.fromName d.name with
                  | some r => !(rmdFileSuppressions states).any (fun f => f.1 = r)
                  | none => true
                have hF : ∀ d : Diagnostic, F d = true ↔ ∀ r, DocSuppressed L contents r → r.name ≠ d.name := by
                  intro d
                  simp only [F]
                  cases hn : Rule.fromName d.name with
                  | none =>
                    have := Rule.fromName_eq_none.mp hn
                    simp only [true_iff]
                    exact fun r _ => this r
                  | some r =>
                    have hrn := Rule.fromName_eq_some.mp hn
                    have := mem_rmdFileSuppressions hP hs r
                    simp only [Bool.not_eq_true', List.any_eq_false, decide_eq_true_eq]
                    constructor
                    · intro hall r' hr' hname
                      have : r' = r := Rule.name_inj (hname.trans hrn.symm)
                      subst this
                      obtain ⟨f, hf, hfr⟩ := this.mpr hr'
                      exact hall f hf hfr
                    · intro hall f hf hfr
                      exact hall r (this.mp ⟨f, hf, hfr⟩) hrn
                let T := ((gate cfg.lintInput.ruleSet .outdatedSuppression (outdatedDiags
                  (unusedSuppressions (demoteFile k m) (filterDiagnostics (demoteFile k m) raw).2))).map
                  (remap file c.startByte)).filter (fun a => F a && P a)
                refine ⟨fun d => (suppressedBy (demoteFile k m) d).isNone && F d,
                  T.map (located (findNewLines contents)), ?_, ?_, ?_⟩
                rotate_left 2
                · simp only [Function.comp_def]
                  rw [hpart, ← hrun]
                  unfold checkDocument
                  rw [List.map_append, List.filter_append, List.map_append]
                  congr 1
                  show List.map _ (List.filter _ (List.map _ (filterDiagnostics (demoteFile k m) raw).1)) = _
                  rw [hkept, List.filter_map, List.filter_filter, List.map_map]
                  show _ = List.map _ (List.filter _ raw)
                  congr 1
                  apply List.filter_congr
                  intro d hd
                  have := hP2 (remap file c.startByte d) (hraw d hd)
                  simp only [Function.comp_def, this, Bool.and_true]
                  rw [Bool.and_comm]
                  rfl
                · intro d
                  have := demoted_hidden_iff hP hc hp hm d
                  rw [Bool.and_eq_true, hF]
                  by_cases hdoc : ∃ r, DocSuppressed L contents r ∧ r.name = d.name
                  · obtain ⟨r, hr1, hr2⟩ := hdoc
                    constructor
                    · intro h; exact absurd hr2 (h.2 r hr1)
                    · intro h; exact absurd hr2 (h.2 r hr1)
                  · simp only [hdoc, or_false] at this
                    rw [← this]
                    cases suppressedBy (demoteFile k m) d <;> simp
                · intro d hd
                  simp only [T, List.mem_map, List.mem_filter] at hd
                  obtain ⟨d1, ⟨⟨d2, hd2, rfl⟩, _⟩, rfl⟩ := hd
                  unfold gate at hd2
                  split at hd2
                  · obtain ⟨_, _, rfl⟩ := List.mem_map.mp hd2
                    rfl
                  · simp at hd2

/-- **C16 (file suppressions hold everywhere).** A rule named by a `jarl-ignore-file` comment in front of the code of the
first chunk is reported nowhere in the document. -/
theorem C16_file_rule_hidden {L : Lints} (hP : ParserOk L) {pkg : PackageAnalysis} {cfg : Config} {file contents : Str}
    {ds : List Diagnostic} (hr : hasRmdExtension file = true) (h : getChecks L pkg cfg file contents = .ok ds)
    {r : Rule} (hd : DocSuppressed L contents r) : ∀ d ∈ ds, d.name ≠ r.name := by
  unfold getChecks at h
  rw [if_pos hr] at h
  unfold getChecksRmd at h
  cases hs : rmdStates L 0 (extractRChunks contents) with
  | error e => rw [hs] at h; cases h
  | ok states =>
    rw [hs] at h
    cases ha : rmdDiagnostics L cfg file states with
    | error e => simp only [bind, Except.bind, ha] at h; cases h
    | ok all =>
      simp only [bind, Except.bind, ha] at h
      obtain ⟨h1, _⟩ := computeLocations_ok h
      subst h1
      intro d hmem hname
      obtain ⟨d1, hd1, rfl⟩ := List.mem_map.mp hmem
      have hk := (List.mem_filter.mp hd1).2
      have hn : Rule.fromName d1.name = some r := Rule.fromName_eq_some.mpr hname.symm
      rw [hn] at hk
      obtain ⟨f, hf, hfr⟩ := (mem_rmdFileSuppressions hP hs r).mpr hd
      simp only [Bool.not_eq_true', List.any_eq_false, decide_eq_true_eq] at hk
      exact hk f hf hfr

/-- **C16 (file suppressions of later chunks).** With `misplaced_file_suppression` enabled and not itself suppressed, a
`jarl-ignore-file` comment in front of the code of a chunk that is not the first one is reported as misplaced, at its
place in the document. -/
theorem C16_later_file_comment_misplaced {L : Lints} (hP : ParserOk L) {pkg : PackageAnalysis} {cfg : Config}
    {file contents : Str} {ds : List Diagnostic} (hr : hasRmdExtension file = true)
    (h : getChecks L pkg cfg file contents = .ok ds)
    (hnames : ∀ code es, (L.expressions cfg.lintInput code = .ok es ∨ L.unreachable cfg.lintInput code = .ok es) →
      ∀ d ∈ es, d.name ≠ Rule.outdatedSuppression.name)
    (he : Rule.misplacedFileSuppression ∈ cfg.rulesToApply)
    {k : Nat} (hk : 0 < k) {c : RChunk} (hc : (extractRChunks contents)[k]? = some c) {p : Parsed}
    (hp : L.parse c.code = some p) {n : SynNode} {l : Nat} {cm : Comment} {r : Rule}
    (hreach : Reach p.root true l n) (hlead : cm ∈ n.leading) (hv : ValidComment cm.text (.ignoreFile r))
    (hnot : ∀ d : Diagnostic, d.name = Rule.misplacedFileSuppression.name → d.range = cm.range →
      ¬ HiddenLocal p.root c.code d)
    (hdoc : ¬ DocSuppressed L contents .misplacedFileSuppression) :
    ∃ d ∈ ds, d.name = cs! "misplaced_file_suppression" ∧ d.range = cm.range.shift c.startByte := by
  obtain ⟨parts, _, hds, hparts⟩ := C16_chunks hP hr h
  obtain ⟨part, hpart, _, hgood⟩ := hparts k c hc
  obtain ⟨m, exprs, unreach, hm, hexp, hunr, hunr', hrest⟩ := hgood p hp
  have hu : ∀ d ∈ unreach, d.name ≠ Rule.outdatedSuppression.name := by
    by_cases hun : Rule.unreachableCode ∈ cfg.rulesToApply
    · exact hnames _ _ (.inr (hunr hun))
    · rw [hunr' hun]; simp
  obtain ⟨keep, tail, hkeep, _, hpeq⟩ := hrest (by
    intro d hd
    rcases List.mem_append.mp hd with hd | hd
    · exact hnames _ _ (.inl hexp) d hd
    · exact hu d hd)
  have hmc : collect p.root c.code = some m := by rw [← fromNode_eq_collect (hP _ _ hp)]; exact hm
  have hfile : (r, cm.range) ∈ m.file := by
    have hf : m.file = (visitNode c.code true 0 p.root).filterMap fileOf := by
      unfold collect at hmc
      cases hrun : runVisits {} (visitNode c.code true 0 p.root) with
      | none => rw [hrun] at hmc; cases hmc
      | some col =>
        rw [hrun] at hmc
        cases hmc
        show col.file = _
        rw [(run_fields hrun).file]
        rfl
    rw [hf]
    exact file_source.mpr ⟨n, l, cm, hreach, hlead, hv, rfl⟩
  have hmis : cm.range ∈ (demoteFile k m).misplacedFile := by
    unfold demoteFile
    rw [if_pos hk]
    exact List.mem_append.mpr (.inr (List.mem_map.mpr ⟨_, hfile, rfl⟩))
  have hraw : Diagnostic.new Rule.misplacedFileSuppression.name
      (cs! "This comment isn't used by Jarl because `# jarl-ignore-file` must be at the top of the file.")
      (some (cs! "Move this comment to the beginning of the file, before any code.")) cm.range .empty ∈
      rawDiagnostics cfg.rulesToApply (demoteFile k m) exprs unreach [] [] := by
    unfold rawDiagnostics
    simp only [List.mem_append]
    refine .inl (.inl (.inl (.inl (.inl (.inl (.inr ?_))))))
    unfold gate
    rw [if_pos he]
    exact List.mem_map.mpr ⟨_, hmis, rfl⟩
  generalize hd0 : Diagnostic.new _ _ _ cm.range .empty = d0 at hraw
  have hn0 : d0.name = Rule.misplacedFileSuppression.name := by rw [← hd0]; rfl
  have hr0 : d0.range = cm.range := by rw [← hd0]; rfl
  refine ⟨located (findNewLines contents) (remap file c.startByte d0), ?_, ?_, ?_⟩
  · rw [hds]
    refine List.mem_flatten.mpr ⟨part, List.mem_of_getElem? hpart, ?_⟩
    rw [hpeq]
    refine List.mem_append.mpr (.inl (List.mem_map.mpr ⟨d0, List.mem_filter.mpr ⟨hraw, ?_⟩, rfl⟩))
    rw [hkeep]
    refine ⟨hnot d0 hn0 hr0, ?_⟩
    intro r' hr' hname
    rw [hn0] at hname
    exact hdoc (Rule.name_inj hname ▸ hr')
  · show d0.name = _
    rw [hn0]; rfl
  · show d0.range.shift _ = _
    rw [hr0]

/-! ### A concrete document (test) -/

def exChunk1 : Str := cs! "# jarl-ignore-file any_is_na: ok\nany(is.na(x))\n"
def exChunk2 : Str := cs! "# jarl-ignore-file repeat: no\nany(is.na(y))\nwhile (TRUE) 1\n"
def exRmd : Str := cs! "a\n```{r}\n" ++ exChunk1 ++ cs! "```\n```{r}\n" ++ exChunk2 ++ cs! "```\n"

/-- A parser and lints for the two chunks above only. -/
def exLints : Lints where
  parse code :=
    if code = exChunk1 then some ⟨.mk ⟨33, 46⟩ false [] [] []
      [.mk ⟨33, 46⟩ false [⟨cs! "# jarl-ignore-file any_is_na: ok", ⟨0, 32⟩⟩] [] [] []], some code⟩
    else if code = exChunk2 then some ⟨.mk ⟨30, 58⟩ false [] [] []
      [.mk ⟨30, 43⟩ false [⟨cs! "# jarl-ignore-file repeat: no", ⟨0, 29⟩⟩] [] [] [], .mk ⟨44, 58⟩ false [] [] [] []], some code⟩
    else none
  expressions _ code :=
    if code = exChunk1 then .ok [.new (cs! "any_is_na") [] none ⟨33, 46⟩ ⟨cs! "anyNA(x)", 33, 46, false⟩]
    else .ok [.new (cs! "any_is_na") [] none ⟨30, 43⟩ ⟨cs! "anyNA(y)", 30, 43, false⟩,
      .new (cs! "repeat") [] none ⟨44, 56⟩ ⟨cs! "repeat", 44, 56, false⟩]
  unreachable _ _ := .ok []

def exConfig : Config where
  rules := Rule.all
  rulesToApply := Rule.all
  applyFixes := false
  applyUnsafeFixes := false
  minimumRVersion := none
  allowDirty := false
  allowNoVcs := false
  unfixable := [cs! "repeat"]
  fixable := none
  assignment := .arrow

def exPkg : PackageAnalysis := ⟨fun _ => [], fun _ => []⟩

example : (match getChecks exLints exPkg exConfig (cs! "d/a.Rmd") exRmd with
    | .ok ds => ds.map (fun d => (d.name, d.range, d.fix, d.location))
    | .error _ => []) =
    [(cs! "repeat", ⟨111, 123⟩, Fix.empty, some (9, 0)),
     (cs! "misplaced_file_suppression", ⟨67, 96⟩, Fix.empty, some (7, 0))] := by decide +kernel

example : (match getChecks exLints exPkg exConfig (cs! "d/a.R") exChunk2 with
    | .ok ds => ds.map (fun d => (d.name, d.fix.toSkip))
    | .error _ => []) = [(cs! "any_is_na", false)] := by decide +kernel

end Jarl
