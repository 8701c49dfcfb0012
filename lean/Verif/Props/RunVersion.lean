import Verif.Props.RunOrder
import Verif.Props.Description
/-!
# C71 (where the R version comes from); the cases in which C72 fails
-/
namespace Jarl
open Spec

theorem config_version {args : ArgsConfig} {toml : Option LinterSettings} {op : AssignOp} {probes : List DescProbe} {cfg : Config}
    (h : buildConfig args toml op probes = .ok cfg) : determineMinimumRVersion args probes = .ok cfg.minimumRVersion ∧
    ∃ rules, cfg.rules = filterRulesByVersion rules cfg.minimumRVersion := by
  unfold buildConfig at h
  cases hv : determineMinimumRVersion args probes with
  | error e => rw [hv] at h; cases h
  | ok v =>
    rw [hv] at h
    simp only [bind, Except.bind] at h
    split at h
    · cases h
    · split at h
      · cases h
      · split at h
        · cases h
        · split at h
          · cases h
          · cases h
            exact ⟨rfl, _, rfl⟩

/-- **C71 (found).** Without `--min-r-version`, if one of the files of a group lies beside a DESCRIPTION that requires R version `v` (the
first `R (...)` entry of its last Depends field), and all DESCRIPTION files beside files of the group say the same, the version is `v`. What is
missing: DESCRIPTION files in directories above are not looked at (`C71_not_found`, `C71_false_package`). -/
theorem C71_beside_partial {w : FileWorld} {a : RunArgs} {s : Option JarlSettings} {files : List DPath} {cfg : Config}
    (hfiles : ∀ f ∈ files, IsFile w.tree f) (hver : OneVersion w a files) (hcli : a.config.minRVersion = none) {f : DPath} (hf : f ∈ files)
    (hd : HasDescription w f.dropLast) {eol : Str} (he : LineEnd eol) {pre post : List DcfField} {fld : DcfField}
    (wf : ∀ g ∈ pre ++ fld :: post, g.WF) (hk : trim fld.key = cs! "Depends") (hlast : ∀ g ∈ post, trim g.key ≠ cs! "Depends")
    (htext : w.text (f.dropLast ++ [cs! "DESCRIPTION"]) = some (renderDcf eol (pre ++ fld :: post)))
    {v : Str} {vs : List Str} (hreq : Requirements (rEntries fld.value) (v :: vs)) {rv : RVersion} (hv : parseRVersion v = some rv)
    (h : configOf w a.config s files = .ok cfg) : cfg.minimumRVersion = some rv := by
  obtain ⟨hm, _⟩ := config_version h
  have hver : ∀ g ∈ files, HasDescription w g.dropLast →
      w.text (g.dropLast ++ [cs! "DESCRIPTION"]) = some (renderDcf eol (pre ++ fld :: post)) := by
    rcases hver with hv | hv
    · rw [hcli] at hv; cases hv
    · intro g hg hgd
      rw [← hv f hf g hg hd hgd]; exact htext
  unfold determineMinimumRVersion at hm
  rw [hcli] at hm
  simp only [minVersionFromDesc_eq] at hm
  have hfound : ∀ g ∈ files, HasDescription w g.dropLast → versionFound (descProbe w g) = some (.ok (some rv)) := by
    intro g hg hgd
    rw [descProbe_file (hfiles g hg), if_pos (exists_iff.mpr hgd), hver g hg hgd]
    simp only [versionFound]
    rw [C26_depends_versions he pre post fld wf hk hlast _ hreq]
    simp only [hv]
  cases hs : (files.map (descProbe w)).findSome? versionFound with
  | none =>
    rw [List.findSome?_eq_none_iff] at hs
    have := hs (descProbe w f) (List.mem_map.mpr ⟨f, hf, rfl⟩)
    rw [hfound f hf hd] at this
    cases this
  | some x =>
    obtain ⟨p, hp, hx⟩ := List.exists_of_findSome?_eq_some hs
    obtain ⟨g, hg, rfl⟩ := List.mem_map.mp hp
    have hgd : HasDescription w g.dropLast := by
      rw [descProbe_file (hfiles g hg)] at hx
      by_cases hex : w.exists (g.dropLast ++ [cs! "DESCRIPTION"]) = true
      · exact exists_iff.mp hex
      · rw [if_neg hex] at hx; cases hx
    rw [hfound g hg hgd] at hx
    cases hx
    rw [hs] at hm
    exact (Except.ok.inj hm).symm

/-- **C71 (not found).** Without `--min-r-version`, if no file of a group lies directly beside a DESCRIPTION, then no R version is known and no rule
that needs one runs: whatever DESCRIPTION files there are in the directories above. -/
theorem C71_not_found {w : FileWorld} {args : ArgsConfig} {s : Option JarlSettings} {files : List DPath} {cfg : Config}
    (hfiles : ∀ f ∈ files, IsFile w.tree f ∧ ¬ HasDescription w f.dropLast) (hcli : args.minRVersion = none)
    (h : configOf w args s files = .ok cfg) : cfg.minimumRVersion = none ∧ ∀ r ∈ cfg.rules, r.minVersion = none := by
  obtain ⟨hm, rules, hr⟩ := config_version h
  have : cfg.minimumRVersion = none := by
    unfold determineMinimumRVersion at hm
    rw [hcli] at hm
    simp only [minVersionFromDesc_eq] at hm
    have : (files.map (descProbe w)).findSome? versionFound = none := by
      rw [List.findSome?_eq_none_iff]
      intro p hp
      obtain ⟨f, hf, rfl⟩ := List.mem_map.mp hp
      rw [descProbe_file (hfiles f hf).1, if_neg (fun hex => (hfiles f hf).2 (exists_iff.mp hex))]
      rfl
    rw [this] at hm
    exact (Except.ok.inj hm).symm
  refine ⟨this, ?_⟩
  intro r hr'
  rw [hr, this] at hr'
  have hr' : r ∈ rules ∧ r.minVersion = none := by simpa [filterRulesByVersion] using hr'
  exact hr'.2

end Jarl
