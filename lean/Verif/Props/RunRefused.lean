import Verif.Props.RunFix
/-!
# C75: git and the files of several configurations
-/
namespace Jarl
open Spec

/-! ## Only the guard gives errors about version control -/

theorem bind_ne_vcs {α β : Type} {x : Except CheckErr α} {f : α → Except CheckErr β} (hx : x ≠ .error .vcs) (hf : ∀ a, f a ≠ .error .vcs) :
    (x >>= f) ≠ .error .vcs := by
  cases x with
  | error e => exact fun h => hx (by cases h; rfl)
  | ok a => exact hf a

theorem computeLocations_no_vcs {nl : List Nat} : ∀ {ds : List Diagnostic}, computeLocations nl ds ≠ .error .vcs
  | [] => nofun
  | d :: ds => by
    unfold computeLocations
    split
    · nofun
    · exact bind_ne_vcs computeLocations_no_vcs (fun _ => nofun)

theorem runChecker_no_vcs {L : Lints} (hL : NoVcsErrors L) {inp : LintInput} {m : Manager} {code : Str} {d u : List (Str × Range × Str)} :
    runChecker L inp m code d u ≠ .error .vcs := by
  refine bind_ne_vcs (hL inp code).1 (fun _ => bind_ne_vcs ?_ (fun _ => nofun))
  unfold unreachableDiags
  split
  · exact (hL inp code).2
  · nofun

theorem getChecksR_no_vcs {L : Lints} (hL : NoVcsErrors L) {pkg : PackageAnalysis} {cfg : Config} {file c : Str} : getChecksR L pkg cfg file c ≠ .error .vcs := by
  refine bind_ne_vcs ?_ (fun x => ?_)
  · unfold checkerDiagnostics
    split
    · nofun
    · split
      · nofun
      · exact bind_ne_vcs (runChecker_no_vcs hL) (fun _ => nofun)
  · obtain ⟨p, ds⟩ := x
    simp only
    split
    · nofun
    · exact computeLocations_no_vcs

theorem rmdStates_no_vcs {L : Lints} : ∀ {i : Nat} {cs : List RChunk}, rmdStates L i cs ≠ .error .vcs
  | _, [] => nofun
  | i, c :: cs => by
    unfold rmdStates
    split
    · exact bind_ne_vcs rmdStates_no_vcs (fun _ => nofun)
    · split
      · nofun
      · exact bind_ne_vcs rmdStates_no_vcs (fun _ => nofun)

theorem rmdDiagnostics_no_vcs {L : Lints} (hL : NoVcsErrors L) {cfg : Config} {file : Str} :
    ∀ {ss : List (Option ChunkState)}, rmdDiagnostics L cfg file ss ≠ .error .vcs
  | [] => nofun
  | none :: ss => by unfold rmdDiagnostics; exact rmdDiagnostics_no_vcs hL
  | some s :: ss => by
    unfold rmdDiagnostics
    exact bind_ne_vcs (runChecker_no_vcs hL) (fun _ => bind_ne_vcs (rmdDiagnostics_no_vcs hL) (fun _ => nofun))

theorem getChecks_no_vcs {L : Lints} (hL : NoVcsErrors L) {pkg : PackageAnalysis} {cfg : Config} {file c : Str} : getChecks L pkg cfg file c ≠ .error .vcs := by
  unfold getChecks
  split
  · exact bind_ne_vcs rmdStates_no_vcs (fun _ => bind_ne_vcs (rmdDiagnostics_no_vcs hL) (fun _ => computeLocations_no_vcs))
  · exact getChecksR_no_vcs hL

theorem lintOnly_no_vcs {L : Lints} (hL : NoVcsErrors L) {pkg : PackageAnalysis} {cfg : Config} {path : Str} {io : Io} {d : Option Str} :
    lintOnly L pkg cfg path io d ≠ .error .vcs := by
  unfold lintOnly
  split
  · nofun
  · exact getChecks_no_vcs hL

theorem lintFixLoop_no_vcs {L : Lints} (hL : NoVcsErrors L) {pkg : PackageAnalysis} {cfg : Config} {path : Str} {io : Io} :
    ∀ {fuel n : Nat} {s : Bool} {d : Option Str}, (lintFixLoop L pkg cfg path io fuel n s d).2 ≠ some (.error .vcs)
  | 0, _, _, _ => nofun
  | fuel + 1, n, s, d => by
    unfold lintFixLoop
    split
    · nofun
    · split
      · rename_i hg
        intro h
        cases h
        exact getChecks_no_vcs hL hg
      · split
        · nofun
        · split
          · nofun
          · split
            · nofun
            · exact lintFixLoop_no_vcs hL

theorem checkPath_no_vcs {L : Lints} (hL : NoVcsErrors L) {pkg : PackageAnalysis} {cfg : Config} {path : Str} {io : Io} {fuel : Nat} {d : Option Str} :
    (checkPath L pkg cfg path io fuel d).2 ≠ some (.error .vcs) := by
  unfold checkPath lintFix
  have h : some (lintOnly L pkg cfg path io d) ≠ some (.error .vcs) := fun h => lintOnly_no_vcs hL (Option.some.inj h)
  split
  · split
    · exact h
    · exact lintFixLoop_no_vcs hL
  · exact h

theorem allDone_mem : ∀ {l : List (Str × Option (Except CheckErr (List Diagnostic)))} {rs : FileResults}, allDone l = some rs → ∀ r ∈ rs, (r.1, some r.2) ∈ l
  | [], _, h => by cases h; exact fun _ h => nomatch h
  | (n, x) :: l, rs, h => by
    unfold allDone at h
    split at h
    · rename_i r rs' hl
      cases h
      intro r' hr'
      rcases List.mem_cons.mp hr' with rfl | hr'
      · simp
      · exact List.mem_cons_of_mem _ (allDone_mem hl r' hr')
    · cases h

/-- A group gives an error about version control exactly when git does not allow fixing its files, and then it changes nothing. -/
theorem fixGroup_vcs {w : FileWorld} {git : GitOn} {s : JarlSettings} (hL : NoVcsErrors (w.lints s)) {cfg : Config} {o : PkgOrder} {io : DPath → Io} {fuel : Nat}
    {paths : List DPath} {t : DPath → Option Str} {rs : FileResults} (h : fixGroup w git s cfg o io fuel paths = (t, some rs)) :
    (VcsAllows (git w.text) cfg (paths.map (relText w.cwd)) → ∀ r ∈ rs, r.2 ≠ .error .vcs) ∧
    ((∃ r ∈ rs, r.2 = .error .vcs) → t = w.text) := by
  unfold fixGroup at h
  split at h
  · cases h
    exact ⟨fun _ _ h => (nomatch h), fun ⟨_, h, _⟩ => (nomatch h)⟩
  · split at h
    · rename_i first rest hc
      cases h
      refine ⟨fun hv => ?_, fun _ => rfl⟩
      rw [(checkVersionControl_iff _ _ _).mpr hv] at hc
      simp at hc
    · simp only [Prod.mk.injEq] at h
      have hno : ∀ r ∈ rs, r.2 ≠ .error .vcs := by
        intro r hr hv
        have := allDone_mem h.2 r hr
        obtain ⟨p, _, hp⟩ := List.mem_map.mp this
        simp only [Prod.mk.injEq] at hp
        rw [hv] at hp
        exact checkPath_no_vcs hL hp.2
      exact ⟨fun _ => hno, fun ⟨r, hr, hv⟩ => absurd hv (hno r hr)⟩

/-! ## Every change was allowed -/

theorem fixGroup_allowed {w : FileWorld} {git : GitOn} {s : JarlSettings} {cfg : Config} {o : PkgOrder} {io : DPath → Io} {fuel : Nat} {paths : List DPath} {p : DPath}
    (h : (fixGroup w git s cfg o io fuel paths).1 p ≠ w.text p) : VcsAllows (git w.text) cfg (paths.map (relText w.cwd)) := by
  have hfl := (fixGroup_change h).2.2
  unfold fixGroup at h
  split at h
  · exact absurd rfl h
  · split at h
    · exact absurd rfl h
    · rename_i hc
      rw [← checkVersionControl_iff]
      rcases hfl with hf | hf <;> simpa [hf] using hc

theorem fixGroups_allowed {w : FileWorld} {git : GitOn} {a : RunArgs} {items : List (DPath × JarlSettings)} {o : RunOrder} {io : DPath → Io} {fuel : Nat} {p : DPath} :
    ∀ {gs : List (Option DPath × List DPath)} {t : DPath → Option Str}, (gs.map Prod.fst).Nodup →
      (∀ g ∈ gs, ∀ f ∈ g.2, groupKey items f = g.1 ∧ f.getLast? ≠ some (cs! "DESCRIPTION")) →
      (∀ d, t (d ++ [cs! "DESCRIPTION"]) = w.text (d ++ [cs! "DESCRIPTION"])) →
      (fixGroups w git a items o io fuel gs t).1 p ≠ t p →
      ∃ g ∈ gs, p ∈ g.2 ∧ ∃ cfg t0, configOf w a.config (groupSettings items g.1) g.2 = .ok cfg ∧ (∀ q ∈ g.2, t0 q = t q) ∧
        (∀ q, t0 q ≠ t q → ∃ g' ∈ gs, q ∈ g'.2) ∧ VcsAllows (git t0) cfg (g.2.map (relText w.cwd))
  | [], t, _, _, _, h => absurd rfl h
  | g :: gs, t, hk, hmem, hd, h => by
    rw [List.map_cons, List.nodup_cons] at hk
    unfold fixGroups at h
    rw [configOf_text hd] at h
    cases hc : configOf w a.config (groupSettings items g.1) g.2 with
    | error e => rw [hc] at h; exact absurd rfl h
    | ok cfg =>
      simp only [hc] at h
      generalize hg : fixGroup { w with text := t } git ((groupSettings items g.1).getD defaultSettings) cfg (o.pkg g.1) io fuel g.2 = x at h
      have hx : ∀ q, x.1 q ≠ t q → q ∈ g.2 := by
        intro q hq
        rw [← hg] at hq
        exact (fixGroup_change hq).1
      have hxd : ∀ d, x.1 (d ++ [cs! "DESCRIPTION"]) = w.text (d ++ [cs! "DESCRIPTION"]) := by
        intro d
        rw [← hd d]
        apply Classical.byContradiction
        intro hne
        exact (hmem g (by simp) _ (hx _ hne)).2 (by simp)
      by_cases e : x.1 p = t p
      · have h' : (fixGroups w git a items o io fuel gs x.1).1 p ≠ x.1 p := by
          rw [e]
          obtain ⟨t1, r1⟩ := x
          cases r1 with
          | none => exact absurd e h
          | some rs =>
            simp only at h ⊢
            revert h
            cases fixGroups w git a items o io fuel gs t1 with
            | mk t2 r2 =>
              intro h
              cases r2 with
              | none => exact h
              | some r2 => cases r2 <;> exact h
        obtain ⟨g', hg', hp, cfg', t0, h1, h2, h3, h4⟩ := fixGroups_allowed hk.2 (fun g' hg' => hmem g' (by simp [hg'])) hxd h'
        refine ⟨g', by simp [hg'], hp, cfg', t0, h1, ?_, ?_, h4⟩
        · intro q hq
          rw [h2 q hq]
          apply Classical.byContradiction
          intro hne
          apply hk.1
          rw [← (hmem g (by simp) q (hx q hne)).1, (hmem g' (by simp [hg']) q hq).1]
          exact List.mem_map_of_mem hg'
        · intro q hq
          by_cases e' : x.1 q = t q
          · rw [← e'] at hq
            obtain ⟨g'', h5, h6⟩ := h3 q hq
            exact ⟨g'', by simp [h5], h6⟩
          · exact ⟨g, by simp, hx q e'⟩
      · refine ⟨g, by simp, hx p e, cfg, t, hc, fun _ _ => rfl, fun q h => absurd rfl h, ?_⟩
        rw [← hg] at e
        exact fixGroup_allowed e

/-- **C75** (changes are allowed). If a file was changed, then git allowed it: for the files of the same configuration, asked when these files still had their old texts (the
files of other configurations may already have been fixed, which is where the full claim fails: `C75_false_own_changes`). -/
theorem C75_changed_partial {w : FileWorld} (hw : OkWorld w) {git : GitOn} {a : RunArgs} (hdesc : NoDescriptionNamed a) {items : List (DPath × JarlSettings)}
    (hitems : discoverSettings w.configFs a.paths = some items) (hver : OneVersion w a (foundFiles w a items)) {o : RunOrder} (ho : PossibleOrder w a items o)
    {io : DPath → Io} {fuel : Nat} {p : DPath} (h : (runFix w git a o io fuel).1 p ≠ w.text p) :
    ∃ cfg t0, ConfigFor w a items p cfg ∧ (∀ q ∈ sameConfig items (foundFiles w a items) p, t0 q = w.text q) ∧
      (∀ q, t0 q ≠ w.text q → q ∈ foundFiles w a items) ∧
      VcsAllows (git t0) cfg ((sameConfig items (foundFiles w a items) p).map (relText w.cwd)) := by
  have hgr := groupsOf_perm (groupFiles_spec items o.files) ho.groups
  rw [runFix_text hitems] at h
  split at h
  · exact absurd rfl h
  · obtain ⟨g, hg, hp, cfg, t0, h1, h2, h3, h4⟩ := fixGroups_allowed hgr.keys (by
      intro g hg f hf
      obtain ⟨h1, h2⟩ := mem_groups hgr hg hf
      exact ⟨h2, foundFiles_notDescription hw hdesc (ho.files.mem_iff.mp h1)⟩) (fun _ => rfl) h
    have hm := mem_groups hgr hg hp
    have hperm : g.2.Perm (sameConfig items (foundFiles w a items) p) := by
      have hk : (resolvePath items p).map Prod.fst = g.1 := hm.2
      unfold sameConfig
      rw [hk, hgr.members g hg]
      exact ho.files.filter _
    refine ⟨cfg, t0, (group_config hw ho hver hg hp).trans h1, fun q hq => h2 q (hperm.mem_iff.mpr hq), ?_, ?_⟩
    · intro q hq
      obtain ⟨g', hg', hq'⟩ := h3 q hq
      exact ho.files.mem_iff.mp (mem_groups hgr hg' hq').1
    · rwa [vcsAllows_perm (l' := (sameConfig items (foundFiles w a items) p).map (relText w.cwd))] at h4
      intro n
      exact (hperm.map _).mem_iff

/-- **C75** for projects with one configuration. If jarl prints for any file that version control does not allow fixes, nothing was changed; and it prints this only if git does
not allow the files to be fixed. An error that ends the command (an invalid configuration) changes nothing. -/
theorem C75_one_config {w : FileWorld} (hw : OkWorld w) (hL : ∀ s, NoVcsErrors (w.lints s)) {git : GitOn} {a : RunArgs} {items : List (DPath × JarlSettings)}
    (hitems : discoverSettings w.configFs a.paths = some items) (hver : OneVersion w a (foundFiles w a items))
    (hone : ∀ f ∈ foundFiles w a items, ∀ g ∈ foundFiles w a items, (resolvePath items f).map Prod.fst = (resolvePath items g).map Prod.fst)
    {o : RunOrder} (ho : PossibleOrder w a items o) (hst : a.statistics = false) (hadd : a.addJarlIgnore = none)
    {io : DPath → Io} {fuel : Nat} {t : DPath → Option Str} {r : Except Unit CliOut} (h : runFix w git a o io fuel = (t, some r)) :
    (∀ out, r = .ok out → SaysRefused out → t = w.text ∧
      ∃ f ∈ foundFiles w a items, ∃ cfg, ConfigFor w a items f cfg ∧ ¬ VcsAllows (git w.text) cfg ((foundFiles w a items).map (relText w.cwd))) ∧
    (r = .error () → t = w.text) := by
  have hgr := groupsOf_perm (groupFiles_spec items o.files) ho.groups
  rcases runFix_some hitems hgr h with ⟨he, rfl, rfl⟩ | ⟨hne, x, hx, hr⟩
  · refine ⟨?_, fun h => nomatch h⟩
    rintro out h ⟨e, he, _⟩
    cases h
    cases he
  · obtain ⟨k, hg, hk⟩ := one_group hgr hne (fun f hf g hg => hone f (ho.files.mem_iff.mp hf) g (ho.files.mem_iff.mp hg))
    rw [hg] at hx
    unfold fixGroups at hx
    rw [configOf_text (fun _ => rfl)] at hx
    cases hc : configOf w a.config (groupSettings items k) o.files with
    | error e =>
      simp only [hc] at hx
      cases hx
      subst hr
      exact ⟨fun _ h => (nomatch h), fun _ => rfl⟩
    | ok cfg =>
      simp only [hc, fixGroups] at hx
      cases hfg : fixGroup w git ((groupSettings items k).getD defaultSettings) cfg (o.pkg k) io fuel o.files with
      | mk t' rs =>
        cases rs with
        | none => simp only [hfg] at hx; cases hx
        | some rs =>
          simp only [hfg, List.append_nil, Prod.mk.injEq, Option.some.injEq] at hx
          obtain ⟨rfl, rfl⟩ := hx
          obtain ⟨h1, h2⟩ := fixGroup_vcs (hL _) hfg
          simp only at hr
          unfold cliReport at hr
          simp only [RunArgs.checkArgs, hadd, hst, Bool.false_eq_true, if_false] at hr
          subst hr
          refine ⟨?_, fun h => nomatch h⟩
          rintro out hout ⟨e, he, hv⟩
          cases hout
          simp only at he
          unfold allErrors at he
          obtain ⟨⟨n, y⟩, hm, hy⟩ := List.mem_filterMap.mp he
          have hy' : y = .error .vcs := by
            cases y with
            | ok _ => cases hy
            | error e' => cases hy; simp only at hv; rw [hv]
          subst hy'
          refine ⟨h2 ⟨_, hm, rfl⟩, ?_⟩
          cases hf : o.files with
          | nil => exact absurd hf hne
          | cons f l =>
            have hin : f ∈ o.files := by rw [hf]; simp
            refine ⟨f, ho.files.mem_iff.mp hin, cfg, (group_config hw ho hver (g := (k, o.files)) (by rw [hg]; simp) hin).trans hc, ?_⟩
            intro hva
            rw [vcsAllows_perm (l' := o.files.map (relText w.cwd)) (fun n => (ho.files.symm.map _).mem_iff)] at hva
            exact h1 hva _ hm rfl

end Jarl
