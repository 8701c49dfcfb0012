import Verif.Spec.RunFix
import Verif.Props.RunOrder
import Verif.Props.EndToEnd
/-!
# C74: what a fixing run changes, and when it is refused
-/
namespace Jarl
open Spec

/-! ## Configurations -/

theorem configOf_flags {w : FileWorld} {args : ArgsConfig} {s : Option JarlSettings} {paths : List DPath} {cfg : Config}
    (h : configOf w args s paths = .ok cfg) :
    cfg.applyFixes = args.fix ∧ cfg.applyUnsafeFixes = args.unsafeFixes ∧ cfg.allowNoVcs = args.allowNoVcs ∧ cfg.allowDirty = args.allowDirty := by
  unfold configOf buildConfig at h
  simp only [bind, Except.bind, pure, Except.pure] at h
  repeat (split at h; · cases h)
  cases h
  exact ⟨rfl, rfl, rfl, rfl⟩

/-! ## Only found files change -/

theorem fixFile_change {w : FileWorld} {s : JarlSettings} {cfg : Config} {o : PkgOrder} {paths : List DPath} {io : DPath → Io} {fuel : Nat} {p : DPath}
    (h : (fixFile w s cfg o paths io fuel p).1 ≠ w.text p) :
    ¬ IsDocument (relText w.cwd p) ∧ (cfg.applyFixes = true ∨ cfg.applyUnsafeFixes = true) := by
  constructor
  · intro hd
    exact h (C21_no_writes (.inl ((C15_documents _).mpr hd)))
  · apply Classical.byContradiction
    intro hno
    simp only [not_or, Bool.not_eq_true] at hno
    exact h (C21_no_writes (.inr (.inl hno)))

theorem fixGroup_change {w : FileWorld} {git : GitOn} {s : JarlSettings} {cfg : Config} {o : PkgOrder} {paths : List DPath} {io : DPath → Io} {fuel : Nat} {p : DPath}
    (h : (fixGroup w git s cfg o io fuel paths).1 p ≠ w.text p) :
    p ∈ paths ∧ ¬ IsDocument (relText w.cwd p) ∧ (cfg.applyFixes = true ∨ cfg.applyUnsafeFixes = true) := by
  unfold fixGroup at h
  split at h
  · exact absurd rfl h
  · split at h
    · exact absurd rfl h
    · simp only at h
      split at h
      · rename_i hp
        exact ⟨hp, fixFile_change h⟩
      · exact absurd rfl h

theorem fixGroups_change {w : FileWorld} {git : GitOn} {a : RunArgs} {items : List (DPath × JarlSettings)} {o : RunOrder} {io : DPath → Io} {fuel : Nat} {p : DPath} :
    ∀ {gs : List (Option DPath × List DPath)} {t : DPath → Option Str}, (fixGroups w git a items o io fuel gs t).1 p ≠ t p →
      (∃ g ∈ gs, p ∈ g.2) ∧ ¬ IsDocument (relText w.cwd p) ∧ Fixing a
  | [], t, h => absurd rfl h
  | g :: gs, t, h => by
    unfold fixGroups at h
    cases hc : configOf { w with text := t } a.config (groupSettings items g.1) g.2 with
    | error e => simp only [hc] at h; exact absurd rfl h
    | ok cfg =>
      simp only [hc] at h
      have hfl := configOf_flags hc
      have key : ∀ t', (fixGroup { w with text := t } git ((groupSettings items g.1).getD defaultSettings) cfg (o.pkg g.1) io fuel g.2).1 = t' →
          t' p ≠ t p → (∃ g' ∈ g :: gs, p ∈ g'.2) ∧ ¬ IsDocument (relText w.cwd p) ∧ Fixing a := by
        intro t' e h
        rw [← e] at h
        obtain ⟨h1, h2, h3⟩ := fixGroup_change h
        exact ⟨⟨g, by simp, h1⟩, h2, by rw [hfl.1, hfl.2.1] at h3; exact h3⟩
      cases hg : fixGroup { w with text := t } git ((groupSettings items g.1).getD defaultSettings) cfg (o.pkg g.1) io fuel g.2 with
      | mk t' rs =>
        rw [hg] at key
        simp only [hg] at h
        cases rs with
        | none => exact key t' rfl h
        | some rs =>
          simp only at h
          have h' : (fixGroups w git a items o io fuel gs t').1 p ≠ t p := by
            revert h
            cases fixGroups w git a items o io fuel gs t' with
            | mk t'' r =>
              intro h
              cases r with
              | none => exact h
              | some r => cases r <;> exact h
          by_cases e : t' p = t p
          · rw [← e] at h'
            obtain ⟨⟨g', hg', hp⟩, h2, h3⟩ := fixGroups_change h'
            exact ⟨⟨g', by simp [hg'], hp⟩, h2, h3⟩
          · exact key t' rfl e

theorem runFix_text {w : FileWorld} {git : GitOn} {a : RunArgs} {items : List (DPath × JarlSettings)} {o : RunOrder} {io : DPath → Io} {fuel : Nat}
    (hitems : discoverSettings w.configFs a.paths = some items) :
    (runFix w git a o io fuel).1 = if o.files.isEmpty then w.text else (fixGroups w git a items o io fuel o.groups w.text).1 := by
  unfold runFix
  rw [hitems]
  simp only
  split
  · rfl
  · cases fixGroups w git a items o io fuel o.groups w.text with
    | mk t r =>
      cases r with
      | none => rfl
      | some r => cases r <;> rfl

theorem mem_groups {items : List (DPath × JarlSettings)} {files : List DPath} {gs : List (Option DPath × List DPath)} (h : GroupsOf (groupKey items) files gs)
    {g : Option DPath × List DPath} (hg : g ∈ gs) {p : DPath} (hp : p ∈ g.2) : p ∈ files ∧ groupKey items p = g.1 := by
  rw [h.members g hg, List.mem_filter] at hp
  exact ⟨hp.1, by simpa using hp.2⟩

/-- **C74** (what changes). Whatever the order of the threads and hash maps, whatever git says and whichever reads and writes fail: a file that has another
text after `jarl check` is one of the files that were found (C68), it is no document, and `--fix` or `--unsafe-fixes` was given. -/
theorem C74_only_found {w : FileWorld} {git : GitOn} {a : RunArgs} {items : List (DPath × JarlSettings)} {o : RunOrder} {io : DPath → Io} {fuel : Nat} {p : DPath}
    (hitems : discoverSettings w.configFs a.paths = some items) (ho : PossibleOrder w a items o)
    (h : (runFix w git a o io fuel).1 p ≠ w.text p) :
    p ∈ foundFiles w a items ∧ ¬ IsDocument (relText w.cwd p) ∧ Fixing a := by
  rw [runFix_text hitems] at h
  split at h
  · exact absurd rfl h
  · obtain ⟨⟨g, hg, hp⟩, h2, h3⟩ := fixGroups_change h
    have hgr := groupsOf_perm (groupFiles_spec items o.files) ho.groups
    exact ⟨ho.files.mem_iff.mp (mem_groups hgr hg hp).1, h2, h3⟩

/-! ## One file -/

theorem lintFixLoop_no_package {L : Lints} {pkg pkg' : PackageAnalysis} {cfg : Config} {path : Str} {io : Io}
    (h1 : Rule.duplicatedFunctionDefinition ∉ cfg.rulesToApply) (h2 : Rule.unusedFunction ∉ cfg.rulesToApply) :
    ∀ {fuel n : Nat} {s : Bool} {d : Option Str}, lintFixLoop L pkg cfg path io fuel n s d = lintFixLoop L pkg' cfg path io fuel n s d
  | 0, _, _, _ => rfl
  | fuel + 1, n, s, d => by
    unfold lintFixLoop
    cases io.read n d with
    | none => rfl
    | some c =>
      simp only [getChecks_no_package (pkg := pkg) (pkg' := pkg') h1 h2]
      cases getChecks L pkg' cfg path c with
      | error e => rfl
      | ok checks =>
        simp only
        split
        · rfl
        · cases applyFixes (checks.map (·.fix)) c with
          | none => rfl
          | some x =>
            simp only
            cases io.writeFails n with
            | some l => rfl
            | none => exact lintFixLoop_no_package h1 h2

theorem lintOnly_no_package {L : Lints} {pkg pkg' : PackageAnalysis} {cfg : Config} {path : Str} {io : Io} {d : Option Str}
    (h1 : Rule.duplicatedFunctionDefinition ∉ cfg.rulesToApply) (h2 : Rule.unusedFunction ∉ cfg.rulesToApply) :
    lintOnly L pkg cfg path io d = lintOnly L pkg' cfg path io d := by
  unfold lintOnly
  cases io.read 0 d with
  | none => rfl
  | some c => exact getChecks_no_package h1 h2

theorem checkPath_no_package {L : Lints} {pkg pkg' : PackageAnalysis} {cfg : Config} {path : Str} {io : Io} {fuel : Nat} {d : Option Str}
    (h1 : Rule.duplicatedFunctionDefinition ∉ cfg.rulesToApply) (h2 : Rule.unusedFunction ∉ cfg.rulesToApply) :
    checkPath L pkg cfg path io fuel d = checkPath L pkg' cfg path io fuel d := by
  unfold checkPath lintFix
  rw [lintOnly_no_package (pkg' := pkg') h1 h2, lintFixLoop_no_package (pkg' := pkg') h1 h2]

/-! ## Configurations and git while files change -/

theorem configOf_text {w : FileWorld} {t : DPath → Option Str} (h : ∀ d, t (d ++ [cs! "DESCRIPTION"]) = w.text (d ++ [cs! "DESCRIPTION"]))
    {args : ArgsConfig} {s : Option JarlSettings} {fs : List DPath} : configOf { w with text := t } args s fs = configOf w args s fs := by
  have : descProbe { w with text := t } = descProbe w := by
    funext p
    unfold descProbe
    simp only [h]
    rfl
  unfold configOf
  rw [this]

theorem allowed_now {w : FileWorld} {git : GitOn} {a : RunArgs} {files : List DPath} (h : AlwaysAllowed w git a files) {cfg : Config}
    (h1 : cfg.allowNoVcs = a.config.allowNoVcs) (h2 : cfg.allowDirty = a.config.allowDirty) {fs : List DPath} (hsub : ∀ f ∈ fs, f ∈ files)
    (t : DPath → Option Str) : checkVersionControl (git t) cfg (fs.map (relText w.cwd)) = true := by
  rw [checkVersionControl_iff]
  rcases h with h | ⟨h, hr⟩
  · exact .inl (h1.trans h)
  · refine .inr ⟨?_, .inl (h2.trans h)⟩
    intro n hn
    obtain ⟨f, hf, rfl⟩ := List.mem_map.mp hn
    exact hr t f (hsub f hf)

theorem foundFiles_notDescription {w : FileWorld} (hw : OkWorld w) {a : RunArgs} (ha : NoDescriptionNamed a) {items : List (DPath × JarlSettings)} {f : DPath}
    (h : f ∈ foundFiles w a items) : f.getLast? ≠ some (cs! "DESCRIPTION") := by
  unfold foundFiles checkedFiles discoverRFiles at h
  rw [List.mem_filterMap] at h
  obtain ⟨x, hx, rfl⟩ := h
  rw [List.mem_filter, List.mem_flatMap] at hx
  obtain ⟨⟨p, hp, hx⟩, _⟩ := hx
  unfold visitArg at hx
  cases hat : w.tree.at p with
  | none => rw [hat] at hx; simp at hx
  | some u =>
    rw [hat] at hx
    cases u with
    | file =>
      simp at hx
      subst hx
      exact ha _ hp
    | dir es =>
      simp only [List.mem_map, Option.some.injEq] at hx
      obtain ⟨x, hx, e⟩ := hx
      subst e
      have h2 := (mem_visitEntry (skip := _) (p := p) (t := .dir es) (at_ok hw.tree hat).1).mp (by simpa only [visitEntry] using hx)
      obtain ⟨r, _, _, hext, _⟩ := h2
      intro e
      have : fileNameOf x = cs! "DESCRIPTION" := by
        unfold fileNameOf
        rw [e]; rfl
      unfold hasCheckedExtension at hext
      rw [this] at hext
      revert hext
      decide

/-! ## All groups -/

theorem allDone_map {f : DPath → Str × Option (Except CheckErr (List Diagnostic))} : ∀ {l : List DPath} {rs : FileResults}, allDone (l.map f) = some rs →
    (∀ p ∈ l, ∃ r, (f p).2 = some r) ∧ rs = l.filterMap (fun p => (f p).2.map (fun r => ((f p).1, r)))
  | [], rs, h => by
    cases h
    exact ⟨fun _ h => (nomatch h), rfl⟩
  | p :: l, rs, h => by
    rw [List.map_cons] at h
    cases hp : f p with
    | mk n r =>
      rw [hp] at h
      unfold allDone at h
      cases r with
      | none => cases h
      | some r =>
        cases hl : allDone (l.map f) with
        | none => simp only [hl] at h; cases h
        | some rs' =>
          simp only [hl, Option.some.injEq] at h
          obtain ⟨h1, h2⟩ := allDone_map hl
          refine ⟨?_, ?_⟩
          · intro q hq
            rcases List.mem_cons.mp hq with rfl | hq
            · exact ⟨r, by rw [hp]⟩
            · exact h1 q hq
          · rw [List.filterMap_cons, hp, ← h, h2]
            rfl

/-- What a group contributes when every file is fixed alone. -/
def aloneResults (w : FileWorld) (a : RunArgs) (items : List (DPath × JarlSettings)) (io : DPath → Io) (fuel : Nat) (g : Option DPath × List DPath) : FileResults :=
  match configOf w a.config (groupSettings items g.1) g.2 with
  | .error _ => []
  | .ok cfg => g.2.filterMap (fun f => (FixedAlone w items io fuel cfg f).2.map (fun r => (relText w.cwd f, r)))

/-- What is known about the groups. -/
structure PlainGroup (w : FileWorld) (a : RunArgs) (items : List (DPath × JarlSettings)) (files : List DPath) (g : Option DPath × List DPath) (cfg : Config) : Prop where
  conf : configOf w a.config (groupSettings items g.1) g.2 = .ok cfg
  dup : Rule.duplicatedFunctionDefinition ∉ cfg.rulesToApply
  unused : Rule.unusedFunction ∉ cfg.rulesToApply
  sub : ∀ f ∈ g.2, f ∈ files ∧ groupKey items f = g.1 ∧ f.getLast? ≠ some (cs! "DESCRIPTION")

theorem fixGroup_alone {w : FileWorld} {git : GitOn} {a : RunArgs} {items : List (DPath × JarlSettings)} {o : PkgOrder} {io : DPath → Io} {fuel : Nat} {files : List DPath}
    {g : Option DPath × List DPath} {cfg : Config} {t : DPath → Option Str} (hg : PlainGroup w a items files g cfg) (hgit : AlwaysAllowed w git a files ∨ ¬ Fixing a)
    (ht : ∀ f ∈ g.2, t f = w.text f) :
    fixGroup { w with text := t } git ((groupSettings items g.1).getD defaultSettings) cfg o io fuel g.2 =
      (fun p => if p ∈ g.2 then (FixedAlone w items io fuel cfg p).1 else t p,
       allDone (g.2.map (fun p => (relText w.cwd p, (FixedAlone w items io fuel cfg p).2)))) := by
  have hfl := configOf_flags hg.conf
  have hone : ∀ p ∈ g.2, fixFile { w with text := t } ((groupSettings items g.1).getD defaultSettings) cfg o g.2 io fuel p = FixedAlone w items io fuel cfg p := by
    intro p hp
    unfold fixFile FixedAlone settingsFor
    have hk := (hg.sub p hp).2.1
    unfold groupKey at hk
    rw [hk, checkPath_no_package (pkg' := noAnalysis) hg.dup hg.unused]
    show checkPath _ _ _ _ _ _ (t p) = _
    rw [ht p hp]
  have hv : ((cfg.applyFixes || cfg.applyUnsafeFixes) && !checkVersionControl (git t) cfg (g.2.map (relText w.cwd))) = false := by
    rcases hgit with h | h
    · rw [allowed_now h hfl.2.2.1 hfl.2.2.2 (fun f hf => (hg.sub f hf).1) t]; simp
    · unfold Fixing at h
      rw [← hfl.1, ← hfl.2.1] at h
      simp only [not_or, Bool.not_eq_true] at h
      rw [h.1, h.2]; rfl
  have hfun : (fun p => if p ∈ g.2 then (fixFile { w with text := t } ((groupSettings items g.1).getD defaultSettings) cfg o g.2 io fuel p).1 else t p) =
      fun p => if p ∈ g.2 then (FixedAlone w items io fuel cfg p).1 else t p := by
    funext p
    split
    · rename_i hp; rw [hone p hp]
    · rfl
  have hmap : g.2.map (fun p => (relText w.cwd p, (fixFile { w with text := t } ((groupSettings items g.1).getD defaultSettings) cfg o g.2 io fuel p).2)) =
      g.2.map (fun p => (relText w.cwd p, (FixedAlone w items io fuel cfg p).2)) := by
    apply List.map_congr_left
    intro p hp
    rw [hone p hp]
  cases hl : g.2 with
  | nil =>
    unfold fixGroup
    simp only [List.not_mem_nil, if_false, List.map_nil, allDone]
  | cons x l =>
    rw [← hl]
    unfold fixGroup
    rw [hl] at hv hfun hmap ⊢
    simp only
    rw [hv]
    simp only [Bool.false_eq_true, if_false]
    rw [hfun, hmap]

theorem fixGroups_alone {w : FileWorld} {git : GitOn} {a : RunArgs} {items : List (DPath × JarlSettings)} {o : RunOrder} {io : DPath → Io} {fuel : Nat} {files : List DPath}
    (hgit : AlwaysAllowed w git a files ∨ ¬ Fixing a) :
    ∀ {gs : List (Option DPath × List DPath)} {t t' : DPath → Option Str} {r : Except Fail FileResults}, (gs.map Prod.fst).Nodup →
      (∀ g ∈ gs, ∃ cfg, PlainGroup w a items files g cfg) → (∀ g ∈ gs, ∀ f ∈ g.2, t f = w.text f) →
      (∀ d, t (d ++ [cs! "DESCRIPTION"]) = w.text (d ++ [cs! "DESCRIPTION"])) → fixGroups w git a items o io fuel gs t = (t', some r) →
      r = .ok (gs.flatMap (aloneResults w a items io fuel)) ∧
      (∀ p, (∀ g ∈ gs, p ∉ g.2) → t' p = t p) ∧
      (∀ g ∈ gs, ∀ cfg, configOf w a.config (groupSettings items g.1) g.2 = .ok cfg → ∀ f ∈ g.2,
        t' f = (FixedAlone w items io fuel cfg f).1 ∧ ∃ r, (FixedAlone w items io fuel cfg f).2 = some r)
  | [], t, t', r, _, _, _, _, h => by
    unfold fixGroups at h
    cases h
    exact ⟨rfl, fun _ _ => rfl, fun _ h => (nomatch h)⟩
  | g :: gs, t, t', r, hk, hpl, ht, hd, h => by
    obtain ⟨cfg, hg⟩ := hpl g (by simp)
    unfold fixGroups at h
    rw [configOf_text hd, hg.conf] at h
    simp only at h
    rw [fixGroup_alone hg hgit (ht g (by simp))] at h
    cases hall : allDone (g.2.map (fun p => (relText w.cwd p, (FixedAlone w items io fuel cfg p).2))) with
    | none => simp only [hall] at h; cases h
    | some rs =>
      simp only [hall] at h
      obtain ⟨hdone, hrs⟩ := allDone_map hall
      rw [List.map_cons, List.nodup_cons] at hk
      have hdisj : ∀ g' ∈ gs, ∀ f ∈ g'.2, f ∉ g.2 := by
        intro g' hg' f hf hf'
        obtain ⟨_, hpg⟩ := hpl g' (by simp [hg'])
        apply hk.1
        rw [← (hg.sub f hf').2.1, (hpg.sub f hf).2.1]
        exact List.mem_map_of_mem hg'
      cases hrest : fixGroups w git a items o io fuel gs (fun p => if p ∈ g.2 then (FixedAlone w items io fuel cfg p).1 else t p) with
      | mk t'' r' =>
        rw [hrest] at h
        cases r' with
        | none => cases h
        | some r' =>
          have ih := fixGroups_alone hgit (o := o) (io := io) (fuel := fuel) hk.2 (fun g' hg' => hpl g' (by simp [hg'])) (by
              intro g' hg' f hf
              rw [if_neg (hdisj g' hg' f hf)]
              exact ht g' (by simp [hg']) f hf) (by
              intro d
              rw [if_neg]
              · exact hd d
              · intro hm
                exact (hg.sub _ hm).2.2 (by simp)) hrest
          obtain ⟨h1, h2, h3⟩ := ih
          rw [h1] at h
          simp only [Prod.mk.injEq, Option.some.injEq] at h
          obtain ⟨rfl, rfl⟩ := h
          refine ⟨?_, ?_, ?_⟩
          · rw [List.flatMap_cons, hrs]
            unfold aloneResults
            rw [hg.conf]
          · intro p hp
            rw [h2 p (fun g' hg' => hp g' (by simp [hg'])), if_neg (hp g (by simp))]
          · intro g' hg' cfg' hc f hf
            rcases List.mem_cons.mp hg' with rfl | hg'
            · have : cfg' = cfg := by rw [hg.conf] at hc; exact (Except.ok.inj hc).symm
              subst this
              refine ⟨?_, hdone f hf⟩
              rw [h2 f (fun g' hg' hf' => hdisj g' hg' f hf' hf), if_pos hf]
            · exact h3 g' hg' cfg' hc f hf

/-! ## The whole command -/

theorem group_config {w : FileWorld} (hw : OkWorld w) {a : RunArgs} {items : List (DPath × JarlSettings)} {o : RunOrder} (ho : PossibleOrder w a items o)
    (hver : OneVersion w a (foundFiles w a items)) {g : Option DPath × List DPath} (hg : g ∈ o.groups) {f : DPath} (hf : f ∈ g.2) :
    configOf w a.config (settingsFor items f) (sameConfig items (foundFiles w a items) f) = configOf w a.config (groupSettings items g.1) g.2 := by
  have hgr := groupsOf_perm (groupFiles_spec items o.files) ho.groups
  have hk : (resolvePath items f).map Prod.fst = g.1 := (mem_groups hgr hg hf).2
  unfold settingsFor sameConfig
  rw [hk, hgr.members g hg]
  exact configOf_perm (ho.files.symm.filter _) hver (fun x hx => (List.mem_filter.mp hx).1)
    (fun x hx => foundFiles_file hw (List.mem_filter.mp hx).1)

theorem group_nonempty {items : List (DPath × JarlSettings)} {files : List DPath} {gs : List (Option DPath × List DPath)} (h : GroupsOf (groupKey items) files gs)
    {g : Option DPath × List DPath} (hg : g ∈ gs) : ∃ f, f ∈ g.2 := by
  obtain ⟨f, hf, hk⟩ := (h.all g.1).mp (List.mem_map_of_mem hg)
  exact ⟨f, by rw [h.members g hg, List.mem_filter]; exact ⟨hf, by simpa using hk⟩⟩

theorem plain_groups {w : FileWorld} (hw : OkWorld w) {a : RunArgs} (hdesc : NoDescriptionNamed a) {items : List (DPath × JarlSettings)} {o : RunOrder}
    (ho : PossibleOrder w a items o) (hver : OneVersion w a (foundFiles w a items)) (hplain : PlainConfigs w a items) :
    ∀ g ∈ o.groups, ∃ cfg, PlainGroup w a items (foundFiles w a items) g cfg := by
  intro g hg
  have hgr := groupsOf_perm (groupFiles_spec items o.files) ho.groups
  obtain ⟨f, hf⟩ := group_nonempty hgr hg
  obtain ⟨cfg, hc, h1, h2⟩ := hplain f (ho.files.mem_iff.mp (mem_groups hgr hg hf).1)
  refine ⟨cfg, ⟨(group_config hw ho hver hg hf).symm.trans hc, h1, h2, ?_⟩⟩
  intro f' hf'
  obtain ⟨h3, h4⟩ := mem_groups hgr hg hf'
  have h5 := ho.files.mem_iff.mp h3
  exact ⟨h5, h4, foundFiles_notDescription hw hdesc h5⟩

theorem runFix_some {w : FileWorld} {git : GitOn} {a : RunArgs} {items : List (DPath × JarlSettings)} {o : RunOrder} {io : DPath → Io} {fuel : Nat}
    (hitems : discoverSettings w.configFs a.paths = some items) (hgr : GroupsOf (groupKey items) o.files o.groups) {t : DPath → Option Str} {r : Except Unit CliOut}
    (h : runFix w git a o io fuel = (t, some r)) :
    (o.files = [] ∧ t = w.text ∧ r = .ok ⟨.success, [], []⟩) ∨
    o.files ≠ [] ∧ ∃ x, fixGroups w git a items o io fuel o.groups w.text = (t, some x) ∧
      r = match x with | .error _ => .error () | .ok rs => cliReport a.checkArgs (resolvedItems items) rs := by
  unfold runFix at h
  rw [hitems] at h
  simp only at h
  split at h
  · rename_i he
    cases h
    exact .inl ⟨List.isEmpty_iff.mp he, rfl, rfl⟩
  · rename_i he
    refine .inr ⟨fun e => he (by rw [e]; rfl), ?_⟩
    cases hx : fixGroups w git a items o io fuel o.groups w.text with
    | mk t' x =>
      rw [hx] at h
      cases x with
      | none => cases h
      | some x =>
        cases x with
        | error e => cases h; exact ⟨_, rfl, rfl⟩
        | ok rs => cases h; exact ⟨_, rfl, rfl⟩

/-- **C74** (files do not influence each other). If git allows fixing throughout, all configurations are valid and without package-wide rules, then after a
`jarl check --fix` that has finished every checked file has the text that fixing it alone gives it, and all others are as before: whatever the orders of threads
and hash maps, and whichever reads and writes fail. -/
theorem C74_each_alone {w : FileWorld} (hw : OkWorld w) {git : GitOn} {a : RunArgs} (hdesc : NoDescriptionNamed a) {items : List (DPath × JarlSettings)}
    (hitems : discoverSettings w.configFs a.paths = some items) (hver : OneVersion w a (foundFiles w a items)) (hplain : PlainConfigs w a items)
    (hgit : AlwaysAllowed w git a (foundFiles w a items) ∨ ¬ Fixing a) {o : RunOrder} (ho : PossibleOrder w a items o) {io : DPath → Io} {fuel : Nat}
    {t : DPath → Option Str} {r : Except Unit CliOut} (h : runFix w git a o io fuel = (t, some r)) :
    (∀ p, p ∉ foundFiles w a items → t p = w.text p) ∧
    (∀ f ∈ foundFiles w a items, ∀ cfg, ConfigFor w a items f cfg → t f = (FixedAlone w items io fuel cfg f).1 ∧
      ∃ res, (FixedAlone w items io fuel cfg f).2 = some res) := by
  have hgr := groupsOf_perm (groupFiles_spec items o.files) ho.groups
  rcases runFix_some hitems hgr h with ⟨he, rfl, rfl⟩ | ⟨_, x, hx, _⟩
  · refine ⟨fun _ _ => rfl, ?_⟩
    intro f hf
    rw [← ho.files.mem_iff, he] at hf
    cases hf
  · obtain ⟨_, h2, h3⟩ := fixGroups_alone hgit hgr.keys (plain_groups hw hdesc ho hver hplain) (fun _ _ _ _ => rfl) (fun _ => rfl) hx
    refine ⟨?_, ?_⟩
    · intro p hp
      apply h2
      intro g hg hpg
      exact hp (ho.files.mem_iff.mp (mem_groups hgr hg hpg).1)
    · intro f hf cfg hc
      have hf' := ho.files.mem_iff.mpr hf
      obtain ⟨g, hg, hk⟩ := List.mem_map.mp ((hgr.all (groupKey items f)).mpr ⟨f, hf', rfl⟩)
      have hfg : f ∈ g.2 := by rw [hgr.members g hg, List.mem_filter]; exact ⟨hf', by simp [hk]⟩
      exact h3 g hg cfg ((group_config hw ho hver hg hfg).symm.trans hc) f hfg

theorem aloneResults_perm {w : FileWorld} {a : RunArgs} {items : List (DPath × JarlSettings)} {io : DPath → Io} {fuel : Nat}
    {k : Option DPath} {l l' : List DPath} (hp : l.Perm l') (hc : configOf w a.config (groupSettings items k) l = configOf w a.config (groupSettings items k) l') :
    (aloneResults w a items io fuel (k, l)).Perm (aloneResults w a items io fuel (k, l')) := by
  unfold aloneResults
  simp only [hc]
  cases configOf w a.config (groupSettings items k) l' with
  | error e => exact .refl _
  | ok cfg => exact hp.filterMap _

theorem mem_aloneResults {w : FileWorld} {a : RunArgs} {items : List (DPath × JarlSettings)} {io : DPath → Io} {fuel : Nat} {g : Option DPath × List DPath}
    {r : Str × Except CheckErr (List Diagnostic)} (h : r ∈ aloneResults w a items io fuel g) :
    ∃ cfg, configOf w a.config (groupSettings items g.1) g.2 = .ok cfg ∧ ∃ f ∈ g.2, r.1 = relText w.cwd f ∧ (FixedAlone w items io fuel cfg f).2 = some r.2 := by
  unfold aloneResults at h
  cases hc : configOf w a.config (groupSettings items g.1) g.2 with
  | error e => simp only [hc] at h; cases h
  | ok cfg =>
    simp only [hc, List.mem_filterMap, Option.map_eq_some_iff] at h
    obtain ⟨f, hf, x, hx, rfl⟩ := h
    exact ⟨cfg, rfl, f, hf, rfl, hx⟩

theorem filterMap_names {w : FileWorld} {res : DPath → Option (Except CheckErr (List Diagnostic))} : ∀ {l : List DPath},
    l.Pairwise (fun f g => relText w.cwd f ≠ relText w.cwd g) →
    ((l.filterMap (fun f => (res f).map (fun r => (relText w.cwd f, r)))).map Prod.fst).Nodup
  | [], _ => .nil
  | f :: l, h => by
    rw [List.pairwise_cons] at h
    rw [List.filterMap_cons]
    cases hr : res f with
    | none => exact filterMap_names h.2
    | some r =>
      simp only [Option.map_some, List.map_cons, List.nodup_cons]
      refine ⟨?_, filterMap_names h.2⟩
      intro hm
      obtain ⟨x, hx, he⟩ := List.mem_map.mp hm
      obtain ⟨g, hg, hx⟩ := List.mem_filterMap.mp hx
      obtain ⟨y, _, rfl⟩ := Option.map_eq_some_iff.mp hx
      exact h.1 g hg he.symm

theorem aloneResults_nodup {w : FileWorld} (hw : OkWorld w) {a : RunArgs} {items : List (DPath × JarlSettings)} {io : DPath → Io} {fuel : Nat} {files : List DPath}
    (hn : files.Nodup) (hf : ∀ f ∈ files, IsFile w.tree f) {gs : List (Option DPath × List DPath)} (hgr : GroupsOf (groupKey items) files gs) :
    ((gs.flatMap (aloneResults w a items io fuel)).map Prod.fst).Nodup := by
  have hinj : ∀ f ∈ files, ∀ g ∈ files, relText w.cwd f = relText w.cwd g → f = g := fun f h1 g h2 e =>
    relText_inj (file_names hw (hf f h1)) (file_names hw (hf g h2)) e
  rw [List.map_flatMap]
  unfold List.Nodup
  rw [List.pairwise_flatMap]
  refine ⟨?_, ?_⟩
  · intro g hg
    unfold aloneResults
    cases configOf w a.config (groupSettings items g.1) g.2 with
    | error e => exact .nil
    | ok cfg =>
      apply filterMap_names (res := fun f => (FixedAlone w items io fuel cfg f).2)
      rw [hgr.members g hg]
      have : List.Pairwise (fun f g => f ≠ g) (files.filter (fun f => groupKey items f = g.1)) := hn.sublist (List.filter_sublist)
      refine this.imp_of_mem ?_
      intro f f' h1 h2 hne e
      exact hne (hinj f (List.mem_filter.mp h1).1 f' (List.mem_filter.mp h2).1 e)
  · have hk := hgr.keys
    rw [List.Nodup, List.pairwise_map] at hk
    refine hk.imp_of_mem ?_
    intro g g' hg hg' hne x hx y hy e
    obtain ⟨r, hr, rfl⟩ := List.mem_map.mp hx
    obtain ⟨r', hr', rfl⟩ := List.mem_map.mp hy
    obtain ⟨_, _, f, hf1, h1, _⟩ := mem_aloneResults hr
    obtain ⟨_, _, f', hf2, h2, _⟩ := mem_aloneResults hr'
    have m1 := mem_groups hgr hg hf1
    have m2 := mem_groups hgr hg' hf2
    have : f = f' := hinj f m1.1 f' m2.1 (by rw [← h1, ← h2]; exact e)
    subst this
    exact hne (m1.2.symm.trans m2.2)

theorem alone_perm {w : FileWorld} (hw : OkWorld w) {a : RunArgs} {items : List (DPath × JarlSettings)} (hver : OneVersion w a (foundFiles w a items))
    {o o' : RunOrder} (ho : PossibleOrder w a items o) (ho' : PossibleOrder w a items o') {io : DPath → Io} {fuel : Nat} :
    (o.groups.flatMap (aloneResults w a items io fuel)).Perm (o'.groups.flatMap (aloneResults w a items io fuel)) := by
  have hgr := groupsOf_perm (groupFiles_spec items o.files) ho.groups
  have hgr' := groupsOf_perm (groupFiles_spec items o'.files) ho'.groups
  have hfiles : o.files.Perm o'.files := ho.files.trans ho'.files.symm
  have hfile : ∀ f ∈ o.files, IsFile w.tree f := fun f hf => foundFiles_file hw (ho.files.mem_iff.mp hf)
  have hkeys : (o.groups.map Prod.fst).Perm (o'.groups.map Prod.fst) := by
    classical
    apply (List.perm_ext_iff_of_nodup hgr.keys hgr'.keys).mpr
    intro k
    rw [hgr.all, hgr'.all]
    constructor
    · rintro ⟨f, h1, h2⟩; exact ⟨f, hfiles.mem_iff.mp h1, h2⟩
    · rintro ⟨f, h1, h2⟩; exact ⟨f, hfiles.mem_iff.mpr h1, h2⟩
  have e1 : o.groups.flatMap (aloneResults w a items io fuel) =
      (o.groups.map Prod.fst).flatMap (fun k => aloneResults w a items io fuel (groupOf items o.files k)) := by
    conv => lhs; rw [groups_eq hgr]
    rw [List.flatMap_map]
  have e2 : o'.groups.flatMap (aloneResults w a items io fuel) =
      (o'.groups.map Prod.fst).flatMap (fun k => aloneResults w a items io fuel (groupOf items o'.files k)) := by
    conv => lhs; rw [groups_eq hgr']
    rw [List.flatMap_map]
  rw [e1, e2]
  refine (perm_flatMap_left (fun k _ => ?_)).trans (hkeys.flatMap_right _)
  refine aloneResults_perm (hfiles.filter _) ?_
  exact configOf_perm (hfiles.filter _) hver (fun f hf => ho.files.mem_iff.mp (List.mem_filter.mp hf).1) (fun f hf => hfile f (List.mem_filter.mp hf).1)

/-- The reports for two permuted lists of results. -/
theorem report_perm {w : FileWorld} (hw : OkWorld w) {a : RunArgs} (hsep : Separate a.paths) {items : List (DPath × JarlSettings)} (hver : OneVersion w a (foundFiles w a items))
    {o o' : RunOrder} (ho : PossibleOrder w a items o) (ho' : PossibleOrder w a items o') {io : DPath → Io} {fuel : Nat} :
    SameReport (cliReport a.checkArgs (resolvedItems items) (o.groups.flatMap (aloneResults w a items io fuel)))
      (cliReport a.checkArgs (resolvedItems items) (o'.groups.flatMap (aloneResults w a items io fuel))) := by
  have hnd : o.files.Nodup := ho.files.nodup_iff.mpr (foundFiles_nodup hw hsep items)
  have hfile : ∀ f ∈ o.files, IsFile w.tree f := fun f hf => foundFiles_file hw (ho.files.mem_iff.mp hf)
  have hnames := aloneResults_nodup hw (a := a) (items := items) (io := io) (fuel := fuel) hnd hfile (groupsOf_perm (groupFiles_spec items o.files) ho.groups)
  cases hrep : cliReport a.checkArgs (resolvedItems items) (o.groups.flatMap (aloneResults w a items io fuel)) with
  | error e => rw [cliReport_error hrep]; trivial
  | ok out =>
    obtain ⟨out', ho', h1, h2, h3⟩ := C27_order_independent (alone_perm hw hver ho ho') hnames (by
      intro x hx ds hds d hd
      obtain ⟨g, _, hx⟩ := List.mem_flatMap.mp hx
      obtain ⟨cfg, _, f, _, e, hf⟩ := mem_aloneResults hx
      rw [e]
      exact checkPath_filename (hf.trans (by rw [hds])) d hd) hrep
    rw [ho']
    exact ⟨h1.symm, h2.symm, h3.symm⟩

/-- **C74** (the same outcome). Under the conditions of `C74_each_alone`, two runs of the same command on the same files leave the same texts and print the same
report, whatever the orders of threads and hash maps. -/
theorem C74_same_outcome {w : FileWorld} (hw : OkWorld w) {git : GitOn} {a : RunArgs} (hsep : Separate a.paths) (hdesc : NoDescriptionNamed a)
    {items : List (DPath × JarlSettings)}
    (hitems : discoverSettings w.configFs a.paths = some items) (hver : OneVersion w a (foundFiles w a items)) (hplain : PlainConfigs w a items)
    (hgit : AlwaysAllowed w git a (foundFiles w a items) ∨ ¬ Fixing a) {o o' : RunOrder} (ho : PossibleOrder w a items o) (ho' : PossibleOrder w a items o')
    {io : DPath → Io} {fuel : Nat} {t t' : DPath → Option Str} {r r' : Except Unit CliOut} (h : runFix w git a o io fuel = (t, some r))
    (h' : runFix w git a o' io fuel = (t', some r')) : t = t' ∧ SameReport r r' := by
  have hgr := groupsOf_perm (groupFiles_spec items o.files) ho.groups
  have hgr' := groupsOf_perm (groupFiles_spec items o'.files) ho'.groups
  refine ⟨?_, ?_⟩
  · obtain ⟨h1, h2⟩ := C74_each_alone hw hdesc hitems hver hplain hgit ho h
    obtain ⟨h1', h2'⟩ := C74_each_alone hw hdesc hitems hver hplain hgit ho' h'
    funext p
    by_cases hp : p ∈ foundFiles w a items
    · obtain ⟨cfg, hc, _⟩ := hplain p hp
      rw [(h2 p hp cfg hc).1, (h2' p hp cfg hc).1]
    · rw [h1 p hp, h1' p hp]
  · have hfiles : o.files.Perm o'.files := ho.files.trans ho'.files.symm
    rcases runFix_some hitems hgr h with ⟨he, rfl, rfl⟩ | ⟨hne, x, hx, hr⟩
    · rcases runFix_some hitems hgr' h' with ⟨he', rfl, rfl⟩ | ⟨hne', x', hx', hr'⟩
      · exact ⟨rfl, rfl, .refl _⟩
      · rw [he] at hfiles; exact absurd hfiles.nil_eq.symm hne'
    · rcases runFix_some hitems hgr' h' with ⟨he', rfl, rfl⟩ | ⟨hne', x', hx', hr'⟩
      · rw [he'] at hfiles; exact absurd hfiles.eq_nil hne
      · obtain ⟨e1, _, _⟩ := fixGroups_alone hgit hgr.keys (plain_groups hw hdesc ho hver hplain) (fun _ _ _ _ => rfl) (fun _ => rfl) hx
        obtain ⟨e2, _, _⟩ := fixGroups_alone hgit hgr'.keys (plain_groups hw hdesc ho' hver hplain) (fun _ _ _ _ => rfl) (fun _ => rfl) hx'
        subst e1 e2
        simp only at hr hr'
        rw [hr, hr']
        exact report_perm hw hsep hver ho ho'

/-! ## Checking again -/

theorem rulesToApply_all {rules : List Rule} {f u x : Bool} (h : u = true ∨ x = true ∨ ∀ r ∈ rules, r.hasUnsafeFix = false) :
    rulesToApply rules f u x = rulesToApply rules false false x := by
  have hall : ∀ r : Rule, (r.hasNoFix || r.hasSafeFix || r.hasUnsafeFix) = true := by
    intro r; cases r <;> rfl
  unfold rulesToApply
  cases x with
  | true => rfl
  | false =>
    simp only [Bool.false_eq_true, if_false]
    cases u with
    | true =>
      have : rules.filter (fun r => r.hasNoFix || r.hasSafeFix || r.hasUnsafeFix) = rules := List.filter_eq_self.mpr (fun r _ => hall r)
      cases f <;> exact this
    | false =>
      cases f with
      | false => rfl
      | true =>
        have h : ∀ r ∈ rules, r.hasUnsafeFix = false := by
          rcases h with h | h | h
          · cases h
          · cases h
          · exact h
        apply List.filter_eq_self.mpr
        intro r hr
        have := hall r
        rw [h r hr, Bool.or_false] at this
        exact this

theorem configOf_withoutFix {w : FileWorld} {a : RunArgs} {s : Option JarlSettings} {fs : List DPath} {cfg : Config} (h : configOf w a.config s fs = .ok cfg)
    (hall : a.config.unsafeFixes = true ∨ a.config.fixOnly = true ∨ ∀ r ∈ cfg.rules, r.hasUnsafeFix = false) :
    configOf w (WithoutFix a).config s fs = .ok { cfg with applyFixes := false, applyUnsafeFixes := false } := by
  unfold configOf buildConfig at h ⊢
  simp only [bind, Except.bind, pure, Except.pure, WithoutFix] at h ⊢
  have hv : ∀ ps, determineMinimumRVersion { a.config with fix := false, unsafeFixes := false } ps = determineMinimumRVersion a.config ps := fun _ => rfl
  rw [hv]
  cases h1 : determineMinimumRVersion a.config (fs.map (descProbe w)) with
  | error e => simp only [h1] at h; cases h
  | ok v =>
    simp only [h1] at h ⊢
    cases h2 : parseRulesCli a.config.select a.config.extendSelect a.config.ignore with
    | error e => simp only [h2] at h; cases h
    | ok cli =>
      simp only [h2] at h ⊢
      cases h3 : parseRulesToml (s.map (·.linter)) with
      | error e => simp only [h3] at h; cases h
      | ok tml =>
        simp only [h3] at h ⊢
        cases h4 : parseFixableToml (s.map (·.linter)) with
        | error e => simp only [h4] at h; cases h
        | ok ff =>
          simp only [h4] at h ⊢
          cases h5 : resolveAssignment a.config.assignment (s.getD defaultSettings).assignment with
          | error e => simp only [h5] at h; cases h
          | ok asg =>
            simp only [h5, Except.ok.injEq] at h ⊢
            subst h
            simp only at hall ⊢
            rw [rulesToApply_all hall]

theorem getChecks_flags {L : Lints} {pkg : PackageAnalysis} {cfg : Config} {path c : Str} {f u : Bool} :
    getChecks L pkg { cfg with applyFixes := f, applyUnsafeFixes := u } path c = getChecks L pkg cfg path c := by
  have h : ∀ ss, rmdDiagnostics L { cfg with applyFixes := f, applyUnsafeFixes := u } path ss = rmdDiagnostics L cfg path ss := by
    intro ss
    induction ss with
    | nil => rfl
    | cons x ss ih =>
      cases x with
      | none => exact ih
      | some x =>
        unfold rmdDiagnostics
        rw [ih]
        rfl
  unfold getChecks getChecksRmd
  simp only [h]
  rfl

theorem allErrors_nil {rs : FileResults} (h : allErrors rs = []) : ∀ r ∈ rs, ∃ ds, r.2 = .ok ds := by
  intro r hr
  cases he : r.2 with
  | ok ds => exact ⟨ds, rfl⟩
  | error e =>
    have : (r.1, e) ∈ allErrors rs := by
      unfold allErrors
      exact List.mem_filterMap.mpr ⟨r, hr, by
        obtain ⟨n, x⟩ := r
        simp only at he
        subst he
        rfl⟩
    rw [h] at this
    cases this

theorem filterMap_eq_map {α β} {f : α → Option β} {g : α → β} : ∀ {l : List α}, (∀ x ∈ l, f x = some (g x)) → l.filterMap f = l.map g
  | [], _ => rfl
  | x :: l, h => by
    rw [List.filterMap_cons, h x (by simp), List.map_cons, filterMap_eq_map (fun y hy => h y (by simp [hy]))]

/-- **C74** (the report is true). After a `jarl check --fix` without errors, `jarl check` prints the same report. (With `--fix` alone the rules with unsafe
fixes are not run; `NothingHeldBack` says that this makes no difference.) -/
theorem C74_recheck {w : FileWorld} (hw : OkWorld w) {git : GitOn} {a : RunArgs} (hsep : Separate a.paths) (hdesc : NoDescriptionNamed a)
    {items : List (DPath × JarlSettings)} (hitems : discoverSettings w.configFs a.paths = some items) (hver : OneVersion w a (foundFiles w a items))
    (hplain : PlainConfigs w a items) (hall : NothingHeldBack w a items) (hgit : AlwaysAllowed w git a (foundFiles w a items) ∨ ¬ Fixing a)
    {o o' : RunOrder} (ho : PossibleOrder w a items o) (ho' : PossibleOrder w a items o') {io : DPath → Io} {fuel : Nat}
    {t : DPath → Option Str} {out : CliOut} (h : runFix w git a o io fuel = (t, some (.ok out))) (hst : a.statistics = false) (hadd : a.addJarlIgnore = none)
    (herr : out.errors = []) : SameReport (.ok out) (runCheck { w with text := t } (WithoutFix a) o') := by
  have hgr := groupsOf_perm (groupFiles_spec items o.files) ho.groups
  have hgr' := groupsOf_perm (groupFiles_spec items o'.files) ho'.groups
  have hfiles : o.files.Perm o'.files := ho.files.trans ho'.files.symm
  have hitems' : discoverSettings (FileWorld.configFs { w with text := t }) (WithoutFix a).paths = some items := hitems
  unfold runCheck
  rw [hitems']
  simp only
  rcases runFix_some hitems hgr h with ⟨he, rfl, hr⟩ | ⟨hne, x, hx, hr⟩
  · cases hr
    rw [he] at hfiles
    rw [hfiles.nil_eq.symm]
    exact ⟨rfl, rfl, .refl _⟩
  · have hemp : o'.files.isEmpty = false := by
      cases he : o'.files.isEmpty with
      | false => rfl
      | true =>
        rw [List.isEmpty_iff.mp he] at hfiles
        exact absurd hfiles.eq_nil hne
    rw [hemp]
    simp only [Bool.false_eq_true, if_false]
    obtain ⟨e1, h2, h3⟩ := fixGroups_alone hgit hgr.keys (plain_groups hw hdesc ho hver hplain) (fun _ _ _ _ => rfl) (fun _ => rfl) hx
    subst e1
    simp only at hr
    have hok : ∀ r ∈ o.groups.flatMap (aloneResults w a items io fuel), ∃ ds, r.2 = .ok ds := by
      apply allErrors_nil
      unfold cliReport at hr
      simp only [RunArgs.checkArgs, hadd, hst, Bool.false_eq_true, if_false, Except.ok.injEq] at hr
      rw [hr] at herr
      exact herr
    have hdesc' : ∀ d, t (d ++ [cs! "DESCRIPTION"]) = w.text (d ++ [cs! "DESCRIPTION"]) := by
      intro d
      apply h2
      intro g hg hm
      exact foundFiles_notDescription hw hdesc (ho.files.mem_iff.mp (mem_groups hgr hg hm).1) (by simp)
    have hg' : ∀ g ∈ o'.groups, ∃ cfg', configOf { w with text := t } (WithoutFix a).config (groupSettings items g.1) g.2 = .ok cfg' ∧
        groupResults { w with text := t } (WithoutFix a) items o' g = aloneResults w a items io fuel g := by
      intro g hg
      obtain ⟨cfg, hpg⟩ := plain_groups hw hdesc ho' hver hplain g hg
      have hcf : ∀ f ∈ g.2, ConfigFor w a items f cfg := fun f hf => (group_config hw ho' hver hg hf).trans hpg.conf
      obtain ⟨f0, hf0⟩ := group_nonempty hgr' hg
      have hc' := configOf_withoutFix hpg.conf (by
        rcases hall with h | h | h
        · exact .inl h
        · exact .inr (.inl h)
        · exact .inr (.inr (h f0 (hpg.sub f0 hf0).1 cfg (hcf f0 hf0))))
      rw [← configOf_text (w := w) hdesc'] at hc'
      refine ⟨_, hc', ?_⟩
      have hright : aloneResults w a items io fuel g = g.2.filterMap (fun f => (FixedAlone w items io fuel cfg f).2.map (fun r => (relText w.cwd f, r))) := by
        unfold aloneResults
        rw [hpg.conf]
      rw [hright, filterMap_eq_map (g := fileResult { w with text := t } ((groupSettings items g.1).getD defaultSettings)
        { cfg with applyFixes := false, applyUnsafeFixes := false } (o'.pkg g.1) g.2)]
      · unfold groupResults runGroup
        simp only [hc']
      · intro f hf
        -- the file in the other run
        have hfo := ho.files.mem_iff.mpr (hpg.sub f hf).1
        obtain ⟨g0, hg0, hk0⟩ := List.mem_map.mp ((hgr.all (groupKey items f)).mpr ⟨f, hfo, rfl⟩)
        have hf0 : f ∈ g0.2 := by rw [hgr.members g0 hg0, List.mem_filter]; exact ⟨hfo, by simp [hk0]⟩
        have hc0 : configOf w a.config (groupSettings items g0.1) g0.2 = .ok cfg := (group_config hw ho hver hg0 hf0).symm.trans (hcf f hf)
        obtain ⟨ht, res, hres⟩ := h3 g0 hg0 cfg hc0 f hf0
        have hmem : (relText w.cwd f, res) ∈ o.groups.flatMap (aloneResults w a items io fuel) := by
          refine List.mem_flatMap.mpr ⟨g0, hg0, ?_⟩
          unfold aloneResults
          rw [hc0]
          exact List.mem_filterMap.mpr ⟨f, hf0, by rw [hres]; rfl⟩
        obtain ⟨ds, hds⟩ := hok _ hmem
        simp only at hds
        subst hds
        rw [hres]
        simp only [Option.map_some, Option.some.injEq]
        unfold fileResult
        simp only [Prod.mk.injEq, true_and]
        have hk : (resolvePath items f).map Prod.fst = g.1 := (hpg.sub f hf).2.1
        have hpath : FixedAlone w items io fuel cfg f = (t f, some (.ok ds)) := Prod.ext ht.symm hres
        unfold FixedAlone settingsFor at hpath
        rw [hk] at hpath
        have := C21_recheck hpg.dup hpg.unused hpath
          (analysisOf { w with text := t } ((groupSettings items g.1).getD defaultSettings) { cfg with applyFixes := false, applyUnsafeFixes := false }
            (o'.pkg g.1) g.2 f)
        rw [← this]
        unfold lintOnly
        simp only [getChecks_flags]
    rw [runGroups_eq (fun g hg => let ⟨c, h, _⟩ := hg' g hg; ⟨c, h⟩)]
    have : o'.groups.flatMap (groupResults { w with text := t } (WithoutFix a) items o') = o'.groups.flatMap (aloneResults w a items io fuel) := by
      have : o'.groups.map (groupResults { w with text := t } (WithoutFix a) items o') = o'.groups.map (aloneResults w a items io fuel) :=
        List.map_congr_left (fun g hg => by obtain ⟨_, _, h⟩ := hg' g hg; exact h)
      rw [List.flatMap_def, List.flatMap_def, this]
    rw [this, hr]
    exact report_perm hw hsep hver ho ho'

/-! ## Nothing but fixes -/

theorem lintFixLoop_passes {L : Lints} {pkg : PackageAnalysis} {cfg : Config} {path a : Str} :
    ∀ {fuel n : Nat} {s : Bool} {b : Str}, Passes L pkg cfg path a s b →
      ∃ c s', (lintFixLoop L pkg cfg path Io.good fuel n s (some b)).1 = some c ∧ Passes L pkg cfg path a s' c
  | 0, _, s, b, h => ⟨b, s, rfl, h⟩
  | fuel + 1, n, s, b, h => by
    unfold lintFixLoop
    simp only [Io.read, Io.good, if_true]
    cases hg : getChecks L pkg cfg path b with
    | error e => exact ⟨b, s, rfl, h⟩
    | ok checks =>
      simp only
      cases s with
      | false => exact ⟨b, _, rfl, h⟩
      | true =>
        simp only [Bool.not_true, Bool.false_eq_true, if_false]
        cases hf : applyFixes (checks.map (·.fix)) b with
        | none => exact ⟨b, _, rfl, h⟩
        | some x =>
          obtain ⟨s', c⟩ := x
          exact lintFixLoop_passes (.step h ⟨checks, hg, hf⟩)

theorem checkPath_passes {L : Lints} {pkg : PackageAnalysis} {cfg : Config} {path a : Str} {fuel : Nat} :
    ∃ c s', (checkPath L pkg cfg path Io.good fuel (some a)).1 = some c ∧ Passes L pkg cfg path a s' c := by
  unfold checkPath lintFix
  split
  · split
    · exact ⟨a, _, rfl, .start⟩
    · exact lintFixLoop_passes .start
  · exact ⟨a, _, rfl, .start⟩

theorem fixGroups_passes {w : FileWorld} {git : GitOn} {a : RunArgs} {items : List (DPath × JarlSettings)} {o : RunOrder} {io : DPath → Io} {fuel : Nat} {p : DPath} {c : Str}
    (hio : GoodIo io) :
    ∀ {gs : List (Option DPath × List DPath)} {t : DPath → Option Str}, (gs.map Prod.fst).Nodup →
      (∀ g ∈ gs, ∀ f ∈ g.2, groupKey items f = g.1 ∧ f.getLast? ≠ some (cs! "DESCRIPTION")) →
      (∀ d, t (d ++ [cs! "DESCRIPTION"]) = w.text (d ++ [cs! "DESCRIPTION"])) → t p = some c →
      ∃ c', (fixGroups w git a items o io fuel gs t).1 p = some c' ∧ (c' = c ∨ ∃ g ∈ gs, p ∈ g.2 ∧ ∃ cfg pkg b,
        configOf w a.config (groupSettings items g.1) g.2 = .ok cfg ∧
        Passes (w.lints ((groupSettings items g.1).getD defaultSettings)) pkg cfg (relText w.cwd p) c b c')
  | [], t, _, _, _, h => ⟨c, h, .inl rfl⟩
  | g :: gs, t, hk, hmem, hd, h => by
    rw [List.map_cons, List.nodup_cons] at hk
    unfold fixGroups
    rw [configOf_text hd]
    cases hc : configOf w a.config (groupSettings items g.1) g.2 with
    | error e => exact ⟨c, h, .inl rfl⟩
    | ok cfg =>
      simp only
      generalize hg : fixGroup { w with text := t } git ((groupSettings items g.1).getD defaultSettings) cfg (o.pkg g.1) io fuel g.2 = x
      have hx : ∀ q, x.1 q ≠ t q → q ∈ g.2 := by
        intro q hq
        rw [← hg] at hq
        exact (fixGroup_change hq).1
      have hxd : ∀ d, x.1 (d ++ [cs! "DESCRIPTION"]) = w.text (d ++ [cs! "DESCRIPTION"]) := by
        intro d
        rw [← hd d]
        apply Classical.byContradiction
        intro hne
        exact (hmem g (by simp) _ (hx _ hne)).2 (by simp)
      -- this group
      have hthis : ∃ c', x.1 p = some c' ∧ (c' = c ∨ (p ∈ g.2 ∧ ∃ pkg b,
          Passes (w.lints ((groupSettings items g.1).getD defaultSettings)) pkg cfg (relText w.cwd p) c b c')) := by
        by_cases hp : x.1 p = t p
        · exact ⟨c, hp.trans h, .inl rfl⟩
        · have hpg := hx p hp
          rw [← hg] at hp ⊢
          cases hl : g.2 with
          | nil => rw [hl] at hpg; cases hpg
          | cons f0 l0 =>
            rw [hl] at hp hpg
            unfold fixGroup at hp ⊢
            simp only at hp ⊢
            split at hp
            · exact absurd rfl hp
            · rename_i hv
              rw [if_neg hv]
              simp only
              rw [if_pos hpg]
              unfold fixFile
              simp only [h, hio p]
              obtain ⟨c', s', h1, h2⟩ := checkPath_passes (L := w.lints ((groupSettings items g.1).getD defaultSettings))
                (pkg := analysisOf { w with text := t } ((groupSettings items g.1).getD defaultSettings) cfg (o.pkg g.1) (f0 :: l0) p) (cfg := cfg)
                (path := relText w.cwd p) (a := c) (fuel := fuel)
              exact ⟨c', h1, .inr ⟨hpg, _, s', h2⟩⟩
      obtain ⟨c1, hc1, hrel⟩ := hthis
      have hrest : ∃ c', (fixGroups w git a items o io fuel gs x.1).1 p = some c' ∧ (c' = c ∨ ∃ g' ∈ g :: gs, p ∈ g'.2 ∧ ∃ cfg pkg b,
          configOf w a.config (groupSettings items g'.1) g'.2 = .ok cfg ∧
          Passes (w.lints ((groupSettings items g'.1).getD defaultSettings)) pkg cfg (relText w.cwd p) c b c') := by
        rcases hrel with rfl | ⟨hpg, pkg, b, hpass⟩
        · obtain ⟨c', h1, h2⟩ := fixGroups_passes (git := git) (a := a) (o := o) (fuel := fuel) hio hk.2 (fun g' hg' => hmem g' (by simp [hg'])) hxd hc1
          refine ⟨c', h1, ?_⟩
          rcases h2 with h2 | ⟨g', hg', h2⟩
          · exact .inl h2
          · exact .inr ⟨g', by simp [hg'], h2⟩
        · refine ⟨c1, ?_, .inr ⟨g, by simp, hpg, cfg, pkg, b, hc, hpass⟩⟩
          rw [← hc1]
          apply Classical.byContradiction
          intro hne
          obtain ⟨⟨g', hg', hp'⟩, _⟩ := fixGroups_change hne
          apply hk.1
          rw [← (hmem g (by simp) p hpg).1, (hmem g' (by simp [hg']) p hp').1]
          exact List.mem_map_of_mem hg'
      obtain ⟨t1, r1⟩ := x
      cases r1 with
      | none =>
        refine ⟨c1, hc1, ?_⟩
        rcases hrel with h | ⟨h1, pkg, b, h2⟩
        · exact .inl h
        · exact .inr ⟨g, by simp, h1, cfg, pkg, b, hc, h2⟩
      | some rs =>
        simp only at hrest ⊢
        revert hrest
        cases fixGroups w git a items o io fuel gs t1 with
        | mk t2 r2 =>
          intro hrest
          cases r2 with
          | none => exact hrest
          | some r2 => cases r2 <;> exact hrest

/-- **C74** (only fixes). If reading and writing work, every file that has a text keeps one, and it is the old text, or what passes of fixing (C18-C21) with the rules
and settings of the configuration of this file made of the old text: also if the run was stopped by an error or needs more passes. -/
theorem C74_only_fixes {w : FileWorld} (hw : OkWorld w) {git : GitOn} {a : RunArgs} (hdesc : NoDescriptionNamed a) {items : List (DPath × JarlSettings)}
    (hitems : discoverSettings w.configFs a.paths = some items) (hver : OneVersion w a (foundFiles w a items)) {o : RunOrder} (ho : PossibleOrder w a items o)
    {io : DPath → Io} (hio : GoodIo io) {fuel : Nat} {p : DPath} {c : Str} (hp : w.text p = some c) :
    ∃ c', (runFix w git a o io fuel).1 p = some c' ∧ (c' = c ∨ p ∈ foundFiles w a items ∧ ∃ cfg pkg b, ConfigFor w a items p cfg ∧
      Passes (w.lints ((settingsFor items p).getD defaultSettings)) pkg cfg (relText w.cwd p) c b c') := by
  have hgr := groupsOf_perm (groupFiles_spec items o.files) ho.groups
  rw [runFix_text hitems]
  split
  · exact ⟨c, hp, .inl rfl⟩
  · obtain ⟨c', h1, h2⟩ := fixGroups_passes (w := w) (git := git) (a := a) (items := items) (o := o) (fuel := fuel) hio hgr.keys (by
      intro g hg f hf
      obtain ⟨h1, h2⟩ := mem_groups hgr hg hf
      exact ⟨h2, foundFiles_notDescription hw hdesc (ho.files.mem_iff.mp h1)⟩) (fun _ => rfl) hp
    refine ⟨c', h1, ?_⟩
    rcases h2 with h2 | ⟨g, hg, hpg, cfg, pkg, b, hc, hpass⟩
    · exact .inl h2
    · have hm := mem_groups hgr hg hpg
      refine .inr ⟨ho.files.mem_iff.mp hm.1, cfg, pkg, b, (group_config hw ho hver hg hpg).trans hc, ?_⟩
      unfold settingsFor
      have hk : (resolvePath items p).map Prod.fst = g.1 := hm.2
      rw [hk]
      exact hpass

/-! ## Refused -/

theorem vcsAllows_perm {v : Vcs} {cfg : Config} {l l' : List Str} (h : ∀ n, n ∈ l ↔ n ∈ l') : VcsAllows v cfg l ↔ VcsAllows v cfg l' := by
  unfold VcsAllows
  simp only [h]

theorem fixGroups_refused {w : FileWorld} {git : GitOn} {a : RunArgs} {items : List (DPath × JarlSettings)} {o : RunOrder} {io : DPath → Io} {fuel : Nat}
    (hfix : Fixing a) :
    ∀ {gs : List (Option DPath × List DPath)}, (∀ g ∈ gs, ∃ f l, g.2 = f :: l) →
      (∀ g ∈ gs, ∃ cfg, configOf w a.config (groupSettings items g.1) g.2 = .ok cfg ∧ ¬ VcsAllows (git w.text) cfg (g.2.map (relText w.cwd))) →
      ∃ rs, fixGroups w git a items o io fuel gs w.text = (w.text, some (.ok rs)) ∧ rs.length = gs.length ∧
        ∀ r ∈ rs, r.2 = .error .vcs ∧ ∃ g ∈ gs, ∃ f ∈ g.2, r.1 = relText w.cwd f
  | [], _, _ => ⟨[], rfl, rfl, fun _ h => (nomatch h)⟩
  | g :: gs, hne, h => by
    obtain ⟨cfg, hc, hv⟩ := h g (by simp)
    obtain ⟨rs, h1, h2, h3⟩ := fixGroups_refused (git := git) (o := o) (io := io) (fuel := fuel) hfix (gs := gs) (fun g' hg' => hne g' (by simp [hg'])) (fun g' hg' => h g' (by simp [hg']))
    obtain ⟨f, l, hl⟩ := hne g (by simp)
    have hfl := configOf_flags hc
    have hcond : ((cfg.applyFixes || cfg.applyUnsafeFixes) && !checkVersionControl (git w.text) cfg (g.2.map (relText w.cwd))) = true := by
      have : checkVersionControl (git w.text) cfg (g.2.map (relText w.cwd)) = false := by
        cases hx : checkVersionControl (git w.text) cfg (g.2.map (relText w.cwd)) with
        | false => rfl
        | true => exact absurd ((checkVersionControl_iff _ _ _).mp hx) hv
      rw [this, hfl.1, hfl.2.1]
      rcases hfix with h | h <;> simp [h]
    have hg : fixGroup { w with text := w.text } git ((groupSettings items g.1).getD defaultSettings) cfg (o.pkg g.1) io fuel g.2 =
        (w.text, some [(relText w.cwd f, .error .vcs)]) := by
      rw [hl] at hcond ⊢
      unfold fixGroup
      simp only
      rw [if_pos hcond]
    refine ⟨(relText w.cwd f, .error .vcs) :: rs, ?_, by simp [h2], ?_⟩
    · unfold fixGroups
      rw [configOf_text (fun _ => rfl), hc]
      simp only [hg, h1]
      rfl
    · intro r hr
      rcases List.mem_cons.mp hr with rfl | hr
      · exact ⟨rfl, g, by simp, f, by rw [hl]; simp, rfl⟩
      · obtain ⟨h4, g', hg', h5⟩ := h3 r hr
        exact ⟨h4, g', by simp [hg'], h5⟩

/-- **C75** (refused). If for no configuration git allows its files to be fixed, no file changes; the command fails, reports no diagnostics, and the only errors are those
about version control. (If git allows it for the files of some configurations, these are fixed: see `C75_false_uncovered`, `C75_false_own_changes`.) -/
theorem C75_refused_partial {w : FileWorld} (hw : OkWorld w) {git : GitOn} {a : RunArgs} {items : List (DPath × JarlSettings)}
    (hitems : discoverSettings w.configFs a.paths = some items) (hver : OneVersion w a (foundFiles w a items)) {o : RunOrder} (ho : PossibleOrder w a items o)
    (hfix : Fixing a) (hst : a.statistics = false) (hadd : a.addJarlIgnore = none) (hsome : foundFiles w a items ≠ [])
    (hno : ∀ f ∈ foundFiles w a items, ∃ cfg, ConfigFor w a items f cfg ∧
      ¬ VcsAllows (git w.text) cfg ((sameConfig items (foundFiles w a items) f).map (relText w.cwd)))
    {io : DPath → Io} {fuel : Nat} :
    ∃ out, runFix w git a o io fuel = (w.text, some (.ok out)) ∧ out.status = .error ∧ out.diagnostics = [] ∧ out.errors ≠ [] ∧
      ∀ e ∈ out.errors, e.2 = .vcs ∧ ∃ f ∈ foundFiles w a items, e.1 = relText w.cwd f := by
  have hgr := groupsOf_perm (groupFiles_spec items o.files) ho.groups
  have hne : o.files ≠ [] := by
    intro e
    have := ho.files
    rw [e] at this
    exact hsome this.nil_eq.symm
  have hgs : o.groups ≠ [] := by
    intro e
    cases hf : o.files with
    | nil => exact hne hf
    | cons f l =>
      have := (hgr.all (groupKey items f)).mpr ⟨f, by rw [hf]; simp, rfl⟩
      rw [e] at this
      cases this
  obtain ⟨rs, h1, h2, h3⟩ := fixGroups_refused (w := w) (git := git) (items := items) (o := o) (io := io) (fuel := fuel) hfix (gs := o.groups) (by
    intro g hg
    obtain ⟨f, hf⟩ := group_nonempty hgr hg
    cases hl : g.2 with
    | nil => rw [hl] at hf; cases hf
    | cons f l => exact ⟨f, l, rfl⟩) (by
    intro g hg
    obtain ⟨f, hf⟩ := group_nonempty hgr hg
    have hm := mem_groups hgr hg hf
    obtain ⟨cfg, hc, hv⟩ := hno f (ho.files.mem_iff.mp hm.1)
    refine ⟨cfg, (group_config hw ho hver hg hf).symm.trans hc, ?_⟩
    rwa [vcsAllows_perm (l' := (sameConfig items (foundFiles w a items) f).map (relText w.cwd))]
    intro n
    have hk : (resolvePath items f).map Prod.fst = g.1 := hm.2
    unfold sameConfig
    rw [hk, hgr.members g hg]
    exact ((ho.files.filter _).map _).mem_iff)
  have hdiag : allDiagnostics rs = [] := by
    unfold allDiagnostics
    rw [List.filterMap_eq_nil_iff]
    intro r hr
    obtain ⟨n, x⟩ := r
    have := (h3 _ hr).1
    simp only at this
    subst this
    rfl
  have herrs : ∀ e ∈ allErrors rs, e.2 = .vcs ∧ ∃ f ∈ foundFiles w a items, e.1 = relText w.cwd f := by
    intro e he
    unfold allErrors at he
    obtain ⟨⟨n, x⟩, hr, hx⟩ := List.mem_filterMap.mp he
    obtain ⟨h4, g, hg, f, hf, h5⟩ := h3 _ hr
    simp only at h4
    subst h4
    cases hx
    exact ⟨rfl, f, ho.files.mem_iff.mp (mem_groups hgr hg hf).1, h5⟩
  have hnonempty : allErrors rs ≠ [] := by
    cases rs with
    | nil =>
      cases hg : o.groups with
      | nil => exact absurd hg hgs
      | cons _ _ => rw [hg] at h2; cases h2
    | cons r rs =>
      obtain ⟨n, x⟩ := r
      have := (h3 _ (List.mem_cons_self)).1
      simp only at this
      subst this
      unfold allErrors
      rw [List.filterMap_cons]
      simp
  refine ⟨⟨.error, allErrors rs, []⟩, ?_, rfl, rfl, hnonempty, herrs⟩
  unfold runFix
  rw [hitems]
  simp only
  have : o.files.isEmpty = false := by
    cases he : o.files.isEmpty with
    | false => rfl
    | true => exact absurd (List.isEmpty_iff.mp he) hne
  rw [this, h1]
  simp only [Bool.false_eq_true, if_false, Prod.mk.injEq, true_and, Option.some.injEq]
  unfold cliReport
  simp only [RunArgs.checkArgs, hadd, hst, Bool.false_eq_true, if_false, hdiag]
  have hhide : ∀ args, hideUnused args (resolvedItems items) [] = [] := by
    intro args
    unfold hideUnused
    split <;> rfl
  have hcond : (!(allErrors rs).isEmpty) = true := by
    cases he : allErrors rs with
    | nil => exact absurd he hnonempty
    | cons _ _ => rfl
  rw [hhide, if_pos hcond]
  simp [flatSorted]

/-! ## One configuration -/

theorem one_group {items : List (DPath × JarlSettings)} {files : List DPath} {gs : List (Option DPath × List DPath)} (h : GroupsOf (groupKey items) files gs)
    (hne : files ≠ []) (hone : ∀ f ∈ files, ∀ g ∈ files, groupKey items f = groupKey items g) :
    ∃ k, gs = [(k, files)] ∧ ∀ f ∈ files, groupKey items f = k := by
  cases hf : files with
  | nil => exact absurd hf hne
  | cons f l =>
    rw [← hf]
    have hin : f ∈ files := by rw [hf]; simp
    refine ⟨groupKey items f, ?_, fun g hg => hone g hg f hin⟩
    have hall : ∀ g ∈ gs, g = (groupKey items f, files) := by
      intro g hg
      obtain ⟨f', h1, h2⟩ := (h.all g.1).mp (List.mem_map_of_mem hg)
      have e : g.1 = groupKey items f := by rw [← h2]; exact hone f' h1 f hin
      have e2 := h.members g hg
      rw [e, List.filter_eq_self.mpr (fun x hx => by simp [hone x hx f hin])] at e2
      exact Prod.ext e e2
    have hk := h.keys
    cases gs with
    | nil =>
      have := (h.all (groupKey items f)).mpr ⟨f, hin, rfl⟩
      cases this
    | cons g gs =>
      have e1 := hall g (by simp)
      cases gs with
      | nil => rw [e1]
      | cons g' gs =>
        have e2 := hall g' (by simp)
        rw [e1, e2] at hk
        simp at hk

theorem allDone_perm {l l' : List (Str × Option (Except CheckErr (List Diagnostic)))} (h : l.Perm l') :
    ∀ {rs rs'}, allDone l = some rs → allDone l' = some rs' → rs.Perm rs' := by
  have key : ∀ {l : List (Str × Option (Except CheckErr (List Diagnostic)))} {rs}, allDone l = some rs → rs = l.filterMap (fun x => x.2.map (fun r => (x.1, r))) := by
    intro l
    induction l with
    | nil => intro rs h; cases h; rfl
    | cons x l ih =>
      intro rs h
      obtain ⟨n, r⟩ := x
      unfold allDone at h
      cases r with
      | none => cases h
      | some r =>
        cases hl : allDone l with
        | none => simp only [hl] at h; cases h
        | some rs' =>
          simp only [hl, Option.some.injEq] at h
          rw [← h, ih hl]
          rfl
  intro rs rs' h1 h2
  rw [key h1, key h2]
  exact h.filterMap _

/-- **C74** (the same outcome, one configuration). If all checked files are governed by the same configuration, which may contain the package-wide rules, and git allows fixing,
then two runs leave the same texts and print the same report. -/
theorem C74_same_one_config {w : FileWorld} (hw : OkWorld w) (hpkg : NoPackageInR w) {git : GitOn} {a : RunArgs} (hsep : Separate a.paths)
    {items : List (DPath × JarlSettings)} (hitems : discoverSettings w.configFs a.paths = some items) (hver : OneVersion w a (foundFiles w a items))
    (hone : ∀ f ∈ foundFiles w a items, ∀ g ∈ foundFiles w a items, (resolvePath items f).map Prod.fst = (resolvePath items g).map Prod.fst)
    (hgit : ∀ cfg, (∃ f ∈ foundFiles w a items, ConfigFor w a items f cfg) → VcsAllows (git w.text) cfg ((foundFiles w a items).map (relText w.cwd)) ∨ ¬ Fixing a)
    {o o' : RunOrder} (ho : PossibleRun w a items o) (ho' : PossibleRun w a items o') {io : DPath → Io} {fuel : Nat} {t t' : DPath → Option Str} {r r' : Except Unit CliOut}
    (h : runFix w git a o io fuel = (t, some r)) (h' : runFix w git a o' io fuel = (t', some r')) : t = t' ∧ SameReport r r' := by
  have hgr := groupsOf_perm (groupFiles_spec items o.files) ho.groups
  have hgr' := groupsOf_perm (groupFiles_spec items o'.files) ho'.groups
  have hfiles : o.files.Perm o'.files := ho.files.trans ho'.files.symm
  have hnd : o.files.Nodup := ho.files.nodup_iff.mpr (foundFiles_nodup hw hsep items)
  have hfile : ∀ f ∈ o.files, IsFile w.tree f := fun f hf => foundFiles_file hw (ho.files.mem_iff.mp hf)
  rcases runFix_some hitems hgr h with ⟨he, rfl, rfl⟩ | ⟨hne, x, hx, hr⟩
  · rcases runFix_some hitems hgr' h' with ⟨he', rfl, rfl⟩ | ⟨hne', x', hx', hr'⟩
    · exact ⟨rfl, rfl, rfl, .refl _⟩
    · rw [he] at hfiles; exact absurd hfiles.nil_eq.symm hne'
  · rcases runFix_some hitems hgr' h' with ⟨he', rfl, rfl⟩ | ⟨hne', x', hx', hr'⟩
    · rw [he'] at hfiles; exact absurd hfiles.eq_nil hne
    · obtain ⟨k, hg, hk⟩ := one_group hgr hne (fun f hf g hg => hone f (ho.files.mem_iff.mp hf) g (ho.files.mem_iff.mp hg))
      obtain ⟨k', hg', hk'⟩ := one_group hgr' hne' (fun f hf g hg => hone f (ho'.files.mem_iff.mp hf) g (ho'.files.mem_iff.mp hg))
      have hkk : k' = k := by
        cases hf : o.files with
        | nil => exact absurd hf hne
        | cons f l =>
          have hin : f ∈ o.files := by rw [hf]; simp
          rw [← hk f hin, ← hk' f (hfiles.mem_iff.mp hin)]
      subst hkk
      rw [hg] at hx
      rw [hg'] at hx'
      have hcfg : configOf w a.config (groupSettings items k') o.files = configOf w a.config (groupSettings items k') o'.files :=
        configOf_perm hfiles hver (fun f hf => ho.files.mem_iff.mp hf) hfile
      unfold fixGroups at hx hx'
      rw [configOf_text (fun _ => rfl)] at hx hx'
      simp only [← hcfg] at hx'
      cases hc : configOf w a.config (groupSettings items k') o.files with
      | error e =>
        simp only [hc] at hx hx'
        cases hx
        cases hx'
        subst hr hr'
        exact ⟨rfl, trivial⟩
      | ok cfg =>
        simp only [hc, fixGroups] at hx hx'
        have hfl := configOf_flags hc
        have hp := ho.pkg (k', o.files) (by rw [hg]; simp) cfg hc
        have hp' := ho'.pkg (k', o'.files) (by rw [hg']; simp) cfg (hcfg ▸ hc)
        have hcf : ∃ f ∈ foundFiles w a items, ConfigFor w a items f cfg := by
          cases hf : o.files with
          | nil => exact absurd hf hne
          | cons f l =>
            have hin : f ∈ o.files := by rw [hf]; simp
            exact ⟨f, ho.files.mem_iff.mp hin, (group_config hw ⟨ho.files, ho.groups⟩ hver (g := (k', o.files)) (by rw [hg]; simp) hin).trans hc⟩
        have hv : ∀ l : List DPath, l.Perm (foundFiles w a items) →
            ((cfg.applyFixes || cfg.applyUnsafeFixes) && !checkVersionControl (git w.text) cfg (l.map (relText w.cwd))) = false := by
          intro l hl
          rcases hgit cfg hcf with h | h
          · rw [(checkVersionControl_iff _ _ _).mpr ((vcsAllows_perm (fun n => (hl.map _).mem_iff)).mpr h)]
            simp
          · unfold Fixing at h
            rw [← hfl.1, ← hfl.2.1] at h
            simp only [not_or, Bool.not_eq_true] at h
            rw [h.1, h.2]; rfl
        have hgroup : ∀ (l : List DPath) (po : PkgOrder), l ≠ [] → l.Perm (foundFiles w a items) →
            fixGroup w git ((groupSettings items k').getD defaultSettings) cfg po io fuel l =
              (fun p => if p ∈ l then (fixFile w ((groupSettings items k').getD defaultSettings) cfg po l io fuel p).1 else w.text p,
                allDone (l.map (fun p => (relText w.cwd p, (fixFile w ((groupSettings items k').getD defaultSettings) cfg po l io fuel p).2)))) := by
          intro l po hl hperm
          have := hv l hperm
          cases l with
          | nil => exact absurd rfl hl
          | cons x l =>
            unfold fixGroup
            simp only
            rw [this]
            rfl
        rw [hgroup o.files _ hne ho.files] at hx
        rw [hgroup o'.files _ hne' ho'.files] at hx'
        have heq : fixFile w ((groupSettings items k').getD defaultSettings) cfg (o'.pkg k') o'.files io fuel =
            fixFile w ((groupSettings items k').getD defaultSettings) cfg (o.pkg k') o.files io fuel := by
          funext p
          unfold fixFile
          rw [analysis_perm (s := (groupSettings items k').getD defaultSettings) hw hpkg hnd hfiles hp hp' p]
        rw [heq] at hx'
        have htext : (fun p => if p ∈ o'.files then (fixFile w ((groupSettings items k').getD defaultSettings) cfg (o.pkg k') o.files io fuel p).1 else w.text p) =
            (fun p => if p ∈ o.files then (fixFile w ((groupSettings items k').getD defaultSettings) cfg (o.pkg k') o.files io fuel p).1 else w.text p) := by
          funext p
          simp only [hfiles.mem_iff]
        rw [htext] at hx'
        cases hd : allDone (o.files.map (fun p => (relText w.cwd p, (fixFile w ((groupSettings items k').getD defaultSettings) cfg (o.pkg k') o.files io fuel p).2))) with
        | none => simp only [hd] at hx; cases hx
        | some rs =>
          cases hd' : allDone (o'.files.map (fun p => (relText w.cwd p, (fixFile w ((groupSettings items k').getD defaultSettings) cfg (o.pkg k') o.files io fuel p).2))) with
          | none => simp only [hd'] at hx'; cases hx'
          | some rs' =>
            simp only [hd, List.append_nil, Prod.mk.injEq, Option.some.injEq] at hx
            simp only [hd', List.append_nil, Prod.mk.injEq, Option.some.injEq] at hx'
            refine ⟨hx.1.symm.trans hx'.1, ?_⟩
            obtain ⟨_, rfl⟩ := hx
            obtain ⟨_, rfl⟩ := hx'
            simp only at hr hr'
            rw [hr, hr']
            have hperm : rs.Perm rs' := allDone_perm (hfiles.map _) hd hd'
            have hrs := (allDone_map hd).2
            have hnames : (rs.map Prod.fst).Nodup := by
              rw [hrs]
              apply filterMap_names (res := fun p => (fixFile w ((groupSettings items k').getD defaultSettings) cfg (o.pkg k') o.files io fuel p).2)
              exact hnd.imp_of_mem (fun h1 h2 hne e => hne (relText_inj (file_names hw (hfile _ h1)) (file_names hw (hfile _ h2)) e))
            cases hrep : cliReport a.checkArgs (resolvedItems items) rs with
            | error e => rw [cliReport_error hrep]; trivial
            | ok out =>
              obtain ⟨out', ho', h1, h2, h3⟩ := C27_order_independent hperm hnames (by
                intro x hx ds hds d hd
                rw [hrs] at hx
                obtain ⟨f, _, hx⟩ := List.mem_filterMap.mp hx
                obtain ⟨y, hy, rfl⟩ := Option.map_eq_some_iff.mp hx
                simp only at hds
                subst hds
                exact checkPath_filename hy d hd) hrep
              rw [ho']
              exact ⟨h1.symm, h2.symm, h3.symm⟩

end Jarl
