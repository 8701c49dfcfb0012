import Verif.Props.RunWorld
/-!
# C72: the same command on the same files prints the same report
-/
namespace Jarl
open Spec

/-! ## The R version -/

/-- What the search for the R version ends with at one path, if it ends there. -/
def versionFound : DescProbe → Option (Except Fail (Option RVersion))
  | .absent => none
  | .unreadable => some (.error .io)
  | .text s => match getDependRVersion s with
    | .panic => some (.error .panic)
    | .ok [] => none
    | .ok (v :: _) => match parseRVersion v with
      | some v => some (.ok (some v))
      | none => some (.error .badVersion)

theorem minVersionFromDesc_eq : ∀ ps, minVersionFromDesc ps = (ps.findSome? versionFound).getD (.ok none)
  | [] => rfl
  | .absent :: ps => by
    rw [minVersionFromDesc, minVersionFromDesc_eq ps]
    rfl
  | .unreadable :: ps => rfl
  | .text s :: ps => by
    rw [minVersionFromDesc, List.findSome?_cons]
    simp only [versionFound]
    cases getDependRVersion s with
    | panic => rfl
    | ok vs =>
      cases vs with
      | nil => exact minVersionFromDesc_eq ps
      | cons v vs =>
        simp only
        cases parseRVersion v <;> rfl

theorem findSome?_perm {α β} {f : α → Option β} {l l' : List α} (h : l.Perm l')
    (hu : ∀ a ∈ l, ∀ b ∈ l, ∀ x y, f a = some x → f b = some y → x = y) : l.findSome? f = l'.findSome? f := by
  cases h1 : l.findSome? f with
  | none =>
    symm
    rw [List.findSome?_eq_none_iff] at h1 ⊢
    exact fun x hx => h1 x (h.mem_iff.mpr hx)
  | some x =>
    obtain ⟨a, ha, hfa⟩ := List.exists_of_findSome?_eq_some h1
    cases h2 : l'.findSome? f with
    | none =>
      rw [List.findSome?_eq_none_iff] at h2
      rw [h2 a (h.mem_iff.mp ha)] at hfa
      cases hfa
    | some y =>
      obtain ⟨b, hb, hfb⟩ := List.exists_of_findSome?_eq_some h2
      rw [hu a ha b (h.mem_iff.mpr hb) x y hfa hfb]

theorem descProbe_file {w : FileWorld} {p : DPath} (h : IsFile w.tree p) : descProbe w p =
    if w.exists (p.dropLast ++ [cs! "DESCRIPTION"]) then
      (match w.text (p.dropLast ++ [cs! "DESCRIPTION"]) with | some s => .text s | none => .unreadable)
    else .absent := by
  unfold descProbe
  rw [h]
  rfl

theorem configOf_perm {w : FileWorld} {a : RunArgs} {s : Option JarlSettings} {files l l' : List DPath} (h : l.Perm l')
    (hv : OneVersion w a files) (hsub : ∀ f ∈ l, f ∈ files) (hfile : ∀ f ∈ l, IsFile w.tree f) :
    configOf w a.config s l = configOf w a.config s l' := by
  have hd : determineMinimumRVersion a.config (l.map (descProbe w)) = determineMinimumRVersion a.config (l'.map (descProbe w)) := by
    unfold determineMinimumRVersion
    rcases hv with hv | hv
    · cases hm : a.config.minRVersion with
      | none => rw [hm] at hv; cases hv
      | some v => rfl
    · cases hm : a.config.minRVersion with
      | some v => rfl
      | none =>
        simp only [minVersionFromDesc_eq]
        rw [findSome?_perm (h.map _)]
        intro x hx y hy u v hu hv'
        obtain ⟨f, hf, rfl⟩ := List.mem_map.mp hx
        obtain ⟨g, hg, rfl⟩ := List.mem_map.mp hy
        have : descProbe w f = descProbe w g := by
          rw [descProbe_file (hfile f hf), descProbe_file (hfile g hg)] at *
          by_cases hef : w.exists (f.dropLast ++ [cs! "DESCRIPTION"]) = true
          · by_cases heg : w.exists (g.dropLast ++ [cs! "DESCRIPTION"]) = true
            · rw [if_pos hef, if_pos heg, hv f (hsub f hf) g (hsub g hg) (exists_iff.mp hef) (exists_iff.mp heg)]
            · rw [if_neg heg] at hv'; cases hv'
          · rw [if_neg hef] at hu; cases hu
        rw [this, hv'] at hu
        exact (Option.some.inj hu).symm
  unfold configOf buildConfig
  rw [hd]

/-! ## The analysis of packages -/

theorem namespaceContents_congr {fs : PkgFs} {roots roots' : List DPath} (h : ∀ r, r ∈ roots ↔ r ∈ roots') :
    namespaceContents fs roots = namespaceContents fs roots' := by
  funext r
  unfold namespaceContents
  simp only [h r]

theorem unusedEntry_perm {alnum : Char → Bool} {env : UnusedEnv} {fs : PkgFs} {roots roots' keys keys' paths paths' : List DPath}
    (hw : PkgWorld fs paths) (hp : paths.Perm paths') (hroots : Enumerates roots (· ∈ packageRoots fs paths))
    (hroots' : Enumerates roots' (· ∈ packageRoots fs paths'))
    (hk : Enumerates keys (fun k => ∃ f ∈ sharedData alnum true fs roots paths, f.rootKey = k))
    (hk' : Enumerates keys' (fun k => ∃ f ∈ sharedData alnum true fs roots' paths', f.rootKey = k)) (p : DPath) :
    entryAfter p (computeUnused env (namespaceContents fs roots) keys (sharedData alnum true fs roots paths)) =
    entryAfter p (computeUnused env (namespaceContents fs roots') keys' (sharedData alnum true fs roots' paths')) := by
  have hr : roots.Perm roots' := enumerates_perm hroots hroots' (packageRoots_congr hp)
  have hd : (sharedData alnum true fs roots paths).Perm (sharedData alnum true fs roots' paths') := sharedData_perm hp hr
  have hkp : keys.Perm keys' := enumerates_perm hk hk' (fun k => by
    constructor
    · rintro ⟨f, h1, h2⟩; exact ⟨f, hd.mem_iff.mp h1, h2⟩
    · rintro ⟨f, h1, h2⟩; exact ⟨f, hd.mem_iff.mpr h1, h2⟩)
  rw [entryAfter_filter, computeUnused_filter, entryAfter_filter p (computeUnused _ _ keys' _), computeUnused_filter,
    ← namespaceContents_congr (fun r => hr.mem_iff)]
  congr 1
  rw [flatMap_perm_unique hkp (fun a _ b _ ha hb => active_unique hw hroots ha hb)]
  congr 1
  funext k
  apply unusedPackage_perm (hd.filter _)
  · intro f hf g hg h1 h2
    rw [List.mem_filter] at hf hg
    exact shared_unique hf.1 hg.1 h1 h2
  · intro f hf g hg h1 h2
    rw [List.mem_filter] at hf hg
    simp only [decide_eq_true_eq] at hf hg
    obtain ⟨_, _, c, _, he⟩ := scanFile_r.mp (shared_r hf.1 h1)
    obtain ⟨_, _, c', _, he'⟩ := scanFile_r.mp (shared_r hg.1 h2)
    have e1 : f.pkgRoot = f.rootKey.dropLast := by rw [he]
    have e2 : g.pkgRoot = g.rootKey.dropLast := by rw [he']
    rw [e1, e2, hf.2, hg.2]

theorem dupEntry_perm {alnum : Char → Bool} {unused : Bool} {le : DPath → DPath → Bool} {fs : PkgFs} {roots roots' keys keys' paths paths' : List DPath}
    (ho : TotalOrder le) (hp : paths.Perm paths') (hroots : Enumerates roots (· ∈ packageRoots fs paths))
    (hroots' : Enumerates roots' (· ∈ packageRoots fs paths'))
    (hk : Enumerates keys (fun k => ∃ f ∈ sharedData alnum unused fs roots paths, f.scope = .r ∧ f.rootKey = k))
    (hk' : Enumerates keys' (fun k => ∃ f ∈ sharedData alnum unused fs roots' paths', f.scope = .r ∧ f.rootKey = k)) (p : DPath) :
    reportsFor p (computeDuplicates le keys (sharedData alnum unused fs roots paths)) =
    reportsFor p (computeDuplicates le keys' (sharedData alnum unused fs roots' paths')) := by
  have hr : roots.Perm roots' := enumerates_perm hroots hroots' (packageRoots_congr hp)
  have hd : (sharedData alnum unused fs roots paths).Perm (sharedData alnum unused fs roots' paths') := sharedData_perm hp hr
  rw [dup_entry hk shared_key, dup_entry hk' shared_key,
    dirFiles_perm ho (hd.filter _) (fun f hf g hg => shared_unique hf hg)]

theorem analysis_perm {w : FileWorld} (hw : OkWorld w) (hn : NoPackageInR w) {s : JarlSettings} {cfg : Config} {paths paths' : List DPath}
    (hnd : paths.Nodup) (hp : paths.Perm paths') {o o' : PkgOrder} (h : PossiblePkg w cfg paths o) (h' : PossiblePkg w cfg paths' o')
    (p : DPath) : analysisOf w s cfg o paths p = analysisOf w s cfg o' paths' p := by
  have h1 : reportsFor p (dupMap w cfg o paths) = reportsFor p (dupMap w cfg o' paths') := by
    unfold dupMap
    split
    · exact dupEntry_perm hw.order hp h.roots h'.roots h.dup h'.dup p
    · rfl
  have h2 : entryAfter p (unusedMap w s cfg o paths) = entryAfter p (unusedMap w s cfg o' paths') := by
    unfold unusedMap
    split
    · exact unusedEntry_perm (pkgWorld hw hn hnd) hp h.roots h'.roots h.unused h'.unused p
    · rfl
  unfold analysisOf
  rw [h1, h2]

/-! ## The groups -/

/-- The group of a key. -/
def groupOf (items : List (DPath × JarlSettings)) (files : List DPath) (k : Option DPath) : Option DPath × List DPath :=
  (k, files.filter (fun f => groupKey items f = k))

theorem groups_eq {items : List (DPath × JarlSettings)} {files : List DPath} {gs : List (Option DPath × List DPath)}
    (h : GroupsOf (groupKey items) files gs) : gs = (gs.map Prod.fst).map (groupOf items files) := by
  rw [List.map_map]
  conv => lhs; rw [← List.map_id gs]
  apply List.map_congr_left
  intro g hg
  show g = (g.1, _)
  rw [← h.members g hg]

/-- What a group contributes. -/
def groupResults (w : FileWorld) (a : RunArgs) (items : List (DPath × JarlSettings)) (o : RunOrder) (g : Option DPath × List DPath) : FileResults :=
  match runGroup w a items o g with
  | .ok rs => rs
  | .error _ => []

theorem runGroups_eq {w : FileWorld} {a : RunArgs} {items : List (DPath × JarlSettings)} {o : RunOrder} :
    ∀ {gs : List (Option DPath × List DPath)}, (∀ g ∈ gs, ∃ cfg, configOf w a.config (groupSettings items g.1) g.2 = .ok cfg) →
    runGroups w a items o gs = .ok (gs.flatMap (groupResults w a items o))
  | [], _ => rfl
  | g :: gs, h => by
    obtain ⟨cfg, hc⟩ := h g (by simp)
    have hg : runGroup w a items o g = .ok (groupResults w a items o g) := by
      unfold groupResults runGroup
      rw [hc]
    unfold runGroups
    rw [hg, runGroups_eq (fun g hg => h g (by simp [hg]))]
    rfl

theorem runGroups_error {w : FileWorld} {a : RunArgs} {items : List (DPath × JarlSettings)} {o : RunOrder} :
    ∀ {gs : List (Option DPath × List DPath)}, ¬ (∀ g ∈ gs, ∃ cfg, configOf w a.config (groupSettings items g.1) g.2 = .ok cfg) →
    ∃ e, runGroups w a items o gs = .error e
  | [], h => absurd (fun _ h => (nomatch h)) h
  | g :: gs, h => by
    unfold runGroups runGroup
    cases hc : configOf w a.config (groupSettings items g.1) g.2 with
    | error e => exact ⟨e, rfl⟩
    | ok cfg =>
      have : ¬ (∀ g ∈ gs, ∃ cfg, configOf w a.config (groupSettings items g.1) g.2 = .ok cfg) := by
        intro h'
        apply h
        intro g' hg'
        rcases List.mem_cons.mp hg' with rfl | hg'
        · exact ⟨cfg, hc⟩
        · exact h' g' hg'
      obtain ⟨e, he⟩ := runGroups_error (o := o) this
      rw [he]
      exact ⟨e, rfl⟩

theorem perm_flatMap_left {α β} {f g : α → List β} : ∀ {l : List α}, (∀ a ∈ l, (f a).Perm (g a)) → (l.flatMap f).Perm (l.flatMap g)
  | [], _ => .refl _
  | a :: l, h => by
    rw [List.flatMap_cons, List.flatMap_cons]
    exact (h a (by simp)).append (perm_flatMap_left (fun b hb => h b (by simp [hb])))

/-- The names in the results of a group are the names of its files. -/
theorem mem_groupResults {w : FileWorld} {a : RunArgs} {items : List (DPath × JarlSettings)} {o : RunOrder} {g : Option DPath × List DPath}
    {r : Str × Except CheckErr (List Diagnostic)} (h : r ∈ groupResults w a items o g) :
    ∃ cfg, configOf w a.config (groupSettings items g.1) g.2 = .ok cfg ∧
      ∃ f ∈ g.2, r = fileResult w ((groupSettings items g.1).getD defaultSettings) cfg (o.pkg g.1) g.2 f := by
  unfold groupResults runGroup at h
  cases hc : configOf w a.config (groupSettings items g.1) g.2 with
  | error e => simp only [hc] at h; cases h
  | ok cfg =>
    simp only [hc, List.mem_map] at h
    obtain ⟨f, hf, rfl⟩ := h
    exact ⟨cfg, rfl, f, hf, rfl⟩

theorem fileResult_filename {w : FileWorld} {s : JarlSettings} {cfg : Config} {o : PkgOrder} {paths : List DPath} {p : DPath}
    {ds : List Diagnostic} (h : (fileResult w s cfg o paths p).2 = .ok ds) : ∀ d ∈ ds, d.filename = (fileResult w s cfg o paths p).1 := by
  simp only [fileResult] at h ⊢
  unfold lintOnly at h
  split at h
  · cases h
  · exact getChecks_filename h

/-- The names of all results are different. -/
theorem results_nodup {w : FileWorld} (hw : OkWorld w) {a : RunArgs} {items : List (DPath × JarlSettings)} {o : RunOrder}
    (hn : o.files.Nodup) (hf : ∀ f ∈ o.files, IsFile w.tree f) {ks : List (Option DPath)} (hk : ks.Nodup) :
    ((ks.flatMap (fun k => groupResults w a items o (groupOf items o.files k))).map Prod.fst).Nodup := by
  have hinj : ∀ f ∈ o.files, ∀ g ∈ o.files, relText w.cwd f = relText w.cwd g → f = g := fun f h1 g h2 e =>
    relText_inj (file_names hw (hf f h1)) (file_names hw (hf g h2)) e
  rw [List.map_flatMap]
  unfold List.Nodup
  rw [List.pairwise_flatMap]
  refine ⟨?_, ?_⟩
  · intro k _
    unfold groupResults runGroup
    cases configOf w a.config (groupSettings items (groupOf items o.files k).1) (groupOf items o.files k).2 with
    | error e => exact .nil
    | ok cfg =>
      simp only [List.map_map]
      rw [List.pairwise_map]
      show List.Pairwise (fun f g => relText w.cwd f ≠ relText w.cwd g) (o.files.filter (fun f => groupKey items f = k))
      have : List.Pairwise (fun f g => f ≠ g) (o.files.filter (fun f => groupKey items f = k)) := hn.sublist (List.filter_sublist)
      refine this.imp_of_mem ?_
      intro f g h1 h2 hne e
      exact hne (hinj f (List.mem_filter.mp h1).1 g (List.mem_filter.mp h2).1 e)
  · refine hk.imp ?_
    intro k k' hne x hx y hy e
    obtain ⟨r, hr, rfl⟩ := List.mem_map.mp hx
    obtain ⟨r', hr', rfl⟩ := List.mem_map.mp hy
    obtain ⟨_, _, f, hf1, rfl⟩ := mem_groupResults hr
    obtain ⟨_, _, g, hg1, rfl⟩ := mem_groupResults hr'
    simp only [groupOf, List.mem_filter, decide_eq_true_eq] at hf1 hg1
    have : f = g := hinj f hf1.1 g hg1.1 e
    subst this
    exact hne (hf1.2.symm.trans hg1.2)

theorem cliReport_error {args : CheckArgs} {items : List ResolvedItem} {rs rs' : FileResults} {e : Unit}
    (h : cliReport args items rs = .error e) : cliReport args items rs' = .error () := by
  unfold cliReport at h ⊢
  cases ha : args.addJarlIgnore with
  | none =>
    simp only [ha] at h
    by_cases hs : args.statistics = true
    · rw [if_pos hs] at h; cases h
    · rw [if_neg hs] at h; cases h
  | some reason =>
    simp only [ha, addJarlIgnore] at h ⊢
    by_cases hr : reasonOk reason = true
    · rw [if_pos hr] at h; cases h
    · rw [if_neg hr]

/-- **C72.** Whatever the order in which threads deliver the files and hash maps are traversed, `jarl check` ends with the same exit status and
prints the same diagnostics in the same order: if no file is named twice, no package lies in the R directory of another package, and the
DESCRIPTION files beside checked files agree (or the R version is given). -/
theorem C72_same_report {w : FileWorld} (hw : OkWorld w) (hpkg : NoPackageInR w) {a : RunArgs} (hsep : Separate a.paths)
    {items : List (DPath × JarlSettings)} (hitems : discoverSettings w.configFs a.paths = some items)
    (hver : OneVersion w a (foundFiles w a items)) {o o' : RunOrder} (h : PossibleRun w a items o) (h' : PossibleRun w a items o') :
    SameReport (runCheck w a o) (runCheck w a o') := by
  have hfiles : o.files.Perm o'.files := h.files.trans h'.files.symm
  have hnd : o.files.Nodup := h.files.nodup_iff.mpr (foundFiles_nodup hw hsep items)
  have hmem : ∀ f ∈ o.files, f ∈ foundFiles w a items := fun f hf => h.files.mem_iff.mp hf
  have hfile : ∀ f ∈ o.files, IsFile w.tree f := fun f hf => foundFiles_file hw (hmem f hf)
  have hg : GroupsOf (groupKey items) o.files o.groups := groupsOf_perm (groupFiles_spec items o.files) h.groups
  have hg' : GroupsOf (groupKey items) o'.files o'.groups := groupsOf_perm (groupFiles_spec items o'.files) h'.groups
  have hkeys : (o.groups.map Prod.fst).Perm (o'.groups.map Prod.fst) := by
    classical
    apply (List.perm_ext_iff_of_nodup hg.keys hg'.keys).mpr
    intro k
    rw [hg.all, hg'.all]
    constructor
    · rintro ⟨f, h1, h2⟩; exact ⟨f, hfiles.mem_iff.mp h1, h2⟩
    · rintro ⟨f, h1, h2⟩; exact ⟨f, hfiles.mem_iff.mpr h1, h2⟩
  have hcfg : ∀ k, configOf w a.config (groupSettings items k) (groupOf items o.files k).2 =
      configOf w a.config (groupSettings items k) (groupOf items o'.files k).2 := by
    intro k
    apply configOf_perm (hfiles.filter _) hver
    · exact fun f hf => hmem f (List.mem_filter.mp hf).1
    · exact fun f hf => hfile f (List.mem_filter.mp hf).1
  have hres : ∀ k ∈ o.groups.map Prod.fst, (groupResults w a items o (groupOf items o.files k)).Perm
      (groupResults w a items o' (groupOf items o'.files k)) := by
    intro k hk
    have hin : groupOf items o.files k ∈ o.groups := by
      rw [groups_eq hg]; exact List.mem_map.mpr ⟨k, hk, rfl⟩
    have hin' : groupOf items o'.files k ∈ o'.groups := by
      rw [groups_eq hg']; exact List.mem_map.mpr ⟨k, hkeys.mem_iff.mp hk, rfl⟩
    have hc := hcfg k
    unfold groupResults runGroup
    cases hc1 : configOf w a.config (groupSettings items k) (groupOf items o.files k).2 with
    | error e =>
      rw [hc1] at hc
      simp only [show (groupOf items o.files k).1 = k from rfl, show (groupOf items o'.files k).1 = k from rfl, hc1, ← hc]
      exact .refl _
    | ok cfg =>
      have hp := h.pkg _ hin cfg hc1
      have hp' := h'.pkg _ hin' cfg (hc ▸ hc1)
      rw [hc1] at hc
      simp only [show (groupOf items o.files k).1 = k from rfl, show (groupOf items o'.files k).1 = k from rfl, hc1, ← hc]
      have heq : fileResult w ((groupSettings items k).getD defaultSettings) cfg (o.pkg k) (groupOf items o.files k).2 =
          fileResult w ((groupSettings items k).getD defaultSettings) cfg (o'.pkg k) (groupOf items o'.files k).2 := by
        funext p
        unfold fileResult
        have := analysis_perm (s := (groupSettings items k).getD defaultSettings) hw hpkg (hnd.sublist List.filter_sublist)
          (hfiles.filter _) hp hp' p
        exact congrArg (fun x => (relText w.cwd p, lintOnly (w.lints ((groupSettings items k).getD defaultSettings)) x cfg
          (relText w.cwd p) Io.good (w.text p))) this
      rw [heq]
      exact (hfiles.filter _).map _
  unfold runCheck
  rw [hitems]
  simp only
  have hemp : o.files.isEmpty = o'.files.isEmpty := by
    rw [Bool.eq_iff_iff, List.isEmpty_iff, List.isEmpty_iff]
    constructor
    · intro e; rw [e] at hfiles; exact hfiles.nil_eq.symm
    · intro e; rw [e] at hfiles; exact hfiles.eq_nil
  rw [hemp]
  split
  · exact ⟨rfl, rfl, .refl _⟩
  · by_cases hall : ∀ g ∈ o.groups, ∃ cfg, configOf w a.config (groupSettings items g.1) g.2 = .ok cfg
    · have hall' : ∀ g ∈ o'.groups, ∃ cfg, configOf w a.config (groupSettings items g.1) g.2 = .ok cfg := by
        intro g hgm
        rw [groups_eq hg'] at hgm
        obtain ⟨k, hk, rfl⟩ := List.mem_map.mp hgm
        have := hall (groupOf items o.files k) (by rw [groups_eq hg]; exact List.mem_map.mpr ⟨k, hkeys.mem_iff.mpr hk, rfl⟩)
        obtain ⟨cfg, hc⟩ := this
        exact ⟨cfg, by rw [← hc]; exact (hcfg k).symm⟩
      rw [runGroups_eq hall, runGroups_eq hall']
      have e1 : o.groups.flatMap (groupResults w a items o) =
          (o.groups.map Prod.fst).flatMap (fun k => groupResults w a items o (groupOf items o.files k)) := by
        conv => lhs; rw [groups_eq hg]
        rw [List.flatMap_map]
      have e2 : o'.groups.flatMap (groupResults w a items o') =
          (o'.groups.map Prod.fst).flatMap (fun k => groupResults w a items o' (groupOf items o'.files k)) := by
        conv => lhs; rw [groups_eq hg']
        rw [List.flatMap_map]
      rw [e1, e2]
      have hperm : ((o.groups.map Prod.fst).flatMap (fun k => groupResults w a items o (groupOf items o.files k))).Perm
          ((o'.groups.map Prod.fst).flatMap (fun k => groupResults w a items o' (groupOf items o'.files k))) :=
        (perm_flatMap_left hres).trans (hkeys.flatMap_right _)
      have hnames := results_nodup hw (a := a) (items := items) hnd hfile hg.keys
      simp only
      cases hrep : cliReport a.checkArgs (resolvedItems items)
          ((o.groups.map Prod.fst).flatMap (fun k => groupResults w a items o (groupOf items o.files k))) with
      | error e => rw [cliReport_error hrep]; trivial
      | ok out =>
        obtain ⟨out', ho', h1, h2, h3⟩ := C27_order_independent hperm hnames (by
          intro r hr ds hds d hd
          obtain ⟨k, _, hr⟩ := List.mem_flatMap.mp hr
          obtain ⟨cfg, _, f, _, rfl⟩ := mem_groupResults hr
          exact fileResult_filename hds d hd) hrep
        rw [ho']
        exact ⟨h1.symm, h2.symm, h3.symm⟩
    · have hall' : ¬ ∀ g ∈ o'.groups, ∃ cfg, configOf w a.config (groupSettings items g.1) g.2 = .ok cfg := by
        intro hx
        apply hall
        intro g hgm
        rw [groups_eq hg] at hgm
        obtain ⟨k, hk, rfl⟩ := List.mem_map.mp hgm
        obtain ⟨cfg, hc⟩ := hx (groupOf items o'.files k) (by rw [groups_eq hg']; exact List.mem_map.mpr ⟨k, hkeys.mem_iff.mp hk, rfl⟩)
        exact ⟨cfg, by rw [← hc]; exact hcfg k⟩
      obtain ⟨e, he⟩ := runGroups_error (o := o) hall
      obtain ⟨e', he'⟩ := runGroups_error (o := o') hall'
      rw [he, he']
      trivial

end Jarl
