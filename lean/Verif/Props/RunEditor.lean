import Verif.Props.RunOrder
import Verif.Props.LspActions
/-!
# C73: the editor and the command line
-/
namespace Jarl
open Spec

theorem flatMap_single {α β} {g : α → List β} {a : α} : ∀ {l : List α}, l.Nodup → a ∈ l → (∀ b ∈ l, b ≠ a → g b = []) → l.flatMap g = g a
  | [], _, h, _ => (nomatch h)
  | b :: l, hn, h, he => by
    rw [List.nodup_cons] at hn
    rw [List.flatMap_cons]
    by_cases hb : b = a
    · subst hb
      have : l.flatMap g = [] := by
        rw [List.flatMap_eq_nil_iff]
        intro x hx
        exact he x (by simp [hx]) (fun e => hn.1 (e ▸ hx))
      rw [this, List.append_nil]
    · rw [he b (by simp) hb, List.nil_append]
      exact flatMap_single hn.2 ((List.mem_cons.mp h).resolve_left (Ne.symm hb)) (fun x hx => he x (by simp [hx]))

/-! ## Files without entries -/

/-- Where scanned files come from. -/
theorem shared_place {alnum : Char → Bool} {unused : Bool} {fs : PkgFs} {roots paths : List DPath} {g : SharedFile}
    (hg : g ∈ sharedData alnum unused fs roots paths) :
    PackageFile fs g.path ∨ ∃ r ∈ roots, (RFile g.path ∧ g.path ∈ fs.below (r ++ [['R']])) ∨ g.path ∈ extraFiles fs r := by
  unfold sharedData at hg
  simp only [List.mem_append, List.mem_filterMap, List.mem_filter, List.mem_flatMap] at hg
  rcases hg with (⟨q, ⟨_, hq⟩, hs⟩ | ⟨q, ⟨r, hr, hq⟩, hs⟩) | hg
  · obtain ⟨_, _, c, _, he⟩ := scanFile_r.mp hs
    have : g.path = q := by rw [he]
    rw [this]; exact .inl (packageFile_iff.mp hq)
  · obtain ⟨_, _, c, _, he⟩ := scanFile_r.mp hs
    have : g.path = q := by rw [he]
    rw [this]
    obtain ⟨h1, h2, _⟩ := mem_excludedR.mp hq
    exact .inr ⟨r, hr, .inl ⟨h2, h1⟩⟩
  · split at hg
    · obtain ⟨q, hq, hs⟩ := List.mem_filterMap.mp hg
      rw [(scanFile_other (fileScope_not_r q) hs).2]
      obtain ⟨r, hr, hq⟩ := List.mem_flatMap.mp hq
      exact .inr ⟨r, hr, .inr hq⟩
    · cases hg

theorem root_desc {w : FileWorld} {paths : List DPath} {r : DPath} (h : r ∈ packageRoots w.pkgFs paths) : HasDescription w r := by
  obtain ⟨g, _, hg, hd⟩ := root_dir h
  obtain ⟨_, _, r', hr', hdesc⟩ := inPackageR_iff.mp hg
  rw [hd] at hr'
  have : r = r' := by
    have := congrArg List.dropLast hr'
    simpa using this
  rw [this]; exact exists_iff.mp hdesc

/-- A file of another kind or place is not scanned. -/
theorem not_scanned {w : FileWorld} (hw : OkWorld w) {f : DPath}
    (h : (¬ RFile f ∧ ¬ CFile f) ∨ ∀ r d, HasDescription w r → d ∈ AnalysedDirs → ¬ r ++ d <+: f)
    {unused : Bool} {roots paths : List DPath} (hroots : ∀ r ∈ roots, r ∈ packageRoots w.pkgFs paths) :
    ∀ g ∈ sharedData w.alnum unused w.pkgFs roots paths, g.path ≠ f := by
  intro g hg e
  have hbelow : ∀ {d : DPath}, g.path ∈ w.pkgFs.below d → d <+: f := fun hb => by
    rw [← e]; exact ((mem_below hw).mp hb).2.1
  rcases shared_place hg with hp | ⟨r, hr, hp⟩
  · rcases h with ⟨h, _⟩ | h
    · exact h (e ▸ hp.1)
    · obtain ⟨_, root, file, hpath, hd⟩ := hp
      refine h root [cs! "R"] (exists_iff.mp hd) (by simp [AnalysedDirs]) ?_
      rw [← e, hpath]
      exact ⟨[file], by simp⟩
  · have hdesc := root_desc (hroots r hr)
    rcases hp with ⟨h1, h2⟩ | hp
    · rcases h with ⟨h, _⟩ | h
      · exact h (e ▸ h1)
      · exact h r [cs! "R"] hdesc (by simp [AnalysedDirs]) (hbelow h2)
    · rcases mem_extraFiles.mp hp with ⟨h1, h2⟩ | ⟨h1, h2⟩
      · rcases h with ⟨h, _⟩ | h
        · exact h (e ▸ h1)
        · rcases h2 with h2 | h2 | h2
          · exact h r [cs! "tests"] hdesc (by simp [AnalysedDirs]) (hbelow h2)
          · exact h r [cs! "inst", cs! "tests"] hdesc (by simp [AnalysedDirs]) (hbelow h2)
          · exact h r [cs! "inst", cs! "tinytest"] hdesc (by simp [AnalysedDirs]) (hbelow h2)
      · rcases h with ⟨_, h⟩ | h
        · exact h (e ▸ h1)
        · exact h r [cs! "src"] hdesc (by simp [AnalysedDirs]) (hbelow h2)

theorem dup_none {le : DPath → DPath → Bool} {keys : List DPath} {data : List SharedFile} {p : DPath} (h : ∀ g ∈ data, g.path ≠ p) :
    reportsFor p (computeDuplicates le keys data) = [] := by
  have : lastEntry p (computeDuplicates le keys data) = none := by
    apply lastEntry_none
    intro l hl
    unfold computeDuplicates at hl
    obtain ⟨k, _, hl⟩ := List.mem_flatMap.mp hl
    obtain ⟨g, hg, hgp⟩ := List.mem_map.mp (dupFiles_paths _ _ _ _ hl)
    have hg := (List.mergeSort_perm _ _).mem_iff.mp hg
    exact h g (List.mem_filter.mp hg).1 hgp
  unfold reportsFor
  rw [this]; rfl

theorem unused_none {env : UnusedEnv} {nsf : DPath → Option Str} {keys : List DPath} {data : List SharedFile} {p : DPath}
    (h : ∀ g ∈ data, g.path ≠ p) : entryAfter p (computeUnused env nsf keys data) = [] := by
  rw [entryAfter_filter]
  have : (computeUnused env nsf keys data).filter (fun o => o.path = p) = [] := by
    rw [List.filter_eq_nil_iff]
    intro op hop he
    unfold computeUnused at hop
    obtain ⟨k, _, hop⟩ := List.mem_flatMap.mp hop
    obtain ⟨_, _, _, _, _, ht⟩ := mem_unusedPackage.mp hop
    have he : op.path = p := by simpa using he
    rcases ht with ⟨f, hf, _, _, e⟩ | ⟨_, _, f, hf, _, _, e⟩
    · rw [e] at he; exact h f (List.mem_filter.mp hf).1 he
    · rw [e] at he; exact h f (List.mem_filter.mp hf).1 he
  rw [this]; rfl

/-- No reports of the package rules for such files. -/
theorem analysis_empty {w : FileWorld} (hw : OkWorld w) {f : DPath}
    (h : (¬ RFile f ∧ ¬ CFile f) ∨ ∀ r d, HasDescription w r → d ∈ AnalysedDirs → ¬ r ++ d <+: f)
    {s : JarlSettings} {cfg : Config} {paths : List DPath} {o : PkgOrder} (ho : PossiblePkg w cfg paths o) :
    analysisOf w s cfg o paths f = ⟨fun _ => [], fun _ => []⟩ := by
  have hroots : ∀ r ∈ o.roots, r ∈ packageRoots w.pkgFs paths := fun r hr => (ho.roots.2 r).mp hr
  have h1 : reportsFor f (dupMap w cfg o paths) = [] := by
    unfold dupMap
    split
    · exact dup_none (not_scanned hw h hroots)
    · rfl
  have h2 : entryAfter f (unusedMap w s cfg o paths) = [] := by
    unfold unusedMap
    split
    · exact unused_none (not_scanned hw h hroots)
    · rfl
  unfold analysisOf
  rw [h1, h2]
  rfl

/-! ## Files of the R directory of a package -/

theorem unusedPackage_ns {env : UnusedEnv} {nsf nsf' : DPath → Option Str} {files : List SharedFile}
    (h : ∀ f ∈ files, f.scope = .r → nsf f.pkgRoot = nsf' f.pkgRoot) : unusedPackage env nsf files = unusedPackage env nsf' files := by
  unfold unusedPackage
  cases hf : files.filter (fun f => f.scope = .r) with
  | nil => rfl
  | cons first rest =>
    have hm : first ∈ files.filter (fun f => f.scope = .r) := by rw [hf]; simp
    simp only [List.mem_filter, decide_eq_true_eq] at hm
    simp only [h first hm.1 hm.2]

/-- The files of R/ that are scanned, for any given files of this directory. -/
theorem rfiles_perm {w : FileWorld} (hw : OkWorld w) (hpkg : NoPackageInR w) {unused : Bool} {paths paths' roots roots' : List DPath}
    (hn : paths.Nodup) (hn' : paths'.Nodup) (hroots : Enumerates roots (· ∈ packageRoots w.pkgFs paths))
    (hroots' : Enumerates roots' (· ∈ packageRoots w.pkgFs paths')) {f : DPath} (hf : f ∈ paths) (hf' : f ∈ paths') (hin : PackageFile w.pkgFs f) :
    ((sharedData w.alnum unused w.pkgFs roots paths).filter (fun g => g.scope = .r && g.rootKey = f.dropLast)).Perm
    ((sharedData w.alnum unused w.pkgFs roots' paths').filter (fun g => g.scope = .r && g.rootKey = f.dropLast)) := by
  classical
  have hP := pkgWorld hw hpkg hn
  have hP' := pkgWorld hw hpkg hn'
  have nd : ∀ {l : List SharedFile}, (l.map (·.path)).Nodup → l.Nodup := fun h => List.Pairwise.of_map _ (fun a b hab e => hab (e ▸ rfl)) h
  apply (List.perm_ext_iff_of_nodup (nd (files_nodup hP hroots _)) (nd (files_nodup hP' hroots' _))).mpr
  intro g
  rw [files_mem hP hroots hf hin, files_mem hP' hroots' hf' hin]
  obtain ⟨_, _, root, hroot, _⟩ := inPackageR_iff.mp hin
  have key : ∀ {ps ps' : List DPath} {q : DPath} {c : Str}, RFileIn w.pkgFs ps f.dropLast q c → RFileIn w.pkgFs ps' f.dropLast q c := by
    intro ps ps' q c h
    refine ⟨h.parent, h.ext, h.read, .inr ((mem_below hw).mpr ⟨hw.text _ _ h.read, ?_, ?_⟩)⟩
    · rw [← h.parent]; exact List.dropLast_prefix q
    · intro e
      have h1 := h.parent
      have hq : q ≠ [] := by
        rintro rfl
        rw [hroot] at h1
        simp at h1
      rw [e] at h1
      have := congrArg List.length h1
      rw [List.length_dropLast] at this
      have := List.length_pos_iff.mpr hq
      omega
  constructor
  · rintro ⟨c, h, e⟩; exact ⟨c, key h, e⟩
  · rintro ⟨c, h, e⟩; exact ⟨c, key h, e⟩

/-- The other scanned files of a package that is not part of another one: those below its own directory. -/
theorem extras_eq {w : FileWorld} (hw : OkWorld w) {roots paths : List DPath}
    (hroots : Enumerates roots (· ∈ packageRoots w.pkgFs paths)) {r : DPath} (hr : r ∈ roots)
    (hout : ∀ r', HasDescription w r' → r' <+: r → r' = r) :
    (sharedData w.alnum true w.pkgFs roots paths).filter (fun g => g.scope ≠ .r && g.rootKey = r ++ [['R']]) =
    ((extraFiles w.pkgFs r).filterMap (fun p => scanFile w.alnum true w.pkgFs p (fileScope p))).filter (fun g => g.rootKey = r ++ [['R']]) := by
  unfold sharedData
  simp only [if_true]
  rw [List.filter_append, List.filter_append]
  have h0 : ∀ l : List DPath, (l.filterMap (fun p => scanFile w.alnum true w.pkgFs p .r)).filter
      (fun g => g.scope ≠ .r && g.rootKey = r ++ [['R']]) = [] := by
    intro l
    rw [List.filter_eq_nil_iff]
    intro g hg
    obtain ⟨q, _, hs⟩ := List.mem_filterMap.mp hg
    obtain ⟨_, _, c, _, he⟩ := scanFile_r.mp hs
    simp [he]
  rw [h0, h0, List.nil_append, List.nil_append]
  have h1 : ∀ l : List DPath, (l.filterMap (fun p => scanFile w.alnum true w.pkgFs p (fileScope p))).filter
      (fun g => g.scope ≠ .r && g.rootKey = r ++ [['R']]) =
      (l.filterMap (fun p => scanFile w.alnum true w.pkgFs p (fileScope p))).filter (fun g => g.rootKey = r ++ [['R']]) := by
    intro l
    apply List.filter_congr
    intro g hg
    obtain ⟨q, _, hs⟩ := List.mem_filterMap.mp hg
    have := (scanFile_other (fileScope_not_r q) hs).1
    have : g.scope ≠ .r := this ▸ fileScope_not_r q
    simp [this]
  rw [h1, List.filterMap_flatMap, List.filter_flatMap]
  apply flatMap_single hroots.1 hr
  intro r' hr' hne
  rw [List.filter_eq_nil_iff]
  intro g hg hk
  obtain ⟨q, hq, hs⟩ := List.mem_filterMap.mp hg
  obtain ⟨root, c, _, hnear, he⟩ := scanFile_extra.mp hs
  have hkey : root = r := by
    have : root ++ [['R']] = r ++ [['R']] := by
      have := of_decide_eq_true hk
      rw [he] at this
      exact this
    exact List.append_cancel_right this
  subst hkey
  have hdesc := root_desc ((hroots.2 r').mp hr')
  have hb : ∃ d, q ∈ w.pkgFs.below (r' ++ d) := by
    rcases mem_extraFiles.mp hq with ⟨_, h | h | h⟩ | ⟨_, h⟩ <;> exact ⟨_, h⟩
  obtain ⟨d, hb⟩ := hb
  obtain ⟨_, hpre, hneq⟩ := (mem_below hw).mp hb
  have hp1 : r' <+: q := (List.prefix_append _ _).trans hpre
  have hp2 : r' ≠ q := by
    intro e
    have l1 := hpre.length_le
    rw [← e] at l1
    have : d = [] := by
      rw [List.length_append] at l1
      exact List.length_eq_zero_iff.mp (by omega)
    rw [this, List.append_nil] at hneq
    exact hneq e
  have hlen := hnear.closest r' (exists_iff.mpr hdesc) hp1 hp2
  exact hne (hout r' hdesc (List.prefix_of_prefix_length_le hp1 hnear.above.1 hlen))

theorem package_perm {w : FileWorld} (hw : OkWorld w) (hpkg : NoPackageInR w) {paths paths' roots roots' : List DPath}
    (hn : paths.Nodup) (hn' : paths'.Nodup) (hroots : Enumerates roots (· ∈ packageRoots w.pkgFs paths))
    (hroots' : Enumerates roots' (· ∈ packageRoots w.pkgFs paths')) {f r : DPath} {n : Str} (hf : f ∈ paths) (hf' : f ∈ paths')
    (he : f = r ++ [['R'], n]) (hin : PackageFile w.pkgFs f) (hout : ∀ r', HasDescription w r' → r' <+: r → r' = r) :
    ((sharedData w.alnum true w.pkgFs roots paths).filter (fun g => g.rootKey = r ++ [['R']])).Perm
    ((sharedData w.alnum true w.pkgFs roots' paths').filter (fun g => g.rootKey = r ++ [['R']])) := by
  have hd : f.dropLast = r ++ [['R']] := by rw [he]; simp [List.dropLast_append]
  have hr : r ∈ roots := (hroots.2 r).mpr (mem_packageRoots.mpr ⟨f, hf, hin, by rw [hd]; simp⟩)
  have hr' : r ∈ roots' := (hroots'.2 r).mpr (mem_packageRoots.mpr ⟨f, hf', hin, by rw [hd]; simp⟩)
  have h1 := rfiles_perm hw hpkg (unused := true) hn hn' hroots hroots' hf hf' hin
  rw [hd] at h1
  have h2 := (extras_eq hw hroots hr hout).trans (extras_eq hw hroots' hr' hout).symm
  have split : ∀ l : List SharedFile, (l.filter (fun g => g.scope = .r && g.rootKey = r ++ [['R']]) ++
      l.filter (fun g => g.scope ≠ .r && g.rootKey = r ++ [['R']])).Perm (l.filter (fun g => g.rootKey = r ++ [['R']])) := by
    intro l
    have := List.filter_append_perm (fun g : SharedFile => decide (g.scope = .r)) (l.filter (fun g => g.rootKey = r ++ [['R']]))
    rw [List.filter_filter, List.filter_filter] at this
    refine List.Perm.trans (.of_eq ?_) this
    congr 1
    apply List.filter_congr
    intro g _
    simp
  refine (split _).symm.trans (List.Perm.trans ?_ (split _))
  rw [h2]
  exact h1.append_right _

/-- The package analyses of a file of R/ do not depend on which other files are given. -/
theorem analysis_package {w : FileWorld} (hw : OkWorld w) (hpkg : NoPackageInR w) {s : JarlSettings} {cfg : Config} {paths paths' : List DPath}
    {o o' : PkgOrder} (hn : paths.Nodup) (hn' : paths'.Nodup) (ho : PossiblePkg w cfg paths o) (ho' : PossiblePkg w cfg paths' o')
    {f r : DPath} {n : Str} (hf : f ∈ paths) (hf' : f ∈ paths') (he : f = r ++ [['R'], n]) (hR : RFile f) (hdesc : HasDescription w r)
    (hout : ∀ r', HasDescription w r' → r' <+: r → r' = r) {content : Str} (htext : w.text f = some content) :
    analysisOf w s cfg o paths f = analysisOf w s cfg o' paths' f := by
  have hin : PackageFile w.pkgFs f := ⟨hR, r, n, he, exists_iff.mpr hdesc⟩
  have hd : f.dropLast = r ++ [['R']] := by rw [he]; simp [List.dropLast_append]
  have h1 : reportsFor f (dupMap w cfg o paths) = reportsFor f (dupMap w cfg o' paths') := by
    unfold dupMap
    split
    · rw [dup_entry ho.dup shared_key, dup_entry ho'.dup shared_key,
        dirFiles_perm hw.order (rfiles_perm hw hpkg hn hn' ho.roots ho'.roots hf hf' hin) (fun f hf g hg => shared_unique hf hg)]
    · rfl
  have h2 : entryAfter f (unusedMap w s cfg o paths) = entryAfter f (unusedMap w s cfg o' paths') := by
    unfold unusedMap
    split
    · rw [entryAfter_filter, computeUnused_filter, entryAfter_filter f (computeUnused _ _ o'.unusedKeys _), computeUnused_filter]
      have single : ∀ {ps : List DPath} {o : PkgOrder}, ps.Nodup → PossiblePkg w cfg ps o → f ∈ ps →
          o.unusedKeys.flatMap (fun k => (unusedPackage (unusedEnv w s) (namespaceContents w.pkgFs o.roots)
            ((sharedData w.alnum true w.pkgFs o.roots ps).filter (fun g => g.rootKey = k))).filter (fun op => op.path = f)) =
          (unusedPackage (unusedEnv w s) (namespaceContents w.pkgFs o.roots)
            ((sharedData w.alnum true w.pkgFs o.roots ps).filter (fun g => g.rootKey = r ++ [['R']]))).filter (fun op => op.path = f) := by
        intro ps o hps ho hfp
        apply flatMap_single ho.unused.1
        · rw [ho.unused.2]
          have : (⟨f.dropLast, f, f.dropLast.dropLast, scanAssigns w.alnum content, scanSymbols content, .r⟩ : SharedFile) ∈
              (sharedData w.alnum true w.pkgFs o.roots ps).filter (fun g => g.scope = .r && g.rootKey = f.dropLast) := by
            rw [files_mem (pkgWorld hw hpkg hps) ho.roots hfp hin]
            exact ⟨content, ⟨rfl, hR, htext, .inl hfp⟩, rfl⟩
          exact ⟨_, (List.mem_filter.mp this).1, hd⟩
        · intro k _ hk
          apply Classical.byContradiction
          intro hne
          obtain ⟨_, g, hg, hgk, hgp⟩ := active_key (pkgWorld hw hpkg hps) ho.roots hne
          apply hk
          by_cases hs : g.scope = .r
          · rw [← hgk, shared_key g hg hs, hgp, hd]
          · obtain ⟨root, c, _, hnear, heq⟩ := scanFile_extra.mp (shared_other hg hs)
            have hkey : k = root ++ [['R']] := by rw [← hgk, heq]
            rw [hgp] at hnear
            have hfne : f ≠ [] := by rw [he]; simp
            have hpre := (proper_prefix hfne).mp hnear.above
            rw [hd] at hpre
            rcases prefix_snoc.mp hpre with e | e
            · exact absurd (by rw [e]; exact List.prefix_refl _) (hpkg r root hdesc (exists_iff.mp hnear.desc))
            · rw [hkey, hout root (exists_iff.mp hnear.desc) e]
      rw [single hn ho hf, single hn' ho' hf']
      have hr : r ∈ o.roots := (ho.roots.2 r).mpr (mem_packageRoots.mpr ⟨f, hf, hin, by rw [hd]; simp⟩)
      have hr' : r ∈ o'.roots := (ho'.roots.2 r).mpr (mem_packageRoots.mpr ⟨f, hf', hin, by rw [hd]; simp⟩)
      have hrootOf : ∀ {ps : List DPath} {o : PkgOrder}, ∀ g ∈ (sharedData w.alnum true w.pkgFs o.roots ps).filter (fun g => g.rootKey = r ++ [['R']]),
          g.scope = .r → g.pkgRoot = r := by
        intro ps o g hg hs
        rw [List.mem_filter] at hg
        obtain ⟨_, _, c, _, heq⟩ := scanFile_r.mp (shared_r hg.1 hs)
        have e1 : g.pkgRoot = g.rootKey.dropLast := by rw [heq]
        rw [e1, of_decide_eq_true hg.2]
        simp
      rw [unusedPackage_perm (package_perm hw hpkg hn hn' ho.roots ho'.roots hf hf' he hin hout) f ?_ ?_]
      · rw [unusedPackage_ns (nsf' := namespaceContents w.pkgFs o'.roots)]
        intro g hg hs
        rw [hrootOf g hg hs, namespaceContents_mem hr, namespaceContents_mem hr']
      · intro a ha b hb e1 e2
        rw [List.mem_filter] at ha hb
        exact shared_unique ha.1 hb.1 e1 e2
      · intro a ha b hb e1 e2
        rw [hrootOf a ha e1, hrootOf b hb e2]
    · rfl
  unfold analysisOf
  rw [h1, h2]

/-! ## The editor's side -/

theorem siblings_some {w : FileWorld} (hw : OkWorld w) {f r : DPath} {n : Str} (he : f = r ++ [['R'], n]) (hR : RFile f) (hdesc : HasDescription w r)
    (hfile : IsFile w.tree f) : ∃ paths, siblingRFiles w f = some paths ∧ paths.Nodup ∧ f ∈ paths := by
  have hd : f.dropLast = r ++ [['R']] := by rw [he]; simp [List.dropLast_append]
  have hne : f ≠ [] := by rw [he]; simp
  have hf : f = f.dropLast ++ [n] := by rw [hd, he]; simp
  unfold siblingRFiles parentDir
  rw [if_neg hne, hd]
  simp only [List.getLast?_append, List.getLast?_singleton, Option.some_or, List.dropLast_concat, exists_iff.mpr hdesc, and_self, if_true]
  unfold IsFile at hfile
  rw [hf, hd, FsTree.at_append] at hfile
  cases ht : w.tree.at (r ++ [['R']]) with
  | none => rw [ht] at hfile; cases hfile
  | some t =>
    rw [ht] at hfile
    have hok := (at_ok hw.tree ht).1
    cases t with
    | file => simp [FsTree.at] at hfile
    | dir es =>
      cases hok with
      | dir hnd _ _ =>
        obtain ⟨t', h1, h2⟩ := (FsTree.at_entry hnd).mp hfile
        refine ⟨_, rfl, ?_, ?_⟩
        · refine List.Nodup.sublist List.filter_sublist ?_
          have : (es.map (fun e => r ++ [['R']] ++ [e.1])) = (es.map Prod.fst).map (fun m => r ++ [['R']] ++ [m]) := by
            rw [List.map_map]; rfl
          rw [this]
          unfold List.Nodup
          rw [List.pairwise_map]
          refine hnd.imp ?_
          intro a b hab e
          have := List.append_cancel_left e
          exact hab (by simpa using this)
        · rw [List.mem_filter]
          refine ⟨List.mem_map.mpr ⟨_, h1, ?_⟩, isRFile_iff.mpr hR⟩
          rw [hf, hd]

theorem config_none {w : FileWorld} {s : Option JarlSettings} {l : List DPath} (h : ∀ g ∈ l, IsFile w.tree g ∧ ¬ HasDescription w g.dropLast) :
    configOf w {} s l = configOf w {} s [] := by
  have hd : determineMinimumRVersion {} (l.map (descProbe w)) = determineMinimumRVersion {} [] := by
    unfold determineMinimumRVersion
    simp only [minVersionFromDesc_eq]
    have : (l.map (descProbe w)).findSome? versionFound = none := by
      rw [List.findSome?_eq_none_iff]
      intro x hx
      obtain ⟨g, hg, rfl⟩ := List.mem_map.mp hx
      obtain ⟨h1, h2⟩ := h g hg
      rw [descProbe_file h1, if_neg (fun e => h2 (exists_iff.mp e))]
      rfl
    rw [this]; rfl
  unfold configOf buildConfig
  rw [hd]
  rfl

theorem found_file {name : Str} {ds : List Diagnostic} : ∀ {rs : FileResults}, (rs.map Prod.fst).Nodup →
    (∀ r ∈ rs, ∀ ds, r.2 = .ok ds → ∀ d ∈ ds, d.filename = r.1) → (name, .ok ds) ∈ rs → ForFile name (found rs) = ds
  | [], _, _, h => (nomatch h)
  | r :: rs, hn, hfn, h => by
    rw [List.map_cons, List.nodup_cons] at hn
    have hsplit : ForFile name (found (r :: rs)) = ForFile name (match r.2 with | .ok ds => ds | .error _ => []) ++ ForFile name (found rs) := by
      unfold ForFile found
      rw [List.flatMap_cons, List.filter_append]
      rfl
    rw [hsplit]
    rcases List.mem_cons.mp h with rfl | h
    · have h1 : ForFile name ds = ds := by
        unfold ForFile
        rw [List.filter_eq_self]
        intro d hd
        exact decide_eq_true (hfn (name, .ok ds) (by simp) ds rfl d hd)
      have h2 : ForFile name (found rs) = [] := by
        unfold ForFile
        rw [List.filter_eq_nil_iff]
        intro d hd
        unfold found at hd
        obtain ⟨r', hr', hd⟩ := List.mem_flatMap.mp hd
        cases he : r'.2 with
        | error e => rw [he] at hd; cases hd
        | ok ds' =>
          rw [he] at hd
          have := hfn r' (by simp [hr']) ds' he d hd
          intro hx
          have hx : d.filename = name := by simpa using hx
          exact hn.1 (List.mem_map.mpr ⟨r', hr', by rw [← this, hx]⟩)
      simp only [h1, h2, List.append_nil]
    · rw [found_file hn.2 (fun r hr => hfn r (by simp [hr])) h]
      have : ForFile name (match r.2 with | .ok ds => ds | .error _ => []) = [] := by
        unfold ForFile
        rw [List.filter_eq_nil_iff]
        intro d hd
        cases he : r.2 with
        | error e => rw [he] at hd; cases hd
        | ok ds' =>
          rw [he] at hd
          have := hfn r (by simp) ds' he d hd
          intro hx
          have hx : d.filename = name := by simpa using hx
          exact hn.1 (List.mem_map.mpr ⟨_, h, by rw [← this, hx]⟩)
      rw [this, List.nil_append]

theorem groupSettings_mem {items : List (DPath × JarlSettings)} {k : Option DPath} {s : JarlSettings} (h : groupSettings items k = some s) :
    ∃ d, (d, s) ∈ items := by
  unfold groupSettings at h
  cases k with
  | none => cases h
  | some d =>
    simp only [Option.map_eq_some_iff] at h
    obtain ⟨x, hx, rfl⟩ := h
    exact ⟨x.1, List.mem_of_find?_eq_some hx⟩

theorem hide_without (named : Bool) (total threshold : Nat) (ds : List Diagnostic) :
    WithoutUnused (hideUnusedLsp named total threshold ds) = WithoutUnused ds := by
  unfold hideUnusedLsp
  split
  · rfl
  · split
    · unfold WithoutUnused
      rw [List.filter_filter]
      apply List.filter_congr
      intro d _
      rw [show Rule.unusedFunction.name = cs! "unused_function" from rfl, Bool.and_self]
    · rfl

/-- The settings of the editor and of the command line are the same. -/
theorem same_settings {w : FileWorld} {paths : List DPath} {items : List (DPath × JarlSettings)} {f : DPath}
    (hitems : discoverSettings w.configFs paths = some items) (hfile : IsFile w.tree f) (h : OneConfig w paths f) :
    editorSettings w.configFs f = some (groupSettings items (groupKey items f)) := by
  obtain ⟨p, hp, hfound, hop⟩ := h.found
  obtain ⟨h1, h2⟩ := C47_nearest_config w.configFs paths items p f hitems hp hfound hop
  have hwalk : w.configFs.walk f = [] := by
    show nestedWalk w.git w.tree f = []
    unfold nestedWalk
    rw [hfile]
    rfl
  have near : ∀ d, Nearest w.configFs d f → editorSettings w.configFs f = some (groupSettings items (groupKey items f)) := by
    intro d hd
    obtain ⟨s, hs, ht⟩ := h1 d hd
    rw [C47_editor w.configFs f d s ht hd h.user hwalk]
    unfold groupKey
    rw [hs]
    have : groupSettings items (some d) = some s := by
      unfold resolvePath at hs
      obtain ⟨a, _, ha⟩ := List.exists_of_findSome?_eq_some hs
      have := List.find?_some ha
      have e : d = a := by simpa using this
      subst e
      unfold groupSettings
      simp only [ha, Option.map_some]
    exact congrArg some this.symm
  rcases h.some with ⟨d, hd⟩ | hu
  · exact near d hd
  · by_cases hex : ∃ d, Nearest w.configFs d f
    · obtain ⟨d, hd⟩ := hex; exact near d hd
    · have hno : NoConfigAbove w.configFs f := by
        rcases config_above w.configFs f with h | h
        · exact absurd h hex
        · exact h
      obtain ⟨seen, g1, _⟩ := walkDirs_none f [] hno (by simp)
      unfold groupKey
      rw [h2 hno]
      unfold editorSettings discoverSettings
      have hu' : w.configFs.userDir = none := hu
      simp only [discoverUp, discoverOne, g1, userFallback, hu', discoverDown, hwalk, discoverNested]
      rfl

/-! ## The theorem -/

/-- **C73.** For a saved file that both would check, the editor shows the reports that `jarl check` prints for it (the reports of
`unused_function` aside, unless the settings name that rule). -/
theorem C73_editor_partial {w : FileWorld} (hw : OkWorld w) (hpkg : NoPackageInR w) {a : RunArgs} (hsep : Separate a.paths)
    (hcfg : a.config = {}) (hst : a.statistics = false) (hadd : a.addJarlIgnore = none)
    {items : List (DPath × JarlSettings)} (hitems : discoverSettings w.configFs a.paths = some items)
    {o : RunOrder} (ho : PossibleRun w a items o) {out : CliOut} (hout : runCheck w a o = .ok out)
    (hbeside : ∀ g ∈ foundFiles w a items, ¬ HasDescription w g.dropLast)
    {f : DPath} (hf : f ∈ foundFiles w a items) (hone : OneConfig w a.paths f) (hplace : SimplePlace w f)
    {s : Option JarlSettings} (hs : editorSettings w.configFs f = some s)
    (hex : shouldExcludeBySettings ('/' :: joinPath f) (s.map excludeOf) = false)
    {content : Str} (htext : w.text f = some content) {oe : PkgOrder} (hoe : PossibleEditor w f oe) (enc : Enc) :
    (∃ e, (relText w.cwd f, e) ∈ out.errors ∧ (editorLint w oe f content enc = .err ∨ editorLint w oe f content enc = .panic)) ∨
    ∃ shown, (WithoutUnused shown).Perm (WithoutUnused (ForFile (relText w.cwd f) out.diagnostics)) ∧
      (NamesUnused s →
        shown.Perm (ForFile (relText w.cwd f) out.diagnostics)) ∧
      ((∀ d ∈ shown, CutsAt content d.range.start d.range.stop) →
        ∃ ls, editorLint w oe f content enc = .ok ls ∧ Each (Shows enc content) shown ls) := by
  have hnd : o.files.Nodup := ho.files.nodup_iff.mpr (foundFiles_nodup hw hsep items)
  have hmem : ∀ f ∈ o.files, f ∈ foundFiles w a items := fun f hf => ho.files.mem_iff.mp hf
  have hfile : ∀ f ∈ o.files, IsFile w.tree f := fun f hf => foundFiles_file hw (hmem f hf)
  have hfo : f ∈ o.files := ho.files.mem_iff.mpr hf
  have hg : GroupsOf (groupKey items) o.files o.groups := groupsOf_perm (groupFiles_spec items o.files) ho.groups
  have hseq : s = groupSettings items (groupKey items f) := by
    have := same_settings hitems (hfile f hfo) hone
    rw [hs] at this
    exact Option.some.inj this
  -- the group of f
  have hgin : groupOf items o.files (groupKey items f) ∈ o.groups := by
    rw [groups_eq hg]
    exact List.mem_map.mpr ⟨_, (hg.all _).mpr ⟨f, hfo, rfl⟩, rfl⟩
  have hfg : f ∈ (groupOf items o.files (groupKey items f)).2 := by
    simp [groupOf, List.mem_filter, hfo]
  -- the run
  unfold runCheck at hout
  rw [hitems] at hout
  simp only at hout
  rw [if_neg (by rw [List.isEmpty_iff]; intro e; rw [e] at hfo; cases hfo)] at hout
  by_cases hall : ∀ g ∈ o.groups, ∃ cfg, configOf w a.config (groupSettings items g.1) g.2 = .ok cfg
  case neg =>
    obtain ⟨e, he⟩ := runGroups_error (o := o) hall
    rw [he] at hout
    cases hout
  rw [runGroups_eq hall] at hout
  simp only at hout
  obtain ⟨cfg, hc⟩ := hall _ hgin
  have hc0 : configOf w {} s [] = .ok cfg := by
    rw [hcfg] at hc
    rw [← hc, hseq]
    symm
    apply config_none
    intro g hg'
    have := (List.mem_filter.mp hg').1
    exact ⟨hfile g this, hbeside g (hmem g this)⟩
  have hce : configOf w {} s [f] = .ok cfg := by
    rw [← hc0]
    apply config_none
    intro g hg'
    rw [List.mem_singleton] at hg'
    subst hg'
    exact ⟨hfile g hfo, hbeside g hf⟩
  have hecfg : editorConfig w f = some (s, .ok cfg) := by
    unfold editorConfig
    rw [hs]
    simp only [hce]
  generalize hgr : groupOf items o.files (groupKey items f) = gr at *
  have hg1 : gr.1 = groupKey items f := by rw [← hgr]; rfl
  -- the same analysis
  have hpo := ho.pkg gr hgin cfg hc
  have hana : (editorAnalysis w (s.getD defaultSettings) cfg oe f).1 = analysisOf w (s.getD defaultSettings) cfg (o.pkg gr.1) gr.2 f := by
    have hempty : ((¬ RFile f ∧ ¬ CFile f) ∨ ∀ r d, HasDescription w r → d ∈ AnalysedDirs → ¬ r ++ d <+: f) →
        (editorAnalysis w (s.getD defaultSettings) cfg oe f).1 = analysisOf w (s.getD defaultSettings) cfg (o.pkg gr.1) gr.2 f := by
      intro h
      rw [analysis_empty hw h hpo]
      unfold editorAnalysis
      cases hsib : siblingRFiles w f with
      | none => rfl
      | some paths => exact analysis_empty hw h (hoe s cfg paths hecfg hsib)
    cases hplace with
    | document h h' => exact hempty (.inl ⟨h, h'⟩)
    | elsewhere h => exact hempty (.inr h)
    | package r n he hR hd hout' =>
      obtain ⟨paths, hsib, hsn, hsf⟩ := siblings_some hw he hR hd (hfile f hfo)
      unfold editorAnalysis
      rw [hsib]
      have hgn : gr.2.Nodup := by rw [← hgr]; exact hnd.sublist List.filter_sublist
      exact analysis_package hw hpkg hsn hgn (hoe s cfg paths hecfg hsib) hpo hsf hfg he hR hd hout' htext
  -- the results
  have hnames := results_nodup hw (a := a) (items := items) hnd hfile hg.keys
  have e1 : o.groups.flatMap (groupResults w a items o) =
      (o.groups.map Prod.fst).flatMap (fun k => groupResults w a items o (groupOf items o.files k)) := by
    conv => lhs; rw [groups_eq hg]
    rw [List.flatMap_map]
  rw [← e1] at hnames
  generalize hrs : o.groups.flatMap (groupResults w a items o) = rs at *
  have hfn : ∀ r ∈ rs, ∀ ds, r.2 = .ok ds → ∀ d ∈ ds, d.filename = r.1 := by
    intro r hr ds hds d hd
    rw [← hrs] at hr
    obtain ⟨k, _, hr⟩ := List.mem_flatMap.mp hr
    obtain ⟨cfg, _, f, _, rfl⟩ := mem_groupResults hr
    exact fileResult_filename hds d hd
  have hres : fileResult w (s.getD defaultSettings) cfg (o.pkg gr.1) gr.2 f ∈ rs := by
    rw [← hrs]
    refine List.mem_flatMap.mpr ⟨gr, hgin, ?_⟩
    unfold groupResults runGroup
    rw [hc]
    simp only
    rw [hg1, ← hseq]
    exact List.mem_map.mpr ⟨f, hfg, rfl⟩
  have hchk : fileResult w (s.getD defaultSettings) cfg (o.pkg gr.1) gr.2 f =
      (relText w.cwd f, getChecks (w.lints (s.getD defaultSettings)) (analysisOf w (s.getD defaultSettings) cfg (o.pkg gr.1) gr.2 f) cfg
        (relText w.cwd f) content) := by
    unfold fileResult lintOnly
    rw [htext]
    rfl
  rw [hchk] at hres
  have hed : editorLint w oe f content enc = lintDocument (w.lints (s.getD defaultSettings)) (editorContext w oe f s cfg) content enc := by
    unfold editorLint
    rw [hecfg]
    simp only [hex]
    rfl
  have hctx : editorLint w oe f content enc =
      (match getChecks (w.lints (s.getD defaultSettings)) (analysisOf w (s.getD defaultSettings) cfg (o.pkg gr.1) gr.2 f) cfg (relText w.cwd f) content with
      | .error .panic => .panic
      | .error _ => .err
      | .ok ds => convertAll content enc (hideUnusedLsp (editorContext w oe f s cfg).unusedNamed (editorContext w oe f s cfg).unusedTotal
        (editorContext w oe f s cfg).threshold ds)) := by
    rw [hed]
    unfold lintDocument
    rw [if_neg (by show ¬ (shouldExcludeBySettings _ _ = true); rw [hex]; simp)]
    rw [← hana]
    rfl
  cases hch : getChecks (w.lints (s.getD defaultSettings)) (analysisOf w (s.getD defaultSettings) cfg (o.pkg gr.1) gr.2 f) cfg
      (relText w.cwd f) content with
  | error e =>
    left
    refine ⟨e, ?_, ?_⟩
    · unfold cliReport at hout
      simp only [RunArgs.checkArgs, hadd, hst, Bool.false_eq_true, if_false, Except.ok.injEq] at hout
      rw [← hout]
      unfold allErrors
      rw [hch] at hres
      exact List.mem_filterMap.mpr ⟨_, hres, rfl⟩
    · rw [hctx, hch]
      cases e <;> simp
  | ok ds =>
    right
    rw [hch] at hres hctx
    have hff := found_file hnames hfn hres
    obtain ⟨t, ht⟩ : ∃ t, Threshold (resolvedItems items) t := ⟨_, thresholdIgnore_spec _⟩
    obtain ⟨hh1, hh2⟩ := C29_hidden_all_or_none (args := a.checkArgs) hst hadd ht hout
    have hdiag : (WithoutUnused (ForFile (relText w.cwd f) out.diagnostics)).Perm (WithoutUnused ds) := by
      rw [← hff]
      by_cases hc1 : ¬ NamedExplicitly a.checkArgs (resolvedItems items) ∧ t < countOf (cs! "unused_function") (found rs)
      · have := ((hh1 hc1).filter (fun d => decide (d.filename = relText w.cwd f))).filter (fun d => decide (d.name ≠ cs! "unused_function"))
        refine List.Perm.trans this (.of_eq ?_)
        unfold WithoutUnused ForFile
        simp only [List.filter_filter]
        apply List.filter_congr
        intro d _
        by_cases h1 : d.name = cs! "unused_function" <;> simp [h1]
      · have hc2 : NamedExplicitly a.checkArgs (resolvedItems items) ∨ countOf (cs! "unused_function") (found rs) ≤ t := by
          rcases Classical.em (NamedExplicitly a.checkArgs (resolvedItems items)) with h | h
          · exact .inl h
          · exact .inr (Nat.le_of_not_lt (fun h' => hc1 ⟨h, h'⟩))
        exact ((hh2 hc2).filter _).filter _
    refine ⟨hideUnusedLsp (editorContext w oe f s cfg).unusedNamed (editorContext w oe f s cfg).unusedTotal
        (editorContext w oe f s cfg).threshold ds, ?_, ?_, ?_⟩
    · rw [hide_without]
      exact hdiag.symm
    · rintro ⟨t', l, hst', hsel, hl⟩
      have hnamed : (editorContext w oe f s cfg).unusedNamed = true := by
        show editorNamed s = true
        rw [hst']
        unfold editorNamed
        simp only [List.any_eq_true]
        refine ⟨cs! "unused_function", ?_, decide_eq_true rfl⟩
        rw [List.mem_append]
        rcases hsel with h | h
        · left; rw [h]; exact hl
        · right; rw [h]; exact hl
      have hn : NamedExplicitly a.checkArgs (resolvedItems items) := by
        obtain ⟨d, hd⟩ := groupSettings_mem (hseq.symm.trans hst')
        exact .inr ⟨_, List.mem_map.mpr ⟨_, hd, rfl⟩, l, hsel, hl⟩
      rw [hnamed]
      unfold hideUnusedLsp
      rw [if_pos rfl, ← hff]
      exact ((hh2 (.inl hn)).filter _).symm
    · intro hcut
      rw [hctx]
      exact convertAll_ok hcut

/-! ## `unused_function` in the editor -/

theorem mem_eraseDups_nodup {α} [BEq α] [LawfulBEq α] : ∀ (n : Nat) (l : List α), l.length ≤ n → l.eraseDups.Nodup := by
  intro n
  induction n with
  | zero => intro l h; rw [List.length_eq_zero_iff.mp (Nat.le_zero.mp h)]; simp
  | succ n ih =>
    intro l h
    cases l with
    | nil => simp
    | cons a l =>
      rw [List.eraseDups_cons, List.nodup_cons]
      refine ⟨?_, ih _ (Nat.le_trans (List.length_filter_le _ _) (by simpa using h))⟩
      rw [List.mem_eraseDups, List.mem_filter]
      simp

theorem sum_filter_pos {α} (g : α → Nat) : ∀ l : List α, (l.map g).sum = ((l.filter (fun a => decide (g a ≠ 0))).map g).sum
  | [] => rfl
  | a :: l => by
    rw [List.map_cons, List.sum_cons, List.filter_cons, sum_filter_pos g l]
    by_cases h : g a = 0
    · simp [h]
    · simp [h]

theorem perm_sum {l l' : List Nat} (h : l.Perm l') : l.sum = l'.sum := by
  induction h with
  | nil => rfl
  | cons a _ ih => simp [ih]
  | swap a b l => simp; omega
  | trans _ _ h1 h2 => exact h1.trans h2

theorem editorNamed_iff {s : Option JarlSettings} : editorNamed s = true ↔ NamesUnused s := by
  unfold editorNamed NamesUnused
  cases s with
  | none => simp
  | some x =>
    simp only [List.any_eq_true, List.mem_append, decide_eq_true_eq, Option.some.injEq]
    constructor
    · rintro ⟨n, hn, rfl⟩
      rcases hn with hn | hn
      · cases hs : x.linter.select with
        | none => rw [hs] at hn; cases hn
        | some l => rw [hs] at hn; exact ⟨x, l, rfl, .inl hs, hn⟩
      · cases hs : x.linter.extendSelect with
        | none => rw [hs] at hn; cases hn
        | some l => rw [hs] at hn; exact ⟨x, l, rfl, .inr hs, hn⟩
    · rintro ⟨y, l, rfl, h | h, hl⟩
      · exact ⟨_, .inl (by rw [h]; exact hl), rfl⟩
      · exact ⟨_, .inr (by rw [h]; exact hl), rfl⟩

/-- The number the editor compares with the threshold: the reports of all files of the package. -/
theorem editorTotal {w : FileWorld} {s : JarlSettings} {cfg : Config} {o : PkgOrder} {f : DPath} {paths : List DPath}
    (hsib : siblingRFiles w f = some paths) {l : List DPath}
    (hl : Enumerates l (fun p => (analysisOf w s cfg o paths p).unused [] ≠ [])) :
    (editorAnalysis w s cfg o f).2 = (l.map (fun p => ((analysisOf w s cfg o paths p).unused []).length)).sum := by
  unfold editorAnalysis
  rw [hsib]
  simp only [analysisOf, List.length_map]
  rw [sum_filter_pos]
  apply perm_sum
  apply List.Perm.map
  classical
  apply (List.perm_ext_iff_of_nodup (List.Nodup.sublist List.filter_sublist (mem_eraseDups_nodup _ _ (Nat.le_refl _))) hl.1).mpr
  intro p
  rw [hl.2, List.mem_filter, List.mem_eraseDups]
  have e1 : (analysisOf w s cfg o paths p).unused [] ≠ [] ↔ entryAfter p (unusedMap w s cfg o paths) ≠ [] := by
    simp [analysisOf]
  refine Iff.trans ?_ e1.symm
  constructor
  · rintro ⟨_, h⟩ e
    rw [e] at h
    simp at h
  · intro h
    refine ⟨?_, by simpa using h⟩
    apply Classical.byContradiction
    intro hno
    apply h
    rw [entryAfter_filter]
    have : (unusedMap w s cfg o paths).filter (fun op => op.path = p) = [] := by
      rw [List.filter_eq_nil_iff]
      intro op hop he
      apply hno
      refine List.mem_map.mpr ⟨op, hop, ?_⟩
      have he : op.path = p := by simpa using he
      rw [← he]
      cases op <;> rfl
    rw [this]; rfl

/-- **C73** (what the editor hides). For a file of an R package: the reports of `unused_function` are hidden exactly if the settings do not name the rule and the
package (all its files, not only the open one) has more of them than `threshold-ignore`; all other reports are shown. -/
theorem C73_editor_hides {w : FileWorld} {f : DPath} {s : Option JarlSettings} {cfg : Config} {paths : List DPath} {o : PkgOrder} {content : Str} {enc : Enc}
    (hcfg : editorConfig w f = some (s, .ok cfg)) (hex : shouldExcludeBySettings ('/' :: joinPath f) (s.map excludeOf) = false)
    (hsib : siblingRFiles w f = some paths) {ds : List Diagnostic}
    (hds : getChecks (w.lints (s.getD defaultSettings)) (analysisOf w (s.getD defaultSettings) cfg o paths f) cfg (relText w.cwd f) content = .ok ds)
    (hcut : ∀ d ∈ ds, CutsAt content d.range.start d.range.stop) {t : Nat} (ht : ThresholdOf s t) {l : List DPath}
    (hl : Enumerates l (fun p => (analysisOf w (s.getD defaultSettings) cfg o paths p).unused [] ≠ [])) :
    ∃ xs, editorLint w o f content enc = .ok xs ∧
      ((NamesUnused s ∨ (l.map (fun p => ((analysisOf w (s.getD defaultSettings) cfg o paths p).unused []).length)).sum ≤ t) → Each (Shows enc content) ds xs) ∧
      (¬ NamesUnused s ∧ t < (l.map (fun p => ((analysisOf w (s.getD defaultSettings) cfg o paths p).unused []).length)).sum →
        Each (Shows enc content) (WithoutUnused ds) xs) := by
  have htot := editorTotal hsib hl
  have hth : (editorContext w o f s cfg).threshold = t := by
    rcases ht with ⟨rfl, rfl⟩ | ⟨x, rfl, rfl⟩ <;> rfl
  have hpkg : (editorContext w o f s cfg).pkg = analysisOf w (s.getD defaultSettings) cfg o paths f := by
    show (editorAnalysis w (s.getD defaultSettings) cfg o f).1 = _
    unfold editorAnalysis
    rw [hsib]
  obtain ⟨xs, h1, h2⟩ := C44_diagnostics (w.lints (s.getD defaultSettings)) (editorContext w o f s cfg) content enc ds hex (by
    rw [hpkg]; exact hds) hcut
  refine ⟨xs, ?_, ?_, ?_⟩
  · unfold editorLint
    rw [hcfg]
    simp only [hex]
    exact h1
  · intro h
    rw [List.filter_eq_self.mpr] at h2
    · exact h2
    · intro d _
      apply decide_eq_true
      rintro ⟨_, h3, h4⟩
      rcases h with h | h
      · have : (editorContext w o f s cfg).unusedNamed = true := editorNamed_iff.mpr h
        rw [this] at h3; cases h3
      · rw [hth, show (editorContext w o f s cfg).unusedTotal = _ from htot] at h4
        omega
  · rintro ⟨h3, h4⟩
    have e : ds.filter (fun d => ¬ (d.name = Rule.unusedFunction.name ∧ (editorContext w o f s cfg).unusedNamed = false ∧
          (editorContext w o f s cfg).threshold < (editorContext w o f s cfg).unusedTotal)) = WithoutUnused ds := by
      apply List.filter_congr
      intro d _
      have hn : (editorContext w o f s cfg).unusedNamed = false := by
        cases hb : (editorContext w o f s cfg).unusedNamed with
        | false => rfl
        | true => exact absurd (editorNamed_iff.mp hb) h3
      have hlt : (editorContext w o f s cfg).threshold < (editorContext w o f s cfg).unusedTotal := by
        rw [hth, show (editorContext w o f s cfg).unusedTotal = _ from htot]; exact h4
      simp only [hn, hlt, and_true]
      rfl
    rw [e] at h2
    exact h2

end Jarl
