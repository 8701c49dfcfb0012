import Verif.Props.PackageUnused
import Verif.Run
/-!
# The analysis of packages does not depend on the order of files and packages
-/
namespace Jarl
open Spec

/-! ## Lists -/

theorem perm_all_eq {α} {l l' : List α} (h : l.Perm l') (he : ∀ a ∈ l, ∀ b ∈ l, a = b) : l = l' := by
  cases l with
  | nil => exact h.nil_eq
  | cons a as =>
    have h1 : ∀ b ∈ a :: as, b = a := fun b hb => he b hb a (by simp)
    have h2 : ∀ b ∈ l', b = a := fun b hb => h1 b (h.mem_iff.mpr hb)
    rw [List.eq_replicate_of_mem h1, List.eq_replicate_of_mem h2, h.length_eq]

theorem flatMap_filter_nonempty {α β} (g : α → List β) (l : List α) :
    l.flatMap g = (l.filter (fun k => !(g k).isEmpty)).flatMap g := by
  induction l with
  | nil => rfl
  | cons a l ih =>
    rw [List.flatMap_cons, List.filter_cons, ih]
    cases h : g a with
    | nil => simp [h]
    | cons x xs => simp [h]

theorem flatMap_perm_unique {α β} {g : α → List β} {l l' : List α} (h : l.Perm l')
    (hu : ∀ a ∈ l, ∀ b ∈ l, g a ≠ [] → g b ≠ [] → a = b) : l.flatMap g = l'.flatMap g := by
  rw [flatMap_filter_nonempty g l, flatMap_filter_nonempty g l']
  rw [perm_all_eq (h.filter _)]
  intro a ha b hb
  rw [List.mem_filter] at ha hb
  refine hu a ha.1 b hb.1 ?_ ?_
  · intro e; simp [e] at ha
  · intro e; simp [e] at hb

theorem enumerates_perm {α} {l l' : List α} {P Q : α → Prop} (h : Enumerates l P) (h' : Enumerates l' Q) (hpq : ∀ x, P x ↔ Q x) : l.Perm l' := by
  classical
  apply (List.perm_ext_iff_of_nodup h.1 h'.1).mpr
  intro x
  rw [h.2, h'.2, hpq]

/-! ## The scanned files -/

/-- A scanned file of R/ is the scan of its path. -/
theorem shared_r {alnum : Char → Bool} {unused : Bool} {fs : PkgFs} {roots paths : List DPath} {f : SharedFile}
    (hf : f ∈ sharedData alnum unused fs roots paths) (hr : f.scope = .r) : scanFile alnum unused fs f.path .r = some f := by
  unfold sharedData at hf
  simp only [List.mem_append, List.mem_filterMap] at hf
  rcases hf with (⟨q, _, hq⟩ | ⟨q, _, hq⟩) | hf
  · obtain ⟨_, _, c, _, he⟩ := scanFile_r.mp hq
    have : f.path = q := by rw [he]
    rw [this]; exact hq
  · obtain ⟨_, _, c, _, he⟩ := scanFile_r.mp hq
    have : f.path = q := by rw [he]
    rw [this]; exact hq
  · split at hf
    · obtain ⟨q, _, hq⟩ := List.mem_filterMap.mp hf
      have := (scanFile_other (fileScope_not_r q) hq).1
      exact absurd (this.symm.trans hr) (fileScope_not_r q)
    · cases hf

/-- The other scanned files are the scans of their paths. -/
theorem shared_other {alnum : Char → Bool} {unused : Bool} {fs : PkgFs} {roots paths : List DPath} {f : SharedFile}
    (hf : f ∈ sharedData alnum unused fs roots paths) (hr : f.scope ≠ .r) :
    scanFile alnum unused fs f.path (fileScope f.path) = some f := by
  unfold sharedData at hf
  simp only [List.mem_append, List.mem_filterMap] at hf
  rcases hf with (⟨q, _, hq⟩ | ⟨q, _, hq⟩) | hf
  · obtain ⟨_, _, c, _, he⟩ := scanFile_r.mp hq
    exact absurd (by rw [he]) hr
  · obtain ⟨_, _, c, _, he⟩ := scanFile_r.mp hq
    exact absurd (by rw [he]) hr
  · split at hf
    · obtain ⟨q, _, hq⟩ := List.mem_filterMap.mp hf
      have := (scanFile_other (fileScope_not_r q) hq).2
      rw [this]; exact hq
    · cases hf

theorem shared_unique {alnum : Char → Bool} {unused : Bool} {fs : PkgFs} {roots paths : List DPath} {f g : SharedFile}
    (hf : f ∈ sharedData alnum unused fs roots paths) (hg : g ∈ sharedData alnum unused fs roots paths) (hp : f.path = g.path)
    (hs : f.scope = g.scope) : f = g := by
  by_cases hr : f.scope = .r
  · have h1 := shared_r hf hr
    have h2 := shared_r hg (hs ▸ hr)
    rw [hp, h2] at h1
    exact (Option.some.inj h1).symm
  · have h1 := shared_other hf hr
    have h2 := shared_other hg (hs ▸ hr)
    rw [hp, h2] at h1
    exact (Option.some.inj h1).symm

theorem excludedR_congr {fs : PkgFs} {g g' : List DPath} (h : ∀ p, p ∈ g ↔ p ∈ g') (r : DPath) : excludedR fs g r = excludedR fs g' r := by
  unfold excludedR
  apply List.filter_congr
  intro p _
  have := h p
  by_cases hp : p ∈ g
  · simp [hp, this.mp hp]
  · have hp' : p ∉ g' := fun h' => hp (this.mpr h')
    simp [hp, hp']

theorem packageRoots_congr {fs : PkgFs} {paths paths' : List DPath} (h : paths.Perm paths') (r : DPath) :
    r ∈ packageRoots fs paths ↔ r ∈ packageRoots fs paths' := by
  rw [mem_packageRoots, mem_packageRoots]
  constructor
  · rintro ⟨p, h1, h2⟩; exact ⟨p, h.mem_iff.mp h1, h2⟩
  · rintro ⟨p, h1, h2⟩; exact ⟨p, h.mem_iff.mpr h1, h2⟩

/-- Permuted files and packages: the same scanned files. -/
theorem sharedData_perm {alnum : Char → Bool} {unused : Bool} {fs : PkgFs} {roots roots' paths paths' : List DPath}
    (hp : paths.Perm paths') (hr : roots.Perm roots') :
    (sharedData alnum unused fs roots paths).Perm (sharedData alnum unused fs roots' paths') := by
  unfold sharedData
  have hg : (paths.filter (inPackageR fs)).Perm (paths'.filter (inPackageR fs)) := hp.filter _
  refine .append (.append (hg.filterMap _) ?_) ?_
  · apply List.Perm.filterMap
    rw [show excludedR fs (paths.filter (inPackageR fs)) = excludedR fs (paths'.filter (inPackageR fs)) from
      funext fun r => excludedR_congr (fun p => hg.mem_iff) r]
    exact hr.flatMap_right _
  · split
    · exact (hr.flatMap_right _).filterMap _
    · exact .refl _

/-! ## Duplicates -/

theorem lastEntry_append {α} (p : DPath) (a b : List (DPath × α)) : lastEntry p (a ++ b) = (lastEntry p b).or (lastEntry p a) := by
  unfold lastEntry
  rw [List.reverse_append, List.find?_append]
  cases List.find? (fun e => decide (e.1 = p)) b.reverse <;> simp

theorem lastEntry_none {α} {p : DPath} {m : List (DPath × α)} (h : ∀ l, (p, l) ∉ m) : lastEntry p m = none := by
  unfold lastEntry
  rw [Option.map_eq_none_iff, List.find?_eq_none]
  rintro ⟨q, l⟩ hm hq
  simp at hm hq
  subst hq
  exact h l hm

theorem lastEntry_filter {α} (p : DPath) (m : List (DPath × α)) : lastEntry p m = lastEntry p (m.filter (fun e => e.1 = p)) := by
  unfold lastEntry
  rw [← List.filter_reverse, List.find?_filter]
  simp

theorem mergeSort_perm_eq {α} {le : α → α → Bool} (htot : ∀ a b, (le a b || le b a) = true) (htr : ∀ a b c, le a b = true → le b c = true → le a c = true)
    {l l' : List α} (h : l.Perm l') (hanti : ∀ a ∈ l, ∀ b ∈ l, le a b = true → le b a = true → a = b) : l.mergeSort le = l'.mergeSort le := by
  have h1 := List.pairwise_mergeSort (le := le) htr htot l
  have h2 := List.pairwise_mergeSort (le := le) htr htot l'
  refine List.Perm.eq_of_pairwise ?_ h1 h2 ((List.mergeSort_perm l le).trans (h.trans (List.mergeSort_perm l' le).symm))
  intro a b ha hb hab hba
  exact hanti a ((List.mergeSort_perm l le).mem_iff.mp ha) b (h.mem_iff.mpr ((List.mergeSort_perm l' le).mem_iff.mp hb)) hab hba

/-- The sorted files of one directory. -/
def dirFiles (le : DPath → DPath → Bool) (d : DPath) (data : List SharedFile) : List SharedFile :=
  (data.filter (fun f => f.scope = .r && f.rootKey = d)).mergeSort (fun a b => le a.path b.path)

/-- What is reported for a file depends on the files of its directory only. -/
theorem dup_entry {le : DPath → DPath → Bool} {keys : List DPath} {data : List SharedFile}
    (hkeys : Enumerates keys (fun k => ∃ f ∈ data, f.scope = .r ∧ f.rootKey = k))
    (hR : ∀ f ∈ data, f.scope = .r → f.rootKey = f.path.dropLast) (p : DPath) :
    reportsFor p (computeDuplicates le keys data) = reportsFor p (dupFiles [] (dirFiles le p.dropLast data)) := by
  have hother : ∀ k, k ≠ p.dropLast → ∀ l, (p, l) ∉ dupFiles [] (dirFiles le k data) := by
    intro k hk l hl
    obtain ⟨f, hf, hfp⟩ := List.mem_map.mp (dupFiles_paths _ _ _ _ hl)
    have hf := (List.mergeSort_perm _ _).mem_iff.mp hf
    rw [List.mem_filter] at hf
    simp only [Bool.and_eq_true, decide_eq_true_eq] at hf
    exact hk (by rw [← hf.2.2, hR f hf.1 hf.2.1, hfp])
  have main : ∀ keys : List DPath, keys.Nodup → lastEntry p (keys.flatMap (fun k => dupFiles [] (dirFiles le k data))) =
      if p.dropLast ∈ keys then lastEntry p (dupFiles [] (dirFiles le p.dropLast data)) else none := by
    intro keys hn
    induction keys with
    | nil => rfl
    | cons k ks ih =>
      rw [List.nodup_cons] at hn
      rw [List.flatMap_cons, lastEntry_append, ih hn.2]
      by_cases hk : k = p.dropLast
      · subst hk
        simp [hn.1]
      · rw [lastEntry_none (hother k hk)]
        simp [Ne.symm hk]
  have hc : computeDuplicates le keys data = keys.flatMap (fun k => dupFiles [] (dirFiles le k data)) := rfl
  unfold reportsFor
  rw [hc, main keys hkeys.1]
  split
  · rfl
  · rename_i hk
    have : data.filter (fun f => f.scope = .r && f.rootKey = p.dropLast) = [] := by
      rw [List.filter_eq_nil_iff]
      intro f hf h
      simp only [Bool.and_eq_true, decide_eq_true_eq] at h
      exact hk ((hkeys.2 _).mpr ⟨f, hf, h⟩)
    unfold dirFiles
    rw [this, List.mergeSort_nil]
    rfl

theorem dirFiles_perm {le : DPath → DPath → Bool} (ho : TotalOrder le) {d : DPath} {data data' : List SharedFile}
    (hp : (data.filter (fun f => f.scope = .r && f.rootKey = d)).Perm (data'.filter (fun f => f.scope = .r && f.rootKey = d)))
    (hu : ∀ f ∈ data, ∀ g ∈ data, f.path = g.path → f.scope = g.scope → f = g) : dirFiles le d data = dirFiles le d data' := by
  unfold dirFiles
  apply mergeSort_perm_eq _ _ hp
  · intro a ha b hb h1 h2
    simp only [List.mem_filter, Bool.and_eq_true, decide_eq_true_eq] at ha hb
    exact hu a ha.1 b hb.1 (ho.antisymm _ _ h1 h2) (ha.2.1.trans hb.2.1.symm)
  · intro a b
    rw [Bool.or_eq_true]
    exact ho.total _ _
  · intro a b c; exact ho.trans _ _ _

theorem shared_key {alnum : Char → Bool} {unused : Bool} {fs : PkgFs} {roots paths : List DPath} :
    ∀ f ∈ sharedData alnum unused fs roots paths, f.scope = .r → f.rootKey = f.path.dropLast := by
  intro f hf hr
  obtain ⟨_, _, c, _, he⟩ := scanFile_r.mp (shared_r hf hr)
  rw [he]

/-! ## Unused functions -/

theorem entryAfter_filter {α} (p : DPath) (ops : List (MapOp α)) : entryAfter p ops = entryAfter p (ops.filter (fun o => o.path = p)) := by
  unfold entryAfter
  generalize ([] : List α) = acc
  induction ops generalizing acc with
  | nil => rfl
  | cons o os ih =>
    rw [List.foldl_cons, List.filter_cons]
    by_cases h : o.path = p
    · simp only [h, decide_true, if_true, List.foldl_cons]
      exact ih _
    · have : applyOp p acc o = acc := by
        cases o with
        | insert q l => exact if_neg h
        | extend q l => exact if_neg h
      simp only [h, decide_false, Bool.false_eq_true, if_false, this]
      exact ih _

theorem occurrencesIn_perm {fs fs' : List SharedFile} (h : fs.Perm fs') (n : Str) : occurrencesIn fs n = occurrencesIn fs' n := by
  unfold occurrencesIn
  exact (h.flatMap_right _).count_eq _

theorem definitionsIn_perm {fs fs' : List SharedFile} (h : fs.Perm fs') (n : Str) : definitionsIn fs n = definitionsIn fs' n := by
  unfold definitionsIn
  exact ((h.flatMap_right _).map _).count_eq _

theorem contains_congr {α} [BEq α] [LawfulBEq α] {l l' : List α} (h : ∀ x, x ∈ l ↔ x ∈ l') (x : α) : l.contains x = l'.contains x := by
  rw [Bool.eq_iff_iff, List.contains_iff_mem, List.contains_iff_mem, h]

theorem probableS3_congr {l l' : List Str} (h : ∀ x, x ∈ l ↔ x ∈ l') : ∀ (s pre : Str), probableS3 l pre s = probableS3 l' pre s
  | [], _ => rfl
  | c :: cs, pre => by
    unfold probableS3
    rw [contains_congr h, probableS3_congr h cs]

theorem namespaceLine_congr (re : Str → Option (Str → Bool)) {all all' : List Str} (h : ∀ x, x ∈ all ↔ x ∈ all') (line x : Str) :
    x ∈ namespaceLine re all line ↔ x ∈ namespaceLine re all' line := by
  unfold namespaceLine
  simp only
  split
  · rfl
  · split
    · rfl
    · split
      · unfold patternNames
        split
        · rw [List.mem_filter, List.mem_filter, h]
        · rfl
      · rfl

theorem namespaceExports_congr (re : Str → Option (Str → Bool)) {all all' : List Str} (h : ∀ x, x ∈ all ↔ x ∈ all') (ns x : Str) :
    x ∈ namespaceExports re all ns ↔ x ∈ namespaceExports re all' ns := by
  unfold namespaceExports
  rw [List.mem_flatMap, List.mem_flatMap]
  simp only [namespaceLine_congr re h]

theorem unusedInR_perm (env : UnusedEnv) {exports exports' : List Str} (he : ∀ x, x ∈ exports ↔ x ∈ exports')
    {rfiles rfiles' extra extra' : List SharedFile} (hr : rfiles.Perm rfiles') (hx : extra.Perm extra') :
    unusedInR env exports rfiles extra = unusedInR env exports' rfiles' extra' := by
  funext a
  unfold unusedInR
  rw [contains_congr he, occurrencesIn_perm hr, definitionsIn_perm hr,
    probableS3_congr (fun x => (hr.flatMap_right (fun f : SharedFile => f.symbols)).mem_iff),
    contains_congr (fun x => (hx.flatMap_right (fun f : SharedFile => f.symbols)).mem_iff)]

theorem unusedInScope_perm (env : UnusedEnv) {files files' : List SharedFile} (h : files.Perm files') :
    unusedInScope env files = unusedInScope env files' := by
  funext a
  unfold unusedInScope
  rw [occurrencesIn_perm h, definitionsIn_perm h]

theorem nonEmptyOp_filter {α} {mk : DPath → List α → MapOp α} (hmk : ∀ p l, (mk p l).path = p) (p q : DPath) (l : List α) :
    (nonEmptyOp mk q l).filter (fun o => o.path = p) = if q = p then nonEmptyOp mk q l else [] := by
  cases l with
  | nil => simp [nonEmptyOp]
  | cons a as =>
    unfold nonEmptyOp
    simp only [List.filter_cons, hmk, List.filter_nil]
    by_cases h : q = p <;> simp [h]

theorem flatMap_ops_filter {mk : DPath → List UnusedReport → MapOp UnusedReport} (hmk : ∀ p l, (mk p l).path = p) (p : DPath)
    (rep : SharedFile → List UnusedReport) (files : List SharedFile) :
    (files.flatMap (fun f => nonEmptyOp mk f.path (rep f))).filter (fun o => o.path = p) =
    (files.filter (fun f => f.path = p)).flatMap (fun f => nonEmptyOp mk f.path (rep f)) := by
  induction files with
  | nil => rfl
  | cons f fs ih =>
    rw [List.flatMap_cons, List.filter_append, ih, List.filter_cons, nonEmptyOp_filter hmk]
    by_cases h : f.path = p <;> simp [h]

/-- The changes of the entry of `p`, for a permuted package. -/
theorem unusedPackage_perm {env : UnusedEnv} {nsf : DPath → Option Str} {files files' : List SharedFile} (h : files.Perm files') (p : DPath)
    (hu : ∀ f ∈ files, ∀ g ∈ files, f.path = g.path → f.scope = g.scope → f = g)
    (hroot : ∀ f ∈ files, ∀ g ∈ files, f.scope = .r → g.scope = .r → f.pkgRoot = g.pkgRoot) :
    (unusedPackage env nsf files).filter (fun o => o.path = p) = (unusedPackage env nsf files').filter (fun o => o.path = p) := by
  have hr : (files.filter (fun f => f.scope = .r)).Perm (files'.filter (fun f => f.scope = .r)) := h.filter _
  have hone : ∀ sc, (files.filter (fun f => f.scope = sc)).filter (fun f => f.path = p) =
      (files'.filter (fun f => f.scope = sc)).filter (fun f => f.path = p) := by
    intro sc
    apply perm_all_eq ((h.filter _).filter _)
    intro a ha b hb
    simp only [List.mem_filter, decide_eq_true_eq] at ha hb
    exact hu a ha.1.1 b hb.1.1 (ha.2.trans hb.2.symm) (ha.1.2.trans hb.1.2.symm)
  unfold unusedPackage
  cases hf : files.filter (fun f => f.scope = .r) with
  | nil =>
    rw [hf] at hr
    rw [← hr.nil_eq]
  | cons first rest =>
    cases hf' : files'.filter (fun f => f.scope = .r) with
    | nil => rw [hf'] at hr; rw [hr.eq_nil] at hf; cases hf
    | cons first' rest' =>
      have hm : first ∈ files ∧ first.scope = .r := by
        have : first ∈ files.filter (fun f => f.scope = .r) := by rw [hf]; simp
        simpa using this
      have hm' : first' ∈ files ∧ first'.scope = .r := by
        have : first' ∈ files'.filter (fun f => f.scope = .r) := by rw [hf']; simp
        have := hr.mem_iff.mpr this
        simpa using this
      have hpr : first'.pkgRoot = first.pkgRoot := hroot _ hm'.1 _ hm.1 hm'.2 hm.2
      simp only [hpr]
      cases nsf first.pkgRoot with
      | none => rfl
      | some ns =>
        simp only
        rw [← hf, ← hf']
        have hex : ∀ x, x ∈ namespaceExports env.re (((files.filter (fun f => f.scope = .r)).flatMap (·.assigns)).map (·.name)) ns ↔
            x ∈ namespaceExports env.re (((files'.filter (fun f => f.scope = .r)).flatMap (·.assigns)).map (·.name)) ns :=
          namespaceExports_congr _ (fun x => ((hr.flatMap_right _).map _).mem_iff) _
        rw [unusedInR_perm env hex hr (h.filter (fun f => f.scope ≠ .r)),
          unusedInScope_perm env (h.filter (fun f => f.scope = .tests)),
          unusedInScope_perm env (h.filter (fun f => f.scope = .inst))]
        rw [List.filter_append, List.filter_append, List.filter_append, List.filter_append]
        rw [flatMap_ops_filter (fun _ _ => rfl), flatMap_ops_filter (fun _ _ => rfl), flatMap_ops_filter (fun _ _ => rfl),
          flatMap_ops_filter (fun _ _ => rfl), flatMap_ops_filter (fun _ _ => rfl), flatMap_ops_filter (fun _ _ => rfl)]
        rw [hone, hone, hone]

theorem computeUnused_filter (env : UnusedEnv) (nsf : DPath → Option Str) (keys : List DPath) (data : List SharedFile) (p : DPath) :
    (computeUnused env nsf keys data).filter (fun o => o.path = p) =
    keys.flatMap (fun k => (unusedPackage env nsf (data.filter (fun f => f.rootKey = k))).filter (fun o => o.path = p)) := by
  unfold computeUnused
  rw [List.filter_flatMap]

/-- A package that changes the entry of `p`: its R directory contains a given file, and `p` is one of its files. -/
theorem active_key {alnum : Char → Bool} {env : UnusedEnv} {fs : PkgFs} {roots paths : List DPath} (hw : PkgWorld fs paths)
    (hroots : Enumerates roots (· ∈ packageRoots fs paths)) {k p : DPath}
    (h : (unusedPackage env (namespaceContents fs roots) ((sharedData alnum true fs roots paths).filter (fun f => f.rootKey = k))).filter
      (fun o => o.path = p) ≠ []) :
    (∃ g ∈ paths, PackageFile fs g ∧ g.dropLast = k) ∧ ∃ f ∈ sharedData alnum true fs roots paths, f.rootKey = k ∧ f.path = p := by
  obtain ⟨op, hop⟩ := List.exists_mem_of_ne_nil _ h
  rw [List.mem_filter] at hop
  obtain ⟨hop, hpath⟩ := hop
  obtain ⟨first, rest, ns, hf, hns, htouch⟩ := mem_unusedPackage.mp hop
  have hp' : op.path = p := by simpa using hpath
  refine ⟨?_, ?_⟩
  · have hm : first ∈ (sharedData alnum true fs roots paths).filter (fun f => f.scope = .r && f.rootKey = k) := by
      rw [← rfiles_eq, hf]; simp
    have hmd := hm
    rw [List.mem_filter] at hmd
    simp only [Bool.and_eq_true, decide_eq_true_eq] at hmd
    obtain ⟨_, _, c, _, he⟩ := scanFile_r.mp (shared_r hmd.1 hmd.2.1)
    have hkey : first.path.dropLast = k := by rw [← hmd.2.2, he]
    have hroot : first.pkgRoot = k.dropLast := by rw [he, ← hkey]
    have hin : k.dropLast ∈ roots := by
      rw [hroot] at hns
      unfold namespaceContents at hns
      split at hns
      · assumption
      · cases hns
    rw [sharedData_r] at hm
    simp only [List.mem_filter, List.mem_filterMap, List.mem_append, List.mem_flatMap] at hm
    obtain ⟨⟨q, hq, hs⟩, _⟩ := hm
    obtain ⟨_, _, c', _, he'⟩ := scanFile_r.mp hs
    have hqp : q = first.path := by rw [he']
    subst hqp
    rcases hq with ⟨h1, h2⟩ | ⟨r, hr, hq⟩
    · exact ⟨first.path, h1, packageFile_iff.mp h2, hkey⟩
    · obtain ⟨hb, _⟩ := mem_excludedR.mp hq
      obtain ⟨hpre, hne⟩ := hw.below_under _ _ hb
      have hpre := prefix_dropLast hpre hne
      rw [hkey] at hpre
      obtain ⟨g, hg, hgp, hgd⟩ := root_dir ((hroots.2 r).mp hr)
      by_cases heq : r ++ [['R']] = k
      · exact ⟨g, hg, hgp, by rw [hgd, heq]⟩
      · exfalso
        have hpre2 := prefix_dropLast hpre heq
        obtain ⟨g', hg', hgp', hgd'⟩ := root_dir ((hroots.2 _).mp hin)
        have := hw.apart g hg g' hg' hgp hgp' (by rw [hgd, hgd']; exact hpre2.trans (List.prefix_append _ _))
        rw [hgd, hgd'] at this
        have h1 := congrArg List.length this
        have h2 := hpre2.length_le
        simp at h1 h2
        omega
  · rcases htouch with ⟨f, hf', _, _, he⟩ | ⟨sc, _, f, hf', _, _, he⟩
    · rw [List.mem_filter] at hf'
      refine ⟨f, hf'.1, by simpa using hf'.2, ?_⟩
      rw [← hp', he]; rfl
    · rw [List.mem_filter] at hf'
      refine ⟨f, hf'.1, by simpa using hf'.2, ?_⟩
      rw [← hp', he]; rfl

/-- At most one package changes the entry of a file. -/
theorem active_unique {alnum : Char → Bool} {env : UnusedEnv} {fs : PkgFs} {roots paths : List DPath} (hw : PkgWorld fs paths)
    (hroots : Enumerates roots (· ∈ packageRoots fs paths)) {k1 k2 p : DPath}
    (h1 : (unusedPackage env (namespaceContents fs roots) ((sharedData alnum true fs roots paths).filter (fun f => f.rootKey = k1))).filter
      (fun o => o.path = p) ≠ [])
    (h2 : (unusedPackage env (namespaceContents fs roots) ((sharedData alnum true fs roots paths).filter (fun f => f.rootKey = k2))).filter
      (fun o => o.path = p) ≠ []) : k1 = k2 := by
  obtain ⟨⟨g1, hg1, hp1, hd1⟩, f1, hf1, hk1, hfp1⟩ := active_key hw hroots h1
  obtain ⟨⟨g2, hg2, hp2, hd2⟩, f2, hf2, hk2, hfp2⟩ := active_key hw hroots h2
  have hother : ∀ {f : SharedFile} {k : DPath}, f ∈ sharedData alnum true fs roots paths → f.scope ≠ .r → f.rootKey = k → f.path = p →
      ∃ root, NearestRoot fs p root ∧ k = root ++ [['R']] := by
    intro f k hf hs hk hp
    obtain ⟨root, c, _, hn, he⟩ := scanFile_extra.mp (shared_other hf hs)
    exact ⟨root, hp ▸ hn, by rw [← hk, he]⟩
  have mixed : ∀ {f f' : SharedFile} {k k' : DPath} {g g' : DPath}, g ∈ paths → PackageFile fs g → g.dropLast = k →
      g' ∈ paths → PackageFile fs g' → g'.dropLast = k' →
      f ∈ sharedData alnum true fs roots paths → f.scope = .r → f.rootKey = k → f.path = p →
      f' ∈ sharedData alnum true fs roots paths → f'.scope ≠ .r → f'.rootKey = k' → f'.path = p → k = k' := by
    intro f f' k k' g g' hg hpg hdg hg' hpg' hdg' hf hs hk hp hf' hs' hk' hp'
    have hkp : k = p.dropLast := by rw [← hk, shared_key f hf hs, hp]
    obtain ⟨root, hn, hk2⟩ := hother hf' hs' hk' hp'
    obtain ⟨_, _, r1, hr1, hdesc⟩ := inPackageR_iff.mp hpg
    rw [hdg] at hr1
    have hpne : p ≠ [] := by rintro rfl; rw [hr1] at hkp; simp at hkp
    have hrp : root <+: p.dropLast := (proper_prefix hpne).mp hn.above
    have hr1p : r1 <+: p.dropLast := by rw [← hkp, hr1]; exact List.prefix_append _ _
    have hlen := hn.closest r1 hdesc ((proper_prefix hpne).mpr hr1p).1 ((proper_prefix hpne).mpr hr1p).2
    rw [← hkp, hr1] at hrp
    rcases prefix_snoc.mp hrp with e | e
    · have := hw.apart g hg g' hg' hpg hpg' (by rw [hdg, hdg', hk2, e, hr1]; exact List.prefix_append _ _)
      rw [hdg, hdg'] at this
      exact this
    · have : root = r1 := e.eq_of_length (Nat.le_antisymm e.length_le hlen)
      rw [hk2, hr1, this]
  by_cases s1 : f1.scope = .r
  · by_cases s2 : f2.scope = .r
    · rw [← hk1, ← hk2, shared_key f1 hf1 s1, shared_key f2 hf2 s2, hfp1, hfp2]
    · exact mixed hg1 hp1 hd1 hg2 hp2 hd2 hf1 s1 hk1 hfp1 hf2 s2 hk2 hfp2
  · by_cases s2 : f2.scope = .r
    · exact (mixed hg2 hp2 hd2 hg1 hp1 hd1 hf2 s2 hk2 hfp2 hf1 s1 hk1 hfp1).symm
    · obtain ⟨r1, hn1, e1⟩ := hother hf1 s1 hk1 hfp1
      obtain ⟨r2, hn2, e2⟩ := hother hf2 s2 hk2 hfp2
      have : r1 = r2 := by
        have a := findPkgRoot_iff.mpr hn1
        rw [findPkgRoot_iff.mpr hn2] at a
        exact (Option.some.inj a).symm
      rw [e1, e2, this]

end Jarl
