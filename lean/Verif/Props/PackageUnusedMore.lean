import Verif.Props.PackageUnused
/-!
# C49: order of the reports, tests, and where the rule is wrong
-/
namespace Jarl
open Spec

/-! ## The reports of a file are in order, whatever the order of the files -/

theorem data_cases {alnum : Char → Bool} {fs : PkgFs} {roots paths : List DPath} {f : SharedFile}
    (hf : f ∈ sharedData alnum true fs roots paths) :
    (f.scope = .r ∧ f.rootKey = f.path.dropLast ∧ ∃ content, fs.read f.path = some content ∧ f.assigns = scanAssigns alnum content ∧
      (PackageFile fs f.path ∧ f.path ∈ paths ∨ ∃ r ∈ roots, f.path ∈ fs.below (r ++ [['R']]))) ∨
    (f.scope ≠ .r ∧ ∃ root content, f.rootKey = root ++ [['R']] ∧ fs.read f.path = some content ∧
      f.assigns = if fileScope f.path = .src then [] else scanAssigns alnum content) := by
  unfold sharedData at hf
  simp only [if_true, List.mem_append, List.mem_filterMap] at hf
  rcases hf with (⟨q, hq0, hq⟩ | ⟨q, hq0, hq⟩) | ⟨q, hq1, hq⟩
  · obtain ⟨_, _, c, hc, rfl⟩ := scanFile_r.mp hq
    obtain ⟨h1, h2⟩ := List.mem_filter.mp hq0
    exact .inl ⟨rfl, rfl, c, hc, rfl, .inl ⟨packageFile_iff.mp h2, h1⟩⟩
  · obtain ⟨_, _, c, hc, rfl⟩ := scanFile_r.mp hq
    obtain ⟨r, h1, h2⟩ := List.mem_flatMap.mp hq0
    exact .inl ⟨rfl, rfl, c, hc, rfl, .inr ⟨r, h1, (mem_excludedR.mp h2).1⟩⟩
  · obtain ⟨root', c, hc, _, rfl⟩ := scanFile_extra.mp hq
    exact .inr ⟨fileScope_not_r _, root', c, rfl, hc, rfl⟩

theorem plain_scope {alnum : Char → Bool} {fs : PkgFs} {roots paths : List DPath} (hroots : Enumerates roots (· ∈ packageRoots fs paths))
    {p : DPath} (hplain : ∀ root' content, ¬ ExtraFile fs paths root' p content) :
    ∀ f ∈ sharedData alnum true fs roots paths, f.path = p → f.scope = .r := by
  intro f hf hfp
  rcases data_cases hf with h | ⟨hsc, root', c, hk, _⟩
  · exact h.1
  · obtain ⟨c, h1, _⟩ := (data_extra (alnum := alnum) hroots root' f).mp ⟨hf, hsc, hk⟩
    rw [hfp] at h1
    exact absurd h1 (hplain root' c)

theorem entry_cases {α} {p : DPath} {ops : List (MapOp α)} (h : ∀ op ∈ ops, op.path = p → ∃ l, op = .insert p l) :
    entryAfter p ops = [] ∨ .insert p (entryAfter p ops) ∈ ops := by
  have aux : ∀ (ops : List (MapOp α)) (acc : List α), (∀ op ∈ ops, op.path = p → ∃ l, op = .insert p l) →
      ops.foldl (applyOp p) acc = acc ∨ .insert p (ops.foldl (applyOp p) acc) ∈ ops := by
    intro ops
    induction ops with
    | nil => intro acc _; exact .inl rfl
    | cons o os ih =>
      intro acc h
      rw [List.foldl_cons]
      by_cases ho : o.path = p
      · obtain ⟨l, rfl⟩ := h o (by simp) ho
        rw [show applyOp p acc (.insert p l) = l by simp [applyOp]]
        rcases ih l (fun op ho => h op (by simp [ho])) with h1 | h1
        · right; rw [h1]; simp
        · right; exact List.mem_cons_of_mem _ h1
      · have : applyOp p acc o = acc := by
          cases o with
          | insert q k => exact if_neg ho
          | extend q k => exact if_neg ho
        rw [this]
        rcases ih acc (fun op ho => h op (by simp [ho])) with h1 | h1
        · exact .inl h1
        · right; exact List.mem_cons_of_mem _ h1
  exact aux ops [] h

theorem unusedReports_sorted {alnum : Char → Bool} {p : Assign → Bool} {f : SharedFile} {content : Str}
    (hf : f.assigns = scanAssigns alnum content) : (unusedReports p f).Pairwise (fun a b => a.range.start < b.range.start) := by
  unfold unusedReports
  rw [List.pairwise_map, hf]
  exact (C48_scan_sorted alnum content).sublist List.filter_sublist

/-- **C49**: the reports of a file are in the order of the text. -/
theorem C49_sorted {alnum : Char → Bool} {env : UnusedEnv} {nsf : DPath → Option Str} {fs : PkgFs} {paths roots keys : List DPath}
    (hroots : Enumerates roots (· ∈ packageRoots fs paths)) {p : DPath}
    (hplain : ∀ root' content, ¬ ExtraFile fs paths root' p content) :
    (entryAfter p (computeUnused env nsf keys (sharedData alnum true fs roots paths))).Pairwise (fun a b => a.range.start < b.range.start) := by
  have key : ∀ op ∈ computeUnused env nsf keys (sharedData alnum true fs roots paths), op.path = p →
      ∃ l, op = .insert p l ∧ l.Pairwise (fun a b => a.range.start < b.range.start) := by
    intro op hop hpath
    obtain ⟨k, _, hop⟩ := List.mem_flatMap.mp hop
    obtain ⟨first, rest, ns', hfirst, hns', h⟩ := mem_unusedPackage.mp hop
    rcases h with ⟨f, hf, hsc, _, rfl⟩ | ⟨sc, hsc, f, hf, hsc', _, rfl⟩
    · have hfp : f.path = p := hpath
      obtain ⟨hf1, _⟩ := List.mem_filter.mp hf
      rcases data_cases hf1 with ⟨_, _, c, _, h2, _⟩ | h
      · exact ⟨_, by rw [hfp], unusedReports_sorted h2⟩
      · exact absurd hsc h.1
    · have := plain_scope hroots hplain f (List.mem_filter.mp hf).1 hpath
      rw [this] at hsc'
      rcases hsc with rfl | rfl <;> cases hsc'
  rcases entry_cases (fun op hop hpath => (key op hop hpath).imp fun _ h => h.1) with h | h
  · rw [h]; exact List.Pairwise.nil
  · obtain ⟨l, h1, h2⟩ := key _ h rfl
    cases h1
    exact h2

/-- **C49**: the result does not depend on the order in which files and directories are listed. -/
theorem C49_deterministic {alnum : Char → Bool} (hal : Alnum alnum) {env : UnusedEnv} {fs : PkgFs} {paths roots keys paths' roots' keys' : List DPath}
    (hw : PkgWorld fs paths) (hroots : Enumerates roots (· ∈ packageRoots fs paths))
    (hkeys : Enumerates keys (fun k => ∃ f ∈ sharedData alnum true fs roots paths, f.rootKey = k))
    (hw' : PkgWorld fs paths') (hroots' : Enumerates roots' (· ∈ packageRoots fs paths'))
    (hkeys' : Enumerates keys' (fun k => ∃ f ∈ sharedData alnum true fs roots' paths', f.rootKey = k))
    (hsame : ∀ p, p ∈ paths ↔ p ∈ paths')
    {root : DPath} {file ns : Str} (hp : root ++ [cs! "R", file] ∈ paths) (hin : PackageFile fs (root ++ [cs! "R", file]))
    (hplain : ∀ root' content, ¬ ExtraFile fs paths root' (root ++ [cs! "R", file]) content)
    (hns : fs.read (root ++ [cs! "NAMESPACE"]) = some ns) :
    entryAfter (root ++ [cs! "R", file]) (computeUnused env (namespaceContents fs roots) keys (sharedData alnum true fs roots paths)) =
    entryAfter (root ++ [cs! "R", file]) (computeUnused env (namespaceContents fs roots') keys' (sharedData alnum true fs roots' paths')) := by
  have hR : ∀ d q c, RFileIn fs paths d q c ↔ RFileIn fs paths' d q c := by
    intro d q c
    constructor
    · intro h; exact ⟨h.parent, h.ext, h.read, h.found.imp (hsame q).mp id⟩
    · intro h; exact ⟨h.parent, h.ext, h.read, h.found.imp (hsame q).mpr id⟩
  have hG : ∀ r, GivenPackage fs paths r ↔ GivenPackage fs paths' r := by
    intro r
    unfold GivenPackage
    simp only [hsame]
  have hE : ∀ root q c, ExtraFile fs paths root q c ↔ ExtraFile fs paths' root q c := by
    intro root q c
    constructor
    · intro h
      obtain ⟨r, h1, h2⟩ := h.searched
      exact ⟨⟨r, (hG r).mp h1, h2⟩, h.root, h.read⟩
    · intro h
      obtain ⟨r, h1, h2⟩ := h.searched
      exact ⟨⟨r, (hG r).mpr h1, h2⟩, h.root, h.read⟩
  have hU : ∀ name, SeenUnused alnum env fs paths root ns name ↔ SeenUnused alnum env fs paths' root ns name := by
    intro name
    constructor
    · rintro ⟨h1, h2, h3, h4, h5, h6⟩
      exact ⟨h1, h2, h3, fun g c hg e q ct hq => h4 g c hg e q ct ((hR _ _ _).mpr hq), fun ha q ct hq => h5 ha q ct ((hR _ _ _).mpr hq),
        fun ha q ct hq => h6 ha q ct ((hE _ _ _).mpr hq)⟩
    · rintro ⟨h1, h2, h3, h4, h5, h6⟩
      exact ⟨h1, h2, h3, fun g c hg e q ct hq => h4 g c hg e q ct ((hR _ _ _).mp hq), fun ha q ct hq => h5 ha q ct ((hR _ _ _).mp hq),
        fun ha q ct hq => h6 ha q ct ((hE _ _ _).mp hq)⟩
  have hplain' : ∀ root' content, ¬ ExtraFile fs paths' root' (root ++ [cs! "R", file]) content := by
    intro r c; rw [← hE]; exact hplain r c
  apply sorted_ext (R := fun a b => a.range.start < b.range.start) (fun a b h => by omega) (C49_sorted hroots hplain) (C49_sorted hroots' hplain')
  intro r
  rw [unused_core hal hw hroots hkeys hp hin hplain hns, unused_core hal hw' hroots' hkeys' ((hsame _).mp hp) hin hplain' hns]
  unfold DefinedIn
  simp only [hR, hU]

/-- **C49**: without NAMESPACE nothing is reported. -/
theorem C49_no_namespace {alnum : Char → Bool} {env : UnusedEnv} {fs : PkgFs} {paths roots keys : List DPath}
    (hroots : Enumerates roots (· ∈ packageRoots fs paths))
    {root : DPath} {file : Str} (hplain : ∀ root' content, ¬ ExtraFile fs paths root' (root ++ [cs! "R", file]) content)
    (hns : fs.read (root ++ [cs! "NAMESPACE"]) = none) :
    entryAfter (root ++ [cs! "R", file]) (computeUnused env (namespaceContents fs roots) keys (sharedData alnum true fs roots paths)) = [] := by
  generalize hpeq : root ++ [cs! "R", file] = p at *
  have hdrop : p.dropLast = root ++ [['R']] := by
    rw [← hpeq, show root ++ [cs! "R", file] = (root ++ [['R']]) ++ [file] by simp, List.dropLast_concat]
  have key : ∀ op ∈ computeUnused env (namespaceContents fs roots) keys (sharedData alnum true fs roots paths), op.path ≠ p := by
    intro op hop hpath
    obtain ⟨k, _, hop⟩ := List.mem_flatMap.mp hop
    obtain ⟨first, rest, ns', hfirst, hns', h⟩ := mem_unusedPackage.mp hop
    rcases h with ⟨f, hf, hsc, _, rfl⟩ | ⟨sc, hsc, f, hf, hsc', _, rfl⟩
    · have hfp : f.path = p := hpath
      obtain ⟨hf1, hk⟩ := List.mem_filter.mp hf
      simp only [decide_eq_true_eq] at hk
      have hk1 : k = root ++ [['R']] := by
        rcases data_cases hf1 with ⟨_, h1, _⟩ | h
        · rw [← hk, h1, hfp, hdrop]
        · exact absurd hsc h.1
      have hfm : first ∈ (((sharedData alnum true fs roots paths).filter (fun f => f.rootKey = k)).filter (fun f => f.scope = .r)) := by
        rw [hfirst]; simp
      rw [rfiles_eq, sharedData_r] at hfm
      obtain ⟨hfm1, hfm2⟩ := List.mem_filter.mp hfm
      obtain ⟨q, _, hq⟩ := List.mem_filterMap.mp hfm1
      obtain ⟨_, _, c, _, rfl⟩ := scanFile_r.mp hq
      simp only [decide_eq_true_eq] at hfm2
      simp only at hns'
      rw [hfm2, hk1, List.dropLast_concat] at hns'
      unfold namespaceContents at hns'
      rw [hns] at hns'
      split at hns' <;> cases hns'
    · have := plain_scope hroots hplain f (List.mem_filter.mp hf).1 hpath
      rw [this] at hsc'
      rcases hsc with rfl | rfl <;> cases hsc'
  rcases entry_cases (fun op hop hpath => absurd hpath (key op hop)) with h | h
  · exact h
  · exact absurd rfl (key _ h)

/-! ## Functions defined in tests -/

theorem entryAfter_extend {α} {p : DPath} {ops : List (MapOp α)} (h : ∀ op ∈ ops, op.path = p → ∃ l, op = .extend p l) (x : α) :
    x ∈ entryAfter p ops ↔ ∃ l, .extend p l ∈ ops ∧ x ∈ l := by
  have aux : ∀ (ops : List (MapOp α)) (acc : List α), (∀ op ∈ ops, op.path = p → ∃ l, op = .extend p l) →
      (x ∈ ops.foldl (applyOp p) acc ↔ x ∈ acc ∨ ∃ l, .extend p l ∈ ops ∧ x ∈ l) := by
    intro ops
    induction ops with
    | nil => intro acc _; simp
    | cons o os ih =>
      intro acc h
      rw [List.foldl_cons, ih _ (fun op ho => h op (by simp [ho]))]
      by_cases ho : o.path = p
      · obtain ⟨l, rfl⟩ := h o (by simp) ho
        rw [show applyOp p acc (.extend p l) = acc ++ l by simp [applyOp], List.mem_append]
        constructor
        · rintro ((h1 | h1) | ⟨l', h1, h2⟩)
          · exact .inl h1
          · exact .inr ⟨l, by simp, h1⟩
          · exact .inr ⟨l', by simp [h1], h2⟩
        · rintro (h1 | ⟨l', h1, h2⟩)
          · exact .inl (.inl h1)
          · rcases List.mem_cons.mp h1 with h3 | h3
            · cases h3; exact .inl (.inr h2)
            · exact .inr ⟨l', h3, h2⟩
      · have : applyOp p acc o = acc := by
          cases o with
          | insert q k => exact if_neg ho
          | extend q k => exact if_neg ho
        rw [this]
        constructor
        · rintro (h1 | ⟨l', h1, h2⟩)
          · exact .inl h1
          · exact .inr ⟨l', by simp [h1], h2⟩
        · rintro (h1 | ⟨l', h1, h2⟩)
          · exact .inl h1
          · rcases List.mem_cons.mp h1 with rfl | h3
            · exact absurd rfl ho
            · exact .inr ⟨l', h3, h2⟩
  have := aux ops [] h
  simpa [entryAfter] using this

/-- **C49**, tests: a function defined in a test file of a package (with NAMESPACE and a readable R file) is reported exactly when it is not
skipped and is not mentioned in the test files of the same kind except where it is defined. -/
theorem C49_tests {alnum : Char → Bool} (hal : Alnum alnum) {env : UnusedEnv} {fs : PkgFs} {paths roots keys : List DPath}
    (hw : PkgWorld fs paths) (hroots : Enumerates roots (· ∈ packageRoots fs paths))
    (hkeys : Enumerates keys (fun k => ∃ f ∈ sharedData alnum true fs roots paths, f.rootKey = k))
    {root : DPath} {file ns c0 : Str} (hp : root ++ [cs! "R", file] ∈ paths) (hin : PackageFile fs (root ++ [cs! "R", file]))
    (hread : fs.read (root ++ [cs! "R", file]) = some c0) (hns : fs.read (root ++ [cs! "NAMESPACE"]) = some ns)
    {q : DPath} {content : Str} (hq : ExtraFile fs paths root q content) {sc : PScope} (hsc : fileScope q = sc) (hsc2 : sc = .tests ∨ sc = .inst)
    (hq1 : ¬ PackageFile fs q) (hq2 : ∀ r, GivenPackage fs paths r → q ∉ fs.below (r ++ [cs! "R"])) (r : UnusedReport) (hr : AsciiName r.name) :
    r ∈ entryAfter q (computeUnused env (namespaceContents fs roots) keys (sharedData alnum true fs roots paths)) ↔
    ∃ pre, Defines alnum content pre r.name ∧ r.range = ⟨blen pre, blen pre + blen r.name⟩ ∧ r.line = 1 + countNl pre ∧
      env.skipped r.name = false ∧ ∀ q' c', ExtraFile fs paths root q' c' → fileScope q' = sc → OnlyDefined alnum c' r.name := by
  have hrm : root ∈ roots := (hroots.2 root).mpr (mem_packageRoots.mpr ⟨_, hp, hin, by
    rw [show root ++ [cs! "R", file] = (root ++ [['R']]) ++ [file] by simp, List.dropLast_concat, List.dropLast_concat]⟩)
  have hgiven : ∀ r ∈ roots, GivenPackage fs paths r := fun r hr => mem_packageRoots.mp ((hroots.2 r).mp hr)
  have hfm := files_mem (alnum := alnum) (unused := true) hw hroots hp hin
  rw [show (root ++ [cs! "R", file]).dropLast = root ++ [['R']] by
    rw [show root ++ [cs! "R", file] = (root ++ [['R']]) ++ [file] by simp, List.dropLast_concat]] at hfm
  have hde := data_extra (alnum := alnum) hroots root
  have hnoR : ∀ f ∈ sharedData alnum true fs roots paths, f.path = q → f.scope ≠ .r := by
    intro f hf hfq
    rcases data_cases hf with ⟨_, _, _, _, _, h⟩ | h
    · rw [hfq] at h
      rcases h with ⟨h, _⟩ | ⟨r, h1, h2⟩
      · exact absurd h hq1
      · exact absurd h2 (hq2 r (hgiven r h1))
    · exact h.1
  have hroot : ∀ f ∈ sharedData alnum true fs roots paths, f.path = q → f.rootKey = root ++ [['R']] := by
    intro f hf hfq
    rcases data_cases hf with h | ⟨hsc, root', c, hk, _⟩
    · exact absurd h.1 (hnoR f hf hfq)
    · obtain ⟨c, h1, _⟩ := (data_extra (alnum := alnum) hroots root' f).mp ⟨hf, hsc, hk⟩
      rw [hfq] at h1
      have e1 := findPkgRoot_iff.mpr h1.root
      rw [findPkgRoot_iff.mpr hq.root] at e1
      cases e1
      exact hk
  generalize sharedData alnum true fs roots paths = data at *
  let files := data.filter (fun f => f.rootKey = root ++ [['R']])
  have hs : ∀ f, f ∈ files.filter (fun f => f.scope = sc) ↔ ∃ content, ExtraFile fs paths root f.path content ∧ fileScope f.path = sc ∧
      f = ⟨root ++ [['R']], f.path, root, scanAssigns alnum content, scanSymbols content, sc⟩ := by
    intro f
    simp only [files, List.mem_filter, decide_eq_true_eq]
    constructor
    · rintro ⟨⟨h1, h2⟩, h3⟩
      obtain ⟨c, h4, h5⟩ := (hde f).mp ⟨h1, by rw [h3]; rcases hsc2 with rfl | rfl <;> simp, h2⟩
      have h6 : fileScope f.path = sc := by
        have : f.scope = fileScope f.path := by rw [h5]
        rw [← this, h3]
      refine ⟨c, h4, h6, ?_⟩
      rw [h6] at h5
      rw [if_neg (by rcases hsc2 with rfl | rfl <;> simp)] at h5
      exact h5
    · rintro ⟨c, h4, h6, h5⟩
      have := (hde f).mpr ⟨c, h4, by rw [h6, if_neg (by rcases hsc2 with rfl | rfl <;> simp)]; exact h5⟩
      exact ⟨⟨this.1, this.2.2⟩, by rw [h5]⟩
  have hod := occ_le_def hal hr (fs := files.filter (fun f => f.scope = sc)) (fun f hf => by
    obtain ⟨c, _, _, h2⟩ := (hs f).mp hf
    exact ⟨c, by rw [h2], by rw [h2]⟩)
  have hpred : ∀ a : Assign, a.name = r.name → (unusedInScope env (files.filter (fun f => f.scope = sc)) a = true ↔
      env.skipped r.name = false ∧ ∀ q' c', ExtraFile fs paths root q' c' → fileScope q' = sc → OnlyDefined alnum c' r.name) := by
    intro a ha
    unfold unusedInScope
    rw [ha]
    simp only [Bool.and_eq_true, Bool.not_eq_true', decide_eq_true_eq]
    apply and_congr_right; intro _
    rw [hod]
    constructor
    · intro h q' c' h1 h2
      exact h ⟨root ++ [['R']], q', root, scanAssigns alnum c', scanSymbols c', sc⟩ ((hs _).mpr ⟨c', h1, h2, rfl⟩) c' rfl rfl
    · intro h f hf c e1 e2
      obtain ⟨c', h1, h2, h3⟩ := (hs f).mp hf
      have e3 : f.assigns = scanAssigns alnum c' := by rw [h3]
      have e4 : f.symbols = scanSymbols c' := by rw [h3]
      apply (file_key hal hr c).2.mp
      rw [← e1, ← e2, e3, e4]
      exact (file_key hal hr c').2.mpr (h f.path c' h1 h2)
  have hops : ∀ op ∈ computeUnused env (namespaceContents fs roots) keys data, op.path = q →
      op = .extend q (unusedReports (unusedInScope env (files.filter (fun f => f.scope = sc)))
        ⟨root ++ [['R']], q, root, scanAssigns alnum content, scanSymbols content, sc⟩) := by
    intro op hop hpath
    obtain ⟨k, _, hop⟩ := List.mem_flatMap.mp hop
    obtain ⟨first, rest, ns', hfirst, hns', h⟩ := mem_unusedPackage.mp hop
    rcases h with ⟨f, hf, hsc', _, rfl⟩ | ⟨sc', _, f, hf, hsc', _, rfl⟩
    · exact absurd hsc' (hnoR f (List.mem_filter.mp hf).1 hpath)
    · obtain ⟨hf1, hk⟩ := List.mem_filter.mp hf
      simp only [decide_eq_true_eq] at hk
      have hfq : f.path = q := hpath
      have hk2 : k = root ++ [['R']] := by rw [← hk, hroot f hf1 hfq]
      subst hk2
      have h7 := (hde f).mp ⟨hf1, hnoR f hf1 hfq, hk⟩
      have hsceq : sc' = sc := by
        obtain ⟨c, _, h5⟩ := h7
        rw [← hsc', show f.scope = fileScope f.path by rw [h5], hfq, hsc]
      rw [hsceq] at hsc' ⊢
      obtain ⟨c, h4, h6, h5⟩ := (hs f).mp (List.mem_filter.mpr ⟨List.mem_filter.mpr ⟨hf1, by simpa using hk⟩, by simpa using hsc'⟩)
      have hcc : c = content := by
        have := h4.read
        rw [hfq, hq.read] at this
        exact (Option.some.inj this).symm
      rw [hcc, hfq] at h5
      change MapOp.extend f.path (unusedReports (unusedInScope env (files.filter (fun f => f.scope = sc))) f) = _
      rw [hfq, h5]
  rw [entryAfter_extend (fun op hop hpath => ⟨_, hops op hop hpath⟩)]
  constructor
  · rintro ⟨l, hl, hrl⟩
    have := hops _ hl rfl
    cases this
    obtain ⟨a, h2, h3, h4, h5, h6⟩ := mem_unusedReports.mp hrl
    obtain ⟨pre, h7, h8, h9⟩ := (C48_scan hal content a).mp h2
    obtain ⟨h10, h11⟩ := (hpred a h4.symm).mp h3
    rw [← h4] at h7 h8
    exact ⟨pre, h7, by rw [h5, h8], by rw [h6, h9], h10, h11⟩
  · rintro ⟨pre, h2, h3, h4, h5, h6⟩
    have ha : (⟨r.name, r.range, r.line⟩ : Assign) ∈ scanAssigns alnum content := (C48_scan hal content _).mpr ⟨pre, h2, h3, h4⟩
    have hmem : r ∈ unusedReports (unusedInScope env (files.filter (fun f => f.scope = sc)))
        ⟨root ++ [['R']], q, root, scanAssigns alnum content, scanSymbols content, sc⟩ :=
      mem_unusedReports.mpr ⟨_, ha, (hpred _ rfl).mpr ⟨h5, h6⟩, rfl, rfl, rfl⟩
    refine ⟨_, List.mem_flatMap.mpr ⟨root ++ [['R']], ?_, mem_unusedPackage.mpr ?_⟩, hmem⟩
    · have h7 := (hs ⟨root ++ [['R']], q, root, scanAssigns alnum content, scanSymbols content, sc⟩).mpr ⟨content, hq, hsc, rfl⟩
      exact (hkeys.2 _).mpr ⟨_, (List.mem_filter.mp (List.mem_filter.mp h7).1).1, rfl⟩
    · have h7 := (hs ⟨root ++ [['R']], q, root, scanAssigns alnum content, scanSymbols content, sc⟩).mpr ⟨content, hq, hsc, rfl⟩
      have h8 := (hfm ⟨root ++ [['R']], root ++ [cs! "R", file], root, scanAssigns alnum c0, scanSymbols c0, .r⟩).mpr ⟨c0,
        ⟨by rw [show root ++ [cs! "R", file] = (root ++ [['R']]) ++ [file] by simp, List.dropLast_concat], (inPackageR_iff.mp hin).1, hread, .inl hp⟩, by simp⟩
      have h9 : (⟨root ++ [['R']], root ++ [cs! "R", file], root, scanAssigns alnum c0, scanSymbols c0, .r⟩ : SharedFile) ∈
          files.filter (fun f => f.scope = .r) := by
        obtain ⟨e1, e2⟩ := List.mem_filter.mp h8
        simp only [Bool.and_eq_true, decide_eq_true_eq] at e2
        exact List.mem_filter.mpr ⟨List.mem_filter.mpr ⟨e1, by simp⟩, by simp⟩
      obtain ⟨first, rest, hrl⟩ : ∃ first rest, files.filter (fun f => f.scope = .r) = first :: rest :=
        List.exists_cons_of_ne_nil (List.ne_nil_of_mem h9)
      refine ⟨first, rest, ns, hrl, ?_, .inr ⟨sc, hsc2, _, (List.mem_filter.mp h7).1, rfl, ?_, rfl⟩⟩
      · have hfirst : first ∈ data.filter (fun f => f.scope = .r && f.rootKey = root ++ [['R']]) := by
          have : first ∈ files.filter (fun f => f.scope = .r) := by rw [hrl]; simp
          obtain ⟨e1, e2⟩ := List.mem_filter.mp this
          obtain ⟨e3, e4⟩ := List.mem_filter.mp e1
          simp only [decide_eq_true_eq] at e2 e4
          exact List.mem_filter.mpr ⟨e3, by simp [e2, e4]⟩
        obtain ⟨c', _, h10⟩ := (hfm first).mp hfirst
        rw [show first.pkgRoot = root by rw [h10]; simp, namespaceContents_mem hrm, hns]
      · intro hnil
        change unusedReports (unusedInScope env (files.filter (fun f => f.scope = sc))) _ = [] at hnil
        rw [hnil] at hmem
        cases hmem

end Jarl
