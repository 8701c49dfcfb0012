import Verif.Spec.Unused
import Verif.Props.PackageNamespace
import Verif.Props.Discovery
/-!
# C49: unused functions of a package
-/
namespace Jarl
open Spec

/-! ## Package of a file -/

theorem find_ancestor {P : DPath → Bool} (d r : DPath) : (ancestors d).find? P = some r ↔
    P r = true ∧ r <+: d ∧ ∀ d', P d' = true → d' <+: d → d'.length ≤ r.length := by
  have aux : ∀ n, ∀ d : DPath, d.length = n → ((ancestors d).find? P = some r ↔
      P r = true ∧ r <+: d ∧ ∀ d', P d' = true → d' <+: d → d'.length ≤ r.length) := by
    intro n
    induction n with
    | zero =>
      intro d hd
      rw [List.length_eq_zero_iff.mp hd, ancestors_nil]
      simp only [List.prefix_nil]
      rw [List.find?_cons]
      cases hP : P [] with
      | true =>
        simp only [Option.some.injEq]
        constructor
        · rintro rfl; exact ⟨hP, rfl, fun d' _ h => by rw [h]; simp⟩
        · rintro ⟨_, h, _⟩; exact h.symm
      | false =>
        simp only [List.find?_nil]
        constructor
        · intro h; cases h
        · rintro ⟨h, rfl, _⟩; rw [hP] at h; cases h
    | succ n ih =>
      intro d hd
      rcases List.eq_nil_or_concat d with rfl | ⟨d', x, rfl⟩
      · cases hd
      · rw [List.concat_eq_append] at *
        rw [ancestors_snoc, List.find?_cons]
        have hih := ih d' (by simpa using hd)
        cases hP : P (d' ++ [x]) with
        | true =>
          simp only [Option.some.injEq]
          constructor
          · rintro rfl; exact ⟨hP, List.prefix_refl _, fun e _ h => h.length_le⟩
          · rintro ⟨_, h1, h2⟩
            have := h2 _ hP (List.prefix_refl _)
            exact (List.IsPrefix.eq_of_length h1 (Nat.le_antisymm h1.length_le this)).symm
        | false =>
          simp only
          rw [hih]
          have hpre : ∀ e, P e = true → (e <+: d' ++ [x] ↔ e <+: d') := by
            intro e he
            rw [List.prefix_concat_iff]
            constructor
            · rintro (rfl | h)
              · rw [hP] at he; cases he
              · exact h
            · exact .inr
          constructor
          · rintro ⟨h1, h2, h3⟩
            exact ⟨h1, (hpre _ h1).mpr h2, fun e he h => h3 e he ((hpre e he).mp h)⟩
          · rintro ⟨h1, h2, h3⟩
            exact ⟨h1, (hpre _ h1).mp h2, fun e he h => h3 e he ((hpre e he).mpr h)⟩
  exact aux _ d rfl

theorem proper_prefix {d q : DPath} (hq : q ≠ []) : (d <+: q ∧ d ≠ q) ↔ d <+: q.dropLast := by
  constructor
  · rintro ⟨h1, h2⟩; exact prefix_dropLast h1 h2
  · intro h
    refine ⟨h.trans (List.dropLast_prefix q), ?_⟩
    rintro rfl
    have := h.length_le
    rw [List.length_dropLast] at this
    have : 0 < d.length := List.length_pos_iff.mpr hq
    omega

theorem findPkgRoot_iff {fs : PkgFs} {q root : DPath} : findPkgRoot fs q = some root ↔ NearestRoot fs q root := by
  unfold findPkgRoot parentDir
  by_cases hq : q = []
  · subst hq
    simp only [if_true]
    constructor
    · intro h; cases h
    · rintro ⟨_, ⟨h1, h2⟩, _⟩
      exact absurd (List.prefix_nil.mp h1) h2
  · simp only [hq, if_false]
    rw [find_ancestor]
    constructor
    · rintro ⟨h1, h2, h3⟩
      exact ⟨h1, (proper_prefix hq).mpr h2, fun d hd h4 h5 => h3 d hd ((proper_prefix hq).mp ⟨h4, h5⟩)⟩
    · rintro ⟨h1, h2, h3⟩
      refine ⟨h1, (proper_prefix hq).mp h2, fun d hd h4 => ?_⟩
      obtain ⟨h5, h6⟩ := (proper_prefix hq).mpr h4
      exact h3 d hd h5 h6

/-! ## Tests and sources in the scanned data -/

theorem mem_extraFiles {fs : PkgFs} {r q : DPath} : q ∈ extraFiles fs r ↔
    (RFile q ∧ (q ∈ fs.below (r ++ [cs! "tests"]) ∨ q ∈ fs.below (r ++ [cs! "inst", cs! "tests"]) ∨
      q ∈ fs.below (r ++ [cs! "inst", cs! "tinytest"])) ∨
     CFile q ∧ q ∈ fs.below (r ++ [cs! "src"])) := by
  unfold extraFiles
  simp only [isRFile_iff, isCppFile_iff, List.mem_append, List.mem_filter]
  constructor
  · rintro (((⟨h1, h2⟩ | ⟨h1, h2⟩) | ⟨h1, h2⟩) | ⟨h1, h2⟩)
    · exact .inl ⟨h2, .inr (.inr h1)⟩
    · exact .inl ⟨h2, .inr (.inl h1)⟩
    · exact .inl ⟨h2, .inl h1⟩
    · exact .inr ⟨h2, h1⟩
  · rintro (⟨h2, h1 | h1 | h1⟩ | ⟨h2, h1⟩)
    · exact .inl (.inr ⟨h1, h2⟩)
    · exact .inl (.inl (.inr ⟨h1, h2⟩))
    · exact .inl (.inl (.inl ⟨h1, h2⟩))
    · exact .inr ⟨h1, h2⟩

theorem scanFile_extra {alnum : Char → Bool} {fs : PkgFs} {q : DPath} {f : SharedFile} :
    scanFile alnum true fs q (fileScope q) = some f ↔ ∃ root content, fs.read q = some content ∧ NearestRoot fs q root ∧
      f = ⟨root ++ [['R']], q, root, if fileScope q = .src then [] else scanAssigns alnum content, scanSymbols content, fileScope q⟩ := by
  unfold scanFile
  cases fs.read q with
  | none => simp
  | some content =>
    simp only [fileScope_not_r q, if_false, if_true]
    cases hr : findPkgRoot fs q with
    | none =>
      simp only
      constructor
      · intro h; cases h
      · rintro ⟨root, c, h1, h2, _⟩
        rw [← findPkgRoot_iff, hr] at h2
        cases h2
    | some root =>
      have hn := findPkgRoot_iff.mp hr
      simp only [Option.some.injEq]
      constructor
      · rintro rfl; exact ⟨root, content, rfl, hn, rfl⟩
      · rintro ⟨root', c, rfl, h2, rfl⟩
        rw [← findPkgRoot_iff, hr] at h2
        cases h2
        rfl

theorem data_extra {alnum : Char → Bool} {fs : PkgFs} {roots paths : List DPath}
    (hroots : Enumerates roots (· ∈ packageRoots fs paths)) (root : DPath) (f : SharedFile) :
    (f ∈ sharedData alnum true fs roots paths ∧ f.scope ≠ .r ∧ f.rootKey = root ++ [['R']]) ↔
    ∃ content, ExtraFile fs paths root f.path content ∧
      f = ⟨root ++ [['R']], f.path, root, if fileScope f.path = .src then [] else scanAssigns alnum content, scanSymbols content, fileScope f.path⟩ := by
  have hsearch : ∀ q, q ∈ roots.flatMap (extraFiles fs) ↔ ∃ r, GivenPackage fs paths r ∧ q ∈ extraFiles fs r := by
    intro q
    rw [List.mem_flatMap]
    apply exists_congr
    intro r
    have := hroots.2 r
    simp only [mem_packageRoots] at this
    rw [this]
    rfl
  unfold sharedData
  simp only [if_true, List.mem_append, List.mem_filterMap]
  constructor
  · rintro ⟨(⟨q, _, hq⟩ | ⟨q, _, hq⟩) | ⟨q, hq1, hq⟩, h2, h3⟩
    · obtain ⟨_, _, c, _, rfl⟩ := scanFile_r.mp hq
      exact absurd rfl h2
    · obtain ⟨_, _, c, _, rfl⟩ := scanFile_r.mp hq
      exact absurd rfl h2
    · obtain ⟨root', c, hread, hn, rfl⟩ := scanFile_extra.mp hq
      obtain ⟨r, hr1, hr2⟩ := (hsearch q).mp hq1
      simp only at h3
      have : root' = root := (List.append_inj' h3 rfl).1
      subst this
      exact ⟨c, ⟨⟨r, hr1, mem_extraFiles.mp hr2⟩, hn, hread⟩, rfl⟩
  · rintro ⟨c, ⟨⟨r, hr1, hr2⟩, hn, hread⟩, hf⟩
    refine ⟨.inr ⟨f.path, (hsearch _).mpr ⟨r, hr1, mem_extraFiles.mpr hr2⟩, scanFile_extra.mpr ⟨root, c, hread, hn, hf⟩⟩, ?_, ?_⟩
    · rw [hf]; exact fileScope_not_r _
    · rw [hf]

/-! ## The result map -/

def MapOp.path {α} : MapOp α → DPath
  | .insert p _ => p
  | .extend p _ => p

/-- All changes of an entry insert the same list. -/
theorem entryAfter_insert {α} {p : DPath} {l : List α} {ops : List (MapOp α)} (h : ∀ op ∈ ops, op.path = p → op = .insert p l) (x : α) :
    x ∈ entryAfter p ops ↔ x ∈ l ∧ ∃ op ∈ ops, op.path = p := by
  have aux : ∀ (ops : List (MapOp α)) (acc : List α), (∀ op ∈ ops, op.path = p → op = .insert p l) →
      ops.foldl (applyOp p) acc = l ∧ (∃ op ∈ ops, op.path = p) ∨ ops.foldl (applyOp p) acc = acc ∧ ¬ ∃ op ∈ ops, op.path = p := by
    intro ops
    induction ops with
    | nil => intro acc _; exact .inr ⟨rfl, by simp⟩
    | cons o os ih =>
      intro acc h
      rw [List.foldl_cons]
      have ih' := fun acc => ih acc (fun op ho => h op (by simp [ho]))
      by_cases ho : o.path = p
      · have := h o (by simp) ho
        subst this
        rw [show applyOp p acc (.insert p l) = l by simp [applyOp]]
        left
        rcases ih' l with ⟨h1, _⟩ | ⟨h1, _⟩ <;> exact ⟨h1, .insert p l, by simp, rfl⟩
      · have : applyOp p acc o = acc := by
          cases o with
          | insert q k => exact if_neg ho
          | extend q k => exact if_neg ho
        rw [this]
        rcases ih' acc with ⟨h1, op, h2, h3⟩ | ⟨h1, h2⟩
        · exact .inl ⟨h1, op, by simp [h2], h3⟩
        · refine .inr ⟨h1, ?_⟩
          rintro ⟨op, h3, h4⟩
          rcases List.mem_cons.mp h3 with rfl | h3
          · exact ho h4
          · exact h2 ⟨op, h3, h4⟩
  unfold entryAfter
  rcases aux ops [] h with ⟨h1, h2⟩ | ⟨h1, h2⟩
  · rw [h1]; exact ⟨fun h => ⟨h, h2⟩, fun h => h.1⟩
  · rw [h1]; constructor
    · intro h; cases h
    · exact fun h => absurd h.2 h2

theorem mem_nonEmptyOp {α} {mk : DPath → List α → MapOp α} {p : DPath} {l : List α} {op : MapOp α} :
    op ∈ nonEmptyOp mk p l ↔ l ≠ [] ∧ op = mk p l := by
  cases l <;> simp [nonEmptyOp]

/-! ## Methods -/

theorem probableS3_iff {symbols : List Str} : ∀ (s pre : Str), probableS3 symbols pre s = true ↔ ∃ g c, s = g ++ '.' :: c ∧ pre ++ g ∈ symbols := by
  intro s
  induction s with
  | nil => intro pre; simp [probableS3]
  | cons x xs ih =>
    intro pre
    unfold probableS3
    rw [Bool.or_eq_true, Bool.and_eq_true, ih, beq_iff_eq, List.contains_iff_mem]
    constructor
    · rintro (⟨rfl, h⟩ | ⟨g, c, rfl, h⟩)
      · exact ⟨[], xs, rfl, by simpa using h⟩
      · exact ⟨x :: g, c, rfl, by simpa using h⟩
    · rintro ⟨g, c, h1, h2⟩
      cases g with
      | nil => simp at h1; left; exact ⟨h1.1, by simpa using h2⟩
      | cons y g =>
        simp only [List.cons_append, List.cons.injEq] at h1
        obtain ⟨rfl, rfl⟩ := h1
        right; exact ⟨g, c, rfl, by simpa using h2⟩

theorem asciiName_prefix {g c : Str} (h : AsciiName (g ++ c)) (hg : g ≠ []) : AsciiName g := by
  obtain ⟨⟨x, xs, hx, hd⟩, hall⟩ := h
  cases g with
  | nil => exact absurd rfl hg
  | cons y ys =>
    simp only [List.cons_append, List.cons.injEq] at hx
    obtain ⟨rfl, _⟩ := hx
    exact ⟨⟨y, ys, rfl, hd⟩, fun z hz => hall z (by simp only [List.mem_append]; exact .inl hz)⟩

theorem asciiName_ne {s : Str} (h : AsciiName s) : s ≠ [] := by
  obtain ⟨⟨x, xs, rfl, _⟩, _⟩ := h
  simp

/-! ## Reports -/

theorem occ_le_def {alnum : Char → Bool} (hal : Alnum alnum) {name : Str} (hn : AsciiName name) {fs : List SharedFile}
    (hfs : ∀ f ∈ fs, ∃ content, f.assigns = scanAssigns alnum content ∧ f.symbols = scanSymbols content) :
    occurrencesIn fs name ≤ definitionsIn fs name ↔
    ∀ f ∈ fs, ∀ content, f.assigns = scanAssigns alnum content → f.symbols = scanSymbols content → OnlyDefined alnum content name := by
  unfold occurrencesIn definitionsIn
  rw [count_flatMap_sum, List.map_flatMap, count_flatMap_sum]
  have h1 := sum_le_sum_iff (fun f : SharedFile => (f.assigns.map (·.name)).count name) (fun f => f.symbols.count name) fs
    (fun f hf => by
      obtain ⟨c, h1, h2⟩ := hfs f hf
      rw [h1, h2]
      exact (file_key hal hn c).1)
  rw [h1.2]
  apply forall_congr'; intro f
  apply imp_congr_right; intro hf
  constructor
  · intro h c h2 h3
    rw [h2, h3] at h
    exact (file_key hal hn c).2.mp h
  · intro h
    obtain ⟨c, h2, h3⟩ := hfs f hf
    rw [h2, h3]
    exact (file_key hal hn c).2.mpr (h c h2 h3)

/-- The files of the R directory `root/R`. -/
theorem rfiles_eq {alnum : Char → Bool} {fs : PkgFs} {roots paths : List DPath} (k : DPath) :
    ((sharedData alnum true fs roots paths).filter (fun f => f.rootKey = k)).filter (fun f => f.scope = .r) =
    (sharedData alnum true fs roots paths).filter (fun f => f.scope = .r && f.rootKey = k) := by
  rw [List.filter_filter]

theorem namespaceContents_mem {fs : PkgFs} {roots : List DPath} {r : DPath} (h : r ∈ roots) :
    namespaceContents fs roots r = fs.read (r ++ [cs! "NAMESPACE"]) := by
  simp [namespaceContents, h]

theorem mem_unusedPackage {env : UnusedEnv} {nsf : DPath → Option Str} {files : List SharedFile} {op : MapOp UnusedReport} :
    op ∈ unusedPackage env nsf files ↔ ∃ first rest ns, files.filter (fun f => f.scope = .r) = first :: rest ∧ nsf first.pkgRoot = some ns ∧
      ((∃ f ∈ files, f.scope = .r ∧
          unusedReports (unusedInR env (namespaceExports env.re (((files.filter (fun f => f.scope = .r)).flatMap (·.assigns)).map (·.name)) ns)
            (files.filter (fun f => f.scope = .r)) (files.filter (fun f => f.scope ≠ .r))) f ≠ [] ∧
          op = .insert f.path (unusedReports (unusedInR env (namespaceExports env.re (((files.filter (fun f => f.scope = .r)).flatMap (·.assigns)).map (·.name)) ns)
            (files.filter (fun f => f.scope = .r)) (files.filter (fun f => f.scope ≠ .r))) f)) ∨
       (∃ sc, (sc = .tests ∨ sc = .inst) ∧ ∃ f ∈ files, f.scope = sc ∧ unusedReports (unusedInScope env (files.filter (fun f => f.scope = sc))) f ≠ [] ∧
          op = .extend f.path (unusedReports (unusedInScope env (files.filter (fun f => f.scope = sc))) f))) := by
  unfold unusedPackage
  simp only
  cases hr : files.filter (fun f => f.scope = .r) with
  | nil => simp
  | cons first rest =>
    simp only
    have hmem : ∀ f, f ∈ first :: rest ↔ f ∈ files ∧ f.scope = .r := by
      intro f; rw [← hr]; simp
    cases hns : nsf first.pkgRoot with
    | none =>
      simp only
      constructor
      · intro h; cases h
      · rintro ⟨f', r', ns, h1, h2, _⟩
        cases h1
        rw [hns] at h2
        cases h2
    | some ns =>
      simp only [List.mem_append, List.mem_flatMap, mem_nonEmptyOp, hmem]
      constructor
      · rintro ((⟨f, ⟨h1, h2⟩, h3, h4⟩ | ⟨f, h1, h3, h4⟩) | ⟨f, h1, h3, h4⟩)
        · exact ⟨first, rest, ns, rfl, hns, .inl ⟨f, h1, h2, h3, h4⟩⟩
        · obtain ⟨h1, h2⟩ := List.mem_filter.mp h1
          exact ⟨first, rest, ns, rfl, hns, .inr ⟨.tests, .inl rfl, f, h1, by simpa using h2, h3, h4⟩⟩
        · obtain ⟨h1, h2⟩ := List.mem_filter.mp h1
          exact ⟨first, rest, ns, rfl, hns, .inr ⟨.inst, .inr rfl, f, h1, by simpa using h2, h3, h4⟩⟩
      · rintro ⟨f', r', ns', h1, h2, h3⟩
        cases h1
        rw [hns] at h2
        cases h2
        rcases h3 with ⟨f, h1, h2, h3, h4⟩ | ⟨sc, hsc, f, h1, h2, h3, h4⟩
        · exact .inl (.inl ⟨f, ⟨h1, h2⟩, h3, h4⟩)
        · rcases hsc with rfl | rfl
          · exact .inl (.inr ⟨f, List.mem_filter.mpr ⟨h1, by simpa using h2⟩, h3, h4⟩)
          · exact .inr ⟨f, List.mem_filter.mpr ⟨h1, by simpa using h2⟩, h3, h4⟩

/-- Which definitions in R/ are reported. -/
theorem unusedInR_iff {alnum : Char → Bool} (hal : Alnum alnum) {env : UnusedEnv} {fs : PkgFs} {paths : List DPath} {root : DPath} {ns : Str}
    {rfiles extra : List SharedFile} {a : Assign} (hne : a.name ≠ [])
    (hr : ∀ f, f ∈ rfiles ↔ ∃ content, RFileIn fs paths (root ++ [['R']]) f.path content ∧
      f = ⟨root ++ [['R']], f.path, root, scanAssigns alnum content, scanSymbols content, .r⟩)
    (he : ∀ f, f ∈ extra ↔ ∃ content, ExtraFile fs paths root f.path content ∧
      f = ⟨root ++ [['R']], f.path, root, if fileScope f.path = .src then [] else scanAssigns alnum content, scanSymbols content, fileScope f.path⟩)
    (hmem : a.name ∈ (rfiles.flatMap (·.assigns)).map (·.name)) :
    unusedInR env (namespaceExports env.re ((rfiles.flatMap (·.assigns)).map (·.name)) ns) rfiles extra a = true ↔
    SeenUnused alnum env fs paths root ns a.name := by
  have hsym : ∀ g, AsciiName g → (g ∈ rfiles.flatMap (·.symbols) ↔ ∃ q content, RFileIn fs paths (root ++ [['R']]) q content ∧ Mentioned content g) := by
    intro g hg
    rw [List.mem_flatMap]
    constructor
    · rintro ⟨f, hf, hs⟩
      obtain ⟨c, h1, h2⟩ := (hr f).mp hf
      rw [h2] at hs
      exact ⟨f.path, c, h1, (C49_mentioned hg).mp hs⟩
    · rintro ⟨q, c, h1, h2⟩
      exact ⟨⟨root ++ [['R']], q, root, scanAssigns alnum c, scanSymbols c, .r⟩, (hr _).mpr ⟨c, h1, rfl⟩, (C49_mentioned hg).mpr h2⟩
  have hex : a.name ∈ extra.flatMap (·.symbols) ↔ AsciiName a.name ∧ ∃ q content, ExtraFile fs paths root q content ∧ Mentioned content a.name := by
    rw [List.mem_flatMap]
    constructor
    · rintro ⟨f, hf, hs⟩
      obtain ⟨c, h1, h2⟩ := (he f).mp hf
      rw [h2] at hs
      have ha := scanSymbols_ascii hs
      exact ⟨ha, f.path, c, h1, (C49_mentioned ha).mp hs⟩
    · rintro ⟨ha, q, c, h1, h2⟩
      exact ⟨⟨root ++ [['R']], q, root, if fileScope q = .src then [] else scanAssigns alnum c, scanSymbols c, fileScope q⟩,
        (he _).mpr ⟨c, h1, rfl⟩, (C49_mentioned ha).mpr h2⟩
  have hs3 : probableS3 (rfiles.flatMap (·.symbols)) [] a.name = true ↔
      ∃ g c, AsciiName g ∧ a.name = g ++ '.' :: c ∧ ∃ q content, RFileIn fs paths (root ++ [['R']]) q content ∧ Mentioned content g := by
    rw [probableS3_iff]
    simp only [List.nil_append]
    constructor
    · rintro ⟨g, c, h1, h2⟩
      have hg : AsciiName g := by
        obtain ⟨f, hf, hs⟩ := List.mem_flatMap.mp h2
        obtain ⟨c', _, h4⟩ := (hr f).mp hf
        rw [h4] at hs
        exact scanSymbols_ascii hs
      exact ⟨g, c, hg, h1, (hsym g hg).mp h2⟩
    · rintro ⟨g, c, h0, h1, h2⟩
      exact ⟨g, c, h1, (hsym g h0).mpr h2⟩
  have hod : occurrencesIn rfiles a.name ≤ definitionsIn rfiles a.name ↔ (AsciiName a.name → ∀ f ∈ rfiles, ∀ content,
      f.assigns = scanAssigns alnum content → f.symbols = scanSymbols content → OnlyDefined alnum content a.name) := by
    by_cases ha : AsciiName a.name
    · rw [occ_le_def hal ha (fs := rfiles) (fun f hf => by
        obtain ⟨c, _, h2⟩ := (hr f).mp hf
        exact ⟨c, by rw [h2], by rw [h2]⟩)]
      exact ⟨fun h _ => h, fun h => h ha⟩
    · have : occurrencesIn rfiles a.name = 0 := by
        unfold occurrencesIn
        rw [List.count_eq_zero]
        intro h
        obtain ⟨f, hf, hs⟩ := List.mem_flatMap.mp h
        obtain ⟨c, _, h2⟩ := (hr f).mp hf
        rw [h2] at hs
        exact ha (scanSymbols_ascii hs)
      rw [this]
      exact ⟨fun _ h => absurd h ha, fun _ => Nat.zero_le _⟩
  unfold unusedInR
  simp only [Bool.and_eq_true, Bool.not_eq_true', decide_eq_true_eq]
  constructor
  · rintro ⟨⟨⟨⟨h1, h2⟩, h3⟩, h4⟩, h5, h6⟩
    refine ⟨?_, ?_, h3, ?_, ?_, ?_⟩
    · rw [← C49_namespace hne hmem]
      intro h
      rw [← List.contains_iff_mem, h1] at h
      cases h
    · intro h
      rw [show packageHooks = Hooks from rfl, ← Bool.not_eq_true, List.contains_iff_mem] at h2
      exact h2 h
    · intro g c hg hgc q content hq hm
      rw [hs3.mpr ⟨g, c, hg, hgc, q, content, hq, hm⟩] at h4
      cases h4
    · intro ha q content hq
      exact hod.mp h5 ha ⟨root ++ [['R']], q, root, scanAssigns alnum content, scanSymbols content, .r⟩ ((hr _).mpr ⟨content, hq, rfl⟩) content rfl rfl
    · intro ha q content hq hm
      have := hex.mpr ⟨ha, q, content, hq, hm⟩
      rw [← List.contains_iff_mem, h6] at this
      cases this
  · rintro ⟨h1, h2, h3, h4, h5, h6⟩
    refine ⟨⟨⟨⟨?_, ?_⟩, h3⟩, ?_⟩, ?_, ?_⟩
    · rw [← Bool.not_eq_true, List.contains_iff_mem, C49_namespace hne hmem]; exact h1
    · rw [← Bool.not_eq_true, List.contains_iff_mem]; exact h2
    · rw [← Bool.not_eq_true, hs3]
      rintro ⟨g, c, hg, hgc, q, content, hq, hm⟩
      exact h4 g c hg hgc q content hq hm
    · rw [hod]
      intro ha f hf content e1 e2
      obtain ⟨c, hq, h7⟩ := (hr f).mp hf
      have hc := file_key hal ha content
      have hc' := file_key hal ha c
      have e3 : f.assigns = scanAssigns alnum c := by rw [h7]
      have e4 : f.symbols = scanSymbols c := by rw [h7]
      apply hc.2.mp
      rw [← e1, ← e2, e3, e4]
      exact hc'.2.mpr (h5 ha f.path c hq)
    · rw [← Bool.not_eq_true, List.contains_iff_mem, hex]
      rintro ⟨ha, q, content, hq, hm⟩
      exact h6 ha q content hq hm

theorem mem_unusedReports {p : Assign → Bool} {f : SharedFile} {r : UnusedReport} :
    r ∈ unusedReports p f ↔ ∃ a ∈ f.assigns, p a = true ∧ r.name = a.name ∧ r.range = a.range ∧ r.line = a.line := by
  unfold unusedReports
  simp only [List.mem_map, List.mem_filter]
  constructor
  · rintro ⟨a, ⟨h1, h2⟩, rfl⟩; exact ⟨a, h1, h2, rfl, rfl, rfl⟩
  · rintro ⟨a, h1, h2, h3, h4, h5⟩
    refine ⟨a, ⟨h1, h2⟩, ?_⟩
    cases r
    simp_all

theorem scanned_ne {alnum : Char → Bool} (hal : Alnum alnum) {content : Str} {a : Assign} (h : a ∈ scanAssigns alnum content) : a.name ≠ [] := by
  obtain ⟨pre, ⟨l, post, _, hd⟩, _⟩ := (C48_scan hal content a).mp h
  generalize a.name = nm at hd
  cases hd with
  | mk name _ _ _ _ hne => exact hne

/-- What is reported, for any name, and the order of the reports. -/
theorem unused_core {alnum : Char → Bool} (hal : Alnum alnum) {env : UnusedEnv} {fs : PkgFs} {paths roots keys : List DPath}
    (hw : PkgWorld fs paths) (hroots : Enumerates roots (· ∈ packageRoots fs paths))
    (hkeys : Enumerates keys (fun k => ∃ f ∈ sharedData alnum true fs roots paths, f.rootKey = k))
    {root : DPath} {file ns : Str} (hp : root ++ [cs! "R", file] ∈ paths) (hin : PackageFile fs (root ++ [cs! "R", file]))
    (hplain : ∀ root' content, ¬ ExtraFile fs paths root' (root ++ [cs! "R", file]) content)
    (hns : fs.read (root ++ [cs! "NAMESPACE"]) = some ns) (r : UnusedReport) :
    r ∈ entryAfter (root ++ [cs! "R", file]) (computeUnused env (namespaceContents fs roots) keys (sharedData alnum true fs roots paths)) ↔
    ∃ pre, DefinedIn alnum fs paths (root ++ [cs! "R"]) (root ++ [cs! "R", file]) pre r.name ∧
      r.range = ⟨blen pre, blen pre + blen r.name⟩ ∧ r.line = 1 + countNl pre ∧ SeenUnused alnum env fs paths root ns r.name := by
  generalize hpeq : root ++ [cs! "R", file] = p at *
  have hdrop : p.dropLast = root ++ [['R']] := by
    rw [← hpeq, show root ++ [cs! "R", file] = (root ++ [['R']]) ++ [file] by simp, List.dropLast_concat]
  have hdd : p.dropLast.dropLast = root := by rw [hdrop, List.dropLast_concat]
  have hrm : root ∈ roots := (hroots.2 root).mpr (mem_packageRoots.mpr ⟨p, hp, hin, hdd⟩)
  have hfm := files_mem (alnum := alnum) (unused := true) hw hroots hp hin
  have hde := data_extra (alnum := alnum) hroots root
  have hplain' : ∀ f ∈ sharedData alnum true fs roots paths, f.path = p → f.scope = .r := by
    intro f hf hfp
    apply Classical.byContradiction
    intro hsc
    have hk : ∃ root', f.rootKey = root' ++ [['R']] := by
      unfold sharedData at hf
      simp only [if_true, List.mem_append, List.mem_filterMap] at hf
      rcases hf with (⟨q, _, hq⟩ | ⟨q, _, hq⟩) | ⟨q, hq1, hq⟩
      · obtain ⟨_, _, c, _, rfl⟩ := scanFile_r.mp hq
        exact absurd rfl hsc
      · obtain ⟨_, _, c, _, rfl⟩ := scanFile_r.mp hq
        exact absurd rfl hsc
      · obtain ⟨root', c, _, _, rfl⟩ := scanFile_extra.mp hq
        exact ⟨root', rfl⟩
    obtain ⟨root', hk⟩ := hk
    obtain ⟨c, h1, _⟩ := (data_extra (alnum := alnum) hroots root' f).mp ⟨hf, hsc, hk⟩
    rw [hfp] at h1
    exact hplain root' c h1
  have hrkey : ∀ f ∈ sharedData alnum true fs roots paths, f.scope = .r → f.rootKey = f.path.dropLast := by
    intro f hf hsc
    unfold sharedData at hf
    simp only [if_true, List.mem_append, List.mem_filterMap] at hf
    rcases hf with (⟨q, _, hq⟩ | ⟨q, _, hq⟩) | ⟨q, hq1, hq⟩
    · obtain ⟨_, _, c, _, rfl⟩ := scanFile_r.mp hq; rfl
    · obtain ⟨_, _, c, _, rfl⟩ := scanFile_r.mp hq; rfl
    · obtain ⟨root', c, _, _, rfl⟩ := scanFile_extra.mp hq
      exact absurd hsc (fileScope_not_r _)
  rw [hdrop] at hfm
  generalize sharedData alnum true fs roots paths = data at *
  let files := data.filter (fun f => f.rootKey = root ++ [['R']])
  have hr : ∀ f, f ∈ files.filter (fun f => f.scope = .r) ↔ ∃ content, RFileIn fs paths (root ++ [['R']]) f.path content ∧
      f = ⟨root ++ [['R']], f.path, root, scanAssigns alnum content, scanSymbols content, .r⟩ := by
    intro f
    have := hfm f
    simp only [if_true, List.dropLast_concat] at this
    rw [← this]
    simp only [files, List.mem_filter, Bool.and_eq_true, decide_eq_true_eq]
    constructor
    · rintro ⟨⟨h1, h2⟩, h3⟩; exact ⟨h1, h3, h2⟩
    · rintro ⟨h1, h2, h3⟩; exact ⟨⟨h1, h3⟩, h2⟩
  have he : ∀ f, f ∈ files.filter (fun f => f.scope ≠ .r) ↔ ∃ content, ExtraFile fs paths root f.path content ∧
      f = ⟨root ++ [['R']], f.path, root, if fileScope f.path = .src then [] else scanAssigns alnum content, scanSymbols content, fileScope f.path⟩ := by
    intro f
    rw [← hde f]
    simp only [files, List.mem_filter, decide_eq_true_eq]
    constructor
    · rintro ⟨⟨h1, h2⟩, h3⟩; exact ⟨h1, h3, h2⟩
    · rintro ⟨h1, h2, h3⟩; exact ⟨⟨h1, h3⟩, h2⟩
  generalize hexp : namespaceExports env.re (((files.filter (fun f => f.scope = .r)).flatMap (·.assigns)).map (·.name)) ns = exports
  generalize hpred : unusedInR env exports (files.filter (fun f => f.scope = .r)) (files.filter (fun f => f.scope ≠ .r)) = pred
  -- the changes of the entry of `p`
  have hops : ∀ op ∈ computeUnused env (namespaceContents fs roots) keys data, op.path = p →
      ∃ content, RFileIn fs paths (root ++ [['R']]) p content ∧
        op = .insert p (unusedReports pred ⟨root ++ [['R']], p, root, scanAssigns alnum content, scanSymbols content, .r⟩) := by
    intro op hop hpath
    obtain ⟨k, _, hop⟩ := List.mem_flatMap.mp hop
    obtain ⟨first, rest, ns', hfirst, hns', h⟩ := mem_unusedPackage.mp hop
    rcases h with ⟨f, hf, hsc, _, rfl⟩ | ⟨sc, hsc, f, hf, hsc', _, rfl⟩
    · obtain ⟨hf1, hk⟩ := List.mem_filter.mp hf
      simp only [decide_eq_true_eq] at hk
      have hfp : f.path = p := hpath
      have hk2 : k = root ++ [['R']] := by rw [← hk, hrkey f hf1 hsc, hfp, hdrop]
      subst hk2
      obtain ⟨c, h1, h2⟩ := (hr f).mp (List.mem_filter.mpr ⟨List.mem_filter.mpr ⟨hf1, by simpa using hk⟩, by simpa using hsc⟩)
      rw [hfp] at h1 h2
      refine ⟨c, h1, ?_⟩
      have hnseq : ns' = ns := by
        obtain ⟨c', _, h4⟩ := (hr first).mp (by show first ∈ List.filter _ _; rw [hfirst]; simp)
        rw [show first.pkgRoot = root by rw [h4], namespaceContents_mem hrm, hns] at hns'
        exact (Option.some.inj hns').symm
      subst hnseq
      change MapOp.insert f.path (unusedReports (unusedInR env (namespaceExports env.re
        (((files.filter (fun f => f.scope = .r)).flatMap (·.assigns)).map (·.name)) ns') (files.filter (fun f => f.scope = .r))
        (files.filter (fun f => f.scope ≠ .r))) f) = _
      rw [hexp, hpred, hfp, h2]
    · obtain ⟨hf, hk⟩ := List.mem_filter.mp hf
      have := hplain' f hf hpath
      rw [this] at hsc'
      rcases hsc with rfl | rfl <;> cases hsc'
  have hpredU : ∀ a content, RFileIn fs paths (root ++ [['R']]) p content → a ∈ scanAssigns alnum content →
      (pred a = true ↔ SeenUnused alnum env fs paths root ns a.name) := by
    intro a content hc ha
    rw [← hpred, ← hexp]
    refine unusedInR_iff hal (scanned_ne hal ha) hr he ?_
    simp only [List.mem_map, List.mem_flatMap]
    exact ⟨a, ⟨⟨root ++ [['R']], p, root, scanAssigns alnum content, scanSymbols content, .r⟩, (hr _).mpr ⟨content, hc, rfl⟩, ha⟩, rfl⟩
  cases hread : fs.read p with
  | none =>
    have hno : ∀ content, ¬ RFileIn fs paths (root ++ [['R']]) p content := by
      intro content h
      have := h.read
      rw [hread] at this
      cases this
    constructor
    · intro h
      have := (entryAfter_insert (l := []) (fun op hop hpath => by
        obtain ⟨c, h1, _⟩ := hops op hop hpath
        exact absurd h1 (hno c)) r).mp h
      exact absurd this.1 (by simp)
    · rintro ⟨pre, ⟨content, h1, _⟩, _⟩
      exact absurd h1 (hno content)
  | some content =>
    have hrf : RFileIn fs paths (root ++ [['R']]) p content :=
      ⟨hdrop, (inPackageR_iff.mp hin).1, hread, .inl hp⟩
    have huniq : ∀ c, RFileIn fs paths (root ++ [['R']]) p c → c = content := by
      intro c h
      have := h.read
      rw [hread] at this
      exact (Option.some.inj this).symm
    rw [entryAfter_insert (l := unusedReports pred ⟨root ++ [['R']], p, root, scanAssigns alnum content, scanSymbols content, .r⟩)
      (fun op hop hpath => by
        obtain ⟨c, h1, h2⟩ := hops op hop hpath
        rw [huniq c h1] at h2
        exact h2)]
    constructor
    · rintro ⟨h1, _⟩
      obtain ⟨a, h2, h3, h4, h5, h6⟩ := mem_unusedReports.mp h1
      obtain ⟨pre, h7, h8, h9⟩ := (C48_scan hal content a).mp h2
      have hu := (hpredU a content hrf h2).mp h3
      rw [← h4] at h7 h8 hu
      exact ⟨pre, ⟨content, hrf, h7⟩, by rw [h5, h8], by rw [h6, h9], hu⟩
    · rintro ⟨pre, ⟨c, h1, h2⟩, h3, h4, h5⟩
      have := huniq c h1
      subst this
      have ha : (⟨r.name, r.range, r.line⟩ : Assign) ∈ scanAssigns alnum c := (C48_scan hal c _).mpr ⟨pre, h2, h3, h4⟩
      have hmem : r ∈ unusedReports pred ⟨root ++ [['R']], p, root, scanAssigns alnum c, scanSymbols c, .r⟩ :=
        mem_unusedReports.mpr ⟨_, ha, (hpredU _ c h1 ha).mpr h5, rfl, rfl, rfl⟩
      refine ⟨hmem, ?_⟩
      have hfile := (hr ⟨root ++ [['R']], p, root, scanAssigns alnum c, scanSymbols c, .r⟩).mpr ⟨c, h1, rfl⟩
      obtain ⟨hfile1, hfile2⟩ := List.mem_filter.mp hfile
      have hkey : root ++ [['R']] ∈ keys := (hkeys.2 _).mpr ⟨_, (List.mem_filter.mp hfile1).1, rfl⟩
      refine ⟨.insert p (unusedReports pred ⟨root ++ [['R']], p, root, scanAssigns alnum c, scanSymbols c, .r⟩),
        List.mem_flatMap.mpr ⟨_, hkey, mem_unusedPackage.mpr ?_⟩, rfl⟩
      obtain ⟨first, rest, hrl⟩ : ∃ first rest, files.filter (fun f => f.scope = .r) = first :: rest :=
        List.exists_cons_of_ne_nil (List.ne_nil_of_mem hfile)
      · refine ⟨first, rest, ns, hrl, ?_, .inl ⟨_, hfile1, rfl, ?_⟩⟩
        · obtain ⟨c', _, h7⟩ := (hr first).mp (by rw [hrl]; simp)
          rw [show first.pkgRoot = root by rw [h7], namespaceContents_mem hrm, hns]
        · change unusedReports (unusedInR env (namespaceExports env.re
              (((files.filter (fun f => f.scope = .r)).flatMap (·.assigns)).map (·.name)) ns) (files.filter (fun f => f.scope = .r))
              (files.filter (fun f => f.scope ≠ .r))) _ ≠ [] ∧ _ = MapOp.insert _ (unusedReports (unusedInR env (namespaceExports env.re
              (((files.filter (fun f => f.scope = .r)).flatMap (·.assigns)).map (·.name)) ns) (files.filter (fun f => f.scope = .r))
              (files.filter (fun f => f.scope ≠ .r))) _)
          rw [hexp, hpred]
          refine ⟨?_, rfl⟩
          intro hnil
          rw [hnil] at hmem
          cases hmem

theorem seenUnused_ascii {alnum : Char → Bool} {env : UnusedEnv} {fs : PkgFs} {paths : List DPath} {root : DPath} {ns name : Str}
    (ha : AsciiName name) : SeenUnused alnum env fs paths root ns name ↔ Unused alnum env fs paths root ns name := by
  constructor
  · rintro ⟨h1, h2, h3, h4, h5, h6⟩
    exact ⟨h1, h2, h3, fun g c hg hgc => h4 g c (asciiName_prefix (hgc ▸ ha) hg) hgc, h5 ha, h6 ha⟩
  · rintro ⟨h1, h2, h3, h4, h5, h6⟩
    exact ⟨h1, h2, h3, fun g c hg hgc => h4 g c (asciiName_ne hg) hgc, fun _ => h5, fun _ => h6⟩

/-- **C49**: in a file directly in the R directory of a package with a NAMESPACE file, a definition of a function with an ASCII
name is reported exactly when the function is unused; the report covers the name. -/
theorem C49_reported {alnum : Char → Bool} (hal : Alnum alnum) {env : UnusedEnv} {fs : PkgFs} {paths roots keys : List DPath}
    (hw : PkgWorld fs paths) (hroots : Enumerates roots (· ∈ packageRoots fs paths))
    (hkeys : Enumerates keys (fun k => ∃ f ∈ sharedData alnum true fs roots paths, f.rootKey = k))
    {root : DPath} {file ns : Str} (hp : root ++ [cs! "R", file] ∈ paths) (hin : PackageFile fs (root ++ [cs! "R", file]))
    (hplain : ∀ root' content, ¬ ExtraFile fs paths root' (root ++ [cs! "R", file]) content)
    (hns : fs.read (root ++ [cs! "NAMESPACE"]) = some ns) (r : UnusedReport) (hr : AsciiName r.name) :
    r ∈ entryAfter (root ++ [cs! "R", file]) (computeUnused env (namespaceContents fs roots) keys (sharedData alnum true fs roots paths)) ↔
    ∃ pre, DefinedIn alnum fs paths (root ++ [cs! "R"]) (root ++ [cs! "R", file]) pre r.name ∧
      r.range = ⟨blen pre, blen pre + blen r.name⟩ ∧ r.line = 1 + countNl pre ∧ Unused alnum env fs paths root ns r.name := by
  rw [unused_core hal hw hroots hkeys hp hin hplain hns]
  simp only [seenUnused_ascii hr]

end Jarl
