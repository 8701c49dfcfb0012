import Verif.Props.PackageScan
/-!
# C48: duplicated function definitions
-/
namespace Jarl
open Spec

/-! ## The loop -/

/-- All definitions of the files, in order. -/
def events (fs : List SharedFile) : List (DPath × Assign) := fs.flatMap (fun f => f.assigns.map (fun a => (f.path, a)))

/-- The first definition of a name. -/
def firstOf (name : Str) (evs : List (DPath × Assign)) : Option (DPath × Assign) := evs.find? (fun e => e.2.name = name)

/-- `seen` holds the first definitions of `evs`. -/
def SeenInv (seen : List (Str × DPath × Nat)) (evs : List (DPath × Assign)) : Prop :=
  ∀ name, (seen.find? (fun e => e.1 = name)).map (·.2) = (firstOf name evs).map (fun e => (e.1, e.2.line))

theorem dupFile_spec (path : DPath) (as : List Assign) : ∀ (seen : List (Str × DPath × Nat)) (evs : List (DPath × Assign)),
    SeenInv seen evs →
    SeenInv (dupFile path seen as).1 (evs ++ as.map (fun a => (path, a))) ∧
    ∀ r, r ∈ (dupFile path seen as).2 ↔ ∃ as1 a as2 e, as = as1 ++ a :: as2 ∧
      firstOf a.name (evs ++ as1.map (fun a => (path, a))) = some e ∧ r = ⟨a.name, a.range, e.1, e.2.line⟩ := by
  induction as with
  | nil =>
    intro seen evs h
    refine ⟨by simpa [dupFile] using h, ?_⟩
    intro r
    simp [dupFile]
  | cons a as ih =>
    intro seen evs h
    have hsplit : ∀ (P : Assign → List Assign → Prop), (∃ as1 x as2, a :: as = as1 ++ x :: as2 ∧ P x as1) ↔
        P a [] ∨ ∃ as1 x as2, as = as1 ++ x :: as2 ∧ P x (a :: as1) := by
      intro P
      constructor
      · rintro ⟨as1, x, as2, e, hp⟩
        cases as1 with
        | nil => simp at e; left; rw [e.1]; exact hp
        | cons b bs => simp at e; right; exact ⟨bs, x, as2, e.2, by rw [e.1]; exact hp⟩
      · rintro (hp | ⟨as1, x, as2, e, hp⟩)
        · exact ⟨[], a, as, rfl, hp⟩
        · exact ⟨a :: as1, x, as2, by rw [e]; rfl, hp⟩
    have hreorder : ∀ r, (∃ as1 x as2 e, a :: as = as1 ++ x :: as2 ∧
        firstOf x.name (evs ++ as1.map (fun a => (path, a))) = some e ∧ r = (⟨x.name, x.range, e.1, e.2.line⟩ : DupReport)) ↔
        (∃ e, firstOf a.name evs = some e ∧ r = ⟨a.name, a.range, e.1, e.2.line⟩) ∨
        (∃ as1 x as2 e, as = as1 ++ x :: as2 ∧
          firstOf x.name ((evs ++ [(path, a)]) ++ as1.map (fun a => (path, a))) = some e ∧ r = ⟨x.name, x.range, e.1, e.2.line⟩) := by
      intro r
      have := hsplit (fun x as1 => ∃ e, firstOf x.name (evs ++ as1.map (fun a => (path, a))) = some e ∧ r = ⟨x.name, x.range, e.1, e.2.line⟩)
      constructor
      · rintro ⟨as1, x, as2, e, h1, h2⟩
        rcases this.mp ⟨as1, x, as2, h1, e, h2⟩ with ⟨e, he⟩ | ⟨as1, x, as2, h1, e, h2⟩
        · left; exact ⟨e, by simpa using he⟩
        · right; exact ⟨as1, x, as2, e, h1, by simpa using h2⟩
      · rintro (⟨e, he⟩ | ⟨as1, x, as2, e, h1, h2⟩)
        · obtain ⟨as1, x, as2, h1, e, h2⟩ := this.mpr (.inl ⟨e, by simpa using he⟩)
          exact ⟨as1, x, as2, e, h1, h2⟩
        · obtain ⟨as1, x, as2, h1, e, h2⟩ := this.mpr (.inr ⟨as1, x, as2, h1, e, by simpa using h2⟩)
          exact ⟨as1, x, as2, e, h1, h2⟩
    have happ : evs ++ List.map (fun a => (path, a)) (a :: as) = (evs ++ [(path, a)]) ++ as.map (fun a => (path, a)) := by simp
    unfold dupFile
    cases hf : seen.find? (fun e => e.1 = a.name) with
    | some e0 =>
      have hinv := h a.name
      rw [hf] at hinv
      obtain ⟨e, he⟩ : ∃ e, firstOf a.name evs = some e := by
        cases hfo : firstOf a.name evs with
        | none => rw [hfo] at hinv; cases hinv
        | some e => exact ⟨e, rfl⟩
      rw [he] at hinv
      simp at hinv
      have h2 : SeenInv seen (evs ++ [(path, a)]) := by
        intro name
        rw [h name]
        unfold firstOf
        rw [List.find?_append]
        cases hx : List.find? (fun e => decide (e.2.name = name)) evs with
        | some y => rfl
        | none =>
          by_cases hn : a.name = name
          · subst hn; unfold firstOf at he; rw [he] at hx; cases hx
          · simp [hn]
      obtain ⟨i1, i2⟩ := ih seen _ h2
      rw [happ]
      refine ⟨i1, ?_⟩
      intro r
      rw [hreorder, ← i2]
      simp only [List.mem_cons]
      constructor
      · rintro (rfl | hr)
        · left; exact ⟨e, he, by simp [hinv]⟩
        · right; exact hr
      · rintro (⟨e', he', rfl⟩ | hr)
        · left
          rw [he] at he'
          cases he'
          simp [hinv]
        · right; exact hr
    | none =>
      have hinv := h a.name
      rw [hf] at hinv
      have hnone : firstOf a.name evs = none := by
        cases hfo : firstOf a.name evs with
        | none => rfl
        | some e => rw [hfo] at hinv; cases hinv
      have h2 : SeenInv (seen ++ [(a.name, path, a.line)]) (evs ++ [(path, a)]) := by
        intro name
        have hn := h name
        unfold firstOf at hn ⊢
        rw [List.find?_append, List.find?_append]
        cases hx : List.find? (fun e => decide (e.2.name = name)) evs with
        | some y =>
          rw [hx] at hn
          cases hs : List.find? (fun e => decide (e.1 = name)) seen with
          | none => rw [hs] at hn; cases hn
          | some z => rw [hs] at hn; simpa using hn
        | none =>
          rw [hx] at hn
          cases hs : List.find? (fun e => decide (e.1 = name)) seen with
          | some z => rw [hs] at hn; cases hn
          | none =>
            by_cases hnn : a.name = name
            · simp [hnn]
            · simp [hnn]
      obtain ⟨i1, i2⟩ := ih _ _ h2
      rw [happ]
      refine ⟨i1, ?_⟩
      intro r
      rw [hreorder, ← i2]
      constructor
      · exact .inr
      · rintro (⟨e', he', _⟩ | hr)
        · rw [hnone] at he'; cases he'
        · exact hr

theorem dupFiles_paths (fs : List SharedFile) : ∀ seen p l, (p, l) ∈ dupFiles seen fs → p ∈ fs.map (·.path) := by
  induction fs with
  | nil => intro seen p l h; cases h
  | cons f fs ih =>
    intro seen p l h
    unfold dupFiles at h
    rcases List.mem_append.mp h with h | h
    · split at h
      · cases h
      · simp at h; simp [h.1]
    · simp only [List.map_cons, List.mem_cons]; right; exact ih _ _ _ h

theorem dupFiles_get (fs1 : List SharedFile) : ∀ (f : SharedFile) (fs2 : List SharedFile) (seen : List (Str × DPath × Nat))
    (evs : List (DPath × Assign)), SeenInv seen evs → ((fs1 ++ f :: fs2).map (·.path)).Nodup →
    ∃ s, SeenInv s (evs ++ events fs1) ∧
      ∀ l, (f.path, l) ∈ dupFiles seen (fs1 ++ f :: fs2) ↔ l ≠ [] ∧ l = (dupFile f.path s f.assigns).2 := by
  induction fs1 with
  | nil =>
    intro f fs2 seen evs h hn
    refine ⟨seen, by simpa [events] using h, ?_⟩
    intro l
    simp only [List.nil_append]
    unfold dupFiles
    simp only [List.mem_append]
    constructor
    · rintro (hl | hl)
      · split at hl
        · cases hl
        · rename_i hne
          simp at hl
          subst hl
          exact ⟨hne, rfl⟩
      · have := dupFiles_paths _ _ _ _ hl
        simp at hn
        obtain ⟨x, hx, hxe⟩ := List.mem_map.mp this
        exact absurd hxe (hn.1 x hx)
    · rintro ⟨hl, rfl⟩
      left
      rw [if_neg hl]
      simp
  | cons g gs ih =>
    intro f fs2 seen evs h hn
    obtain ⟨d1, _⟩ := dupFile_spec g.path g.assigns seen evs h
    have hn' : g.path ∉ (gs ++ f :: fs2).map (·.path) ∧ ((gs ++ f :: fs2).map (·.path)).Nodup := by
      rw [List.cons_append, List.map_cons, List.nodup_cons] at hn
      exact hn
    obtain ⟨s, hs, hl⟩ := ih f fs2 _ _ d1 hn'.2
    refine ⟨s, ?_, ?_⟩
    · have : evs ++ events (g :: gs) = evs ++ List.map (fun a => (g.path, a)) g.assigns ++ events gs := by
        simp [events]
      rw [this]; exact hs
    · intro l
      rw [← hl]
      simp only [List.cons_append]
      conv => lhs; unfold dupFiles
      simp only [List.mem_append]
      constructor
      · rintro (hx | hx)
        · split at hx
          · cases hx
          · simp at hx
            exact absurd (by rw [← hx.1]; simp) hn'.1
        · exact hx
      · exact .inr

theorem mem_reportsFor {α} {p : DPath} {m : List (DPath × List α)} (hu : ∀ l l', (p, l) ∈ m → (p, l') ∈ m → l = l') (r : α) :
    r ∈ reportsFor p m ↔ ∃ l, (p, l) ∈ m ∧ r ∈ l := by
  unfold reportsFor lastEntry
  cases hf : m.reverse.find? (fun e => decide (e.1 = p)) with
  | none =>
    simp only [Option.map_none, Option.getD_none, List.not_mem_nil, false_iff]
    rintro ⟨l, hl, _⟩
    have := List.find?_eq_none.mp hf (p, l) (by simp [hl])
    simp at this
  | some e =>
    have h1 := List.mem_of_find?_eq_some hf
    have h2 := List.find?_some hf
    simp at h1 h2
    obtain ⟨q, l⟩ := e
    simp at h2
    subst h2
    simp only [Option.map_some, Option.getD_some]
    constructor
    · intro hr; exact ⟨l, h1, hr⟩
    · rintro ⟨l', hl', hr⟩
      rw [hu l l' h1 hl']; exact hr

/-! ## The files of a package -/

theorem fileScope_not_r (p : DPath) : fileScope p ≠ .r := by
  induction p with
  | nil => simp [fileScope]
  | cons c cs ih =>
    unfold fileScope
    split
    · simp
    · split
      · split
        · split
          · simp
          · exact ih
        · exact ih
      · split
        · simp
        · exact ih

theorem scanFile_r {alnum : Char → Bool} {unused : Bool} {fs : PkgFs} {p : DPath} {f : SharedFile} :
    scanFile alnum unused fs p .r = some f ↔ p ≠ [] ∧ p.dropLast ≠ [] ∧ ∃ content, fs.read p = some content ∧
      f = ⟨p.dropLast, p, p.dropLast.dropLast, scanAssigns alnum content, if unused then scanSymbols content else [], .r⟩ := by
  unfold scanFile
  cases fs.read p with
  | none => simp
  | some content =>
    simp only [if_true, parentDir]
    by_cases h1 : p = []
    · simp [h1]
    · simp only [h1, if_false]
      by_cases h2 : p.dropLast = []
      · simp [h2]
      · simp [h2, h1, eq_comm]

theorem scanFile_other {alnum : Char → Bool} {unused : Bool} {fs : PkgFs} {p : DPath} {sc : PScope} {f : SharedFile} (hsc : sc ≠ .r)
    (h : scanFile alnum unused fs p sc = some f) : f.scope = sc ∧ f.path = p := by
  unfold scanFile at h
  split at h
  · cases h
  · simp only [hsc, if_false] at h
    split at h
    · cases h
    · cases h; exact ⟨rfl, rfl⟩

/-- The files of R directories in the scanned data, in order. -/
theorem sharedData_r {alnum : Char → Bool} {unused : Bool} {fs : PkgFs} {roots paths : List DPath} (d : DPath) :
    (sharedData alnum unused fs roots paths).filter (fun f => f.scope = .r && f.rootKey = d) =
    ((paths.filter (inPackageR fs) ++ roots.flatMap (excludedR fs (paths.filter (inPackageR fs)))).filterMap
      (fun p => scanFile alnum unused fs p .r)).filter (fun f => f.rootKey = d) := by
  have hscr : ∀ l : List DPath, ((l.filterMap (fun p => scanFile alnum unused fs p .r)).filter (fun f => f.scope = .r && f.rootKey = d)) =
      (l.filterMap (fun p => scanFile alnum unused fs p .r)).filter (fun f => f.rootKey = d) := by
    intro l
    apply List.filter_congr
    intro f hf
    obtain ⟨q, _, hq⟩ := List.mem_filterMap.mp hf
    obtain ⟨_, _, c, _, rfl⟩ := scanFile_r.mp hq
    simp
  have hextra : ((if unused then (roots.flatMap (extraFiles fs)).filterMap (fun p => scanFile alnum unused fs p (fileScope p)) else []).filter
      (fun f => f.scope = .r && f.rootKey = d)) = [] := by
    rw [List.filter_eq_nil_iff]
    intro f hf
    split at hf
    · obtain ⟨q, _, hq⟩ := List.mem_filterMap.mp hf
      have := (scanFile_other (fileScope_not_r q) hq).1
      simp [this, fileScope_not_r q]
    · cases hf
  unfold sharedData
  simp only []
  rw [List.filter_append, List.filter_append, hextra, hscr, hscr, List.append_nil, List.filterMap_append, List.filter_append]

theorem fileExt_iff {q : DPath} {e : Str} : fileExt q = some e ↔ HasExt e q := by
  unfold fileExt HasExt
  rcases List.eq_nil_or_concat q with rfl | ⟨d, n, rfl⟩
  · simp
  · rw [List.concat_eq_append, List.getLast?_concat]
    simp only []
    cases hs : splitLast '.' n with
    | none =>
      simp only [reduceCtorEq, false_iff]
      rintro ⟨d', stem, h, _⟩
      obtain ⟨_, h⟩ := List.append_inj' h rfl
      cases h
      have := splitLast_none.mp hs
      simp at this
    | some x =>
      obtain ⟨a, e'⟩ := x
      obtain ⟨rfl, hn⟩ := splitLast_iff.mp hs
      simp only []
      constructor
      · intro h
        split at h
        · cases h
        · rename_i ha
          cases h
          exact ⟨d, a, rfl, ha, hn⟩
      · rintro ⟨d', stem, h, hne, hn'⟩
        obtain ⟨_, h⟩ := List.append_inj' h rfl
        simp only [List.cons.injEq, and_true] at h
        have h1 : splitLast '.' (a ++ '.' :: e') = some (stem, e) := splitLast_iff.mpr ⟨h, hn'⟩
        rw [hs] at h1
        cases h1
        rw [if_neg hne]

theorem isRFile_iff {q : DPath} : isRFile q = true ↔ RFile q := by
  unfold isRFile RFile
  rw [← fileExt_iff, ← fileExt_iff]
  simp only [Bool.or_eq_true, decide_eq_true_eq]
  exact or_comm

theorem isCppFile_iff {q : DPath} : isCppFile q = true ↔ CFile q := by
  unfold isCppFile CFile
  rw [← fileExt_iff, ← fileExt_iff, ← fileExt_iff, ← fileExt_iff]
  simp only [Bool.or_eq_true, decide_eq_true_eq, or_assoc]

theorem inPackageR_dir {fs : PkgFs} {p : DPath} : inPackageR fs p = true ↔
    isRFile p = true ∧ p ≠ [] ∧ ∃ root, p.dropLast = root ++ [['R']] ∧ fs.description root = true := by
  unfold inPackageR parentDir
  by_cases h : p = []
  · simp [h]
  · simp only [h, if_false, ne_eq, not_false_eq_true, true_and, Bool.and_eq_true]
    apply and_congr_right
    intro _
    cases hl : p.dropLast.getLast? with
    | none =>
      simp only [Bool.false_eq_true, false_iff]
      rintro ⟨root, hr, _⟩
      rw [hr] at hl
      simp at hl
    | some n =>
      obtain ⟨q, hq⟩ := List.getLast?_eq_some_iff.mp hl
      simp only [Bool.and_eq_true, decide_eq_true_eq]
      rw [hq]
      constructor
      · rintro ⟨rfl, h2⟩
        exact ⟨q, rfl, by simpa using h2⟩
      · rintro ⟨root, hr, hd⟩
        obtain ⟨rfl, hn⟩ := List.append_inj' hr rfl
        cases hn
        exact ⟨rfl, by simpa using hd⟩

theorem packageFile_iff {fs : PkgFs} {p : DPath} : inPackageR fs p = true ↔ PackageFile fs p := by
  rw [inPackageR_dir, isRFile_iff]
  unfold PackageFile
  apply and_congr_right
  intro _
  constructor
  · rintro ⟨hne, root, h, hd⟩
    rcases List.eq_nil_or_concat p with rfl | ⟨d, n, rfl⟩
    · exact absurd rfl hne
    · rw [List.concat_eq_append, List.dropLast_concat] at h
      subst h
      exact ⟨root, n, by simp, hd⟩
  · rintro ⟨root, file, rfl, hd⟩
    refine ⟨by simp, root, ?_, hd⟩
    rw [show root ++ [cs! "R", file] = (root ++ [['R']]) ++ [file] by simp, List.dropLast_concat]

theorem inPackageR_iff {fs : PkgFs} {p : DPath} : PackageFile fs p ↔
    RFile p ∧ p ≠ [] ∧ ∃ root, p.dropLast = root ++ [['R']] ∧ fs.description root = true := by
  rw [← packageFile_iff, inPackageR_dir, isRFile_iff]

theorem mem_packageRoots {fs : PkgFs} {paths : List DPath} {r : DPath} :
    r ∈ packageRoots fs paths ↔ ∃ p ∈ paths, PackageFile fs p ∧ p.dropLast.dropLast = r := by
  unfold packageRoots
  rw [List.mem_eraseDups]
  simp only [List.mem_map, List.mem_filter]
  constructor
  · rintro ⟨p, ⟨h1, h2⟩, h3⟩; exact ⟨p, h1, packageFile_iff.mp h2, h3⟩
  · rintro ⟨p, h1, h2, h3⟩; exact ⟨p, ⟨h1, packageFile_iff.mpr h2⟩, h3⟩

/-- A root, seen from a given file. -/
theorem root_dir {fs : PkgFs} {paths : List DPath} {r : DPath} (h : r ∈ packageRoots fs paths) :
    ∃ p ∈ paths, PackageFile fs p ∧ p.dropLast = r ++ [['R']] := by
  obtain ⟨p, hp, hin, rfl⟩ := mem_packageRoots.mp h
  obtain ⟨_, _, root, hr, _⟩ := inPackageR_iff.mp hin
  refine ⟨p, hp, hin, ?_⟩
  rw [hr]; simp

theorem mem_excludedR {fs : PkgFs} {given : List DPath} {root q : DPath} :
    q ∈ excludedR fs given root ↔ q ∈ fs.below (root ++ [['R']]) ∧ RFile q ∧ q ∉ given := by
  unfold excludedR
  simp only [List.mem_filter, List.contains_eq_mem, Bool.not_eq_true', decide_eq_false_iff_not, and_assoc, isRFile_iff]

theorem prefix_dropLast {d q : DPath} (h : d <+: q) (hne : d ≠ q) : d <+: q.dropLast := by
  obtain ⟨t, rfl⟩ := h
  rcases List.eq_nil_or_concat t with rfl | ⟨t', x, rfl⟩
  · simp at hne
  · refine ⟨t', ?_⟩
    have : d ++ (t' ++ [x]) = (d ++ t') ++ [x] := by simp
    rw [List.concat_eq_append, this, List.dropLast_concat]

/-- The scanned files of the R directory of `p`. -/
theorem files_mem {alnum : Char → Bool} {unused : Bool} {fs : PkgFs} {roots paths : List DPath} (hw : PkgWorld fs paths)
    (hroots : Enumerates roots (· ∈ packageRoots fs paths)) {p : DPath} (hp : p ∈ paths) (hin : PackageFile fs p) (f : SharedFile) :
    f ∈ (sharedData alnum unused fs roots paths).filter (fun f => f.scope = .r && f.rootKey = p.dropLast) ↔
    ∃ content, RFileIn fs paths p.dropLast f.path content ∧
      f = ⟨p.dropLast, f.path, p.dropLast.dropLast, scanAssigns alnum content, if unused then scanSymbols content else [], .r⟩ := by
  obtain ⟨_, hpne, root, hroot, hdesc⟩ := inPackageR_iff.mp hin
  have hrm : root ∈ packageRoots fs paths := mem_packageRoots.mpr ⟨p, hp, hin, by rw [hroot]; simp⟩
  rw [sharedData_r]
  simp only [List.mem_filter, List.mem_filterMap, List.mem_append, List.mem_flatMap, decide_eq_true_eq]
  constructor
  · rintro ⟨⟨q, hq, hs⟩, hk⟩
    obtain ⟨h1, h2, content, hread, rfl⟩ := scanFile_r.mp hs
    simp only at hk ⊢
    refine ⟨content, ⟨hk, ?_, hread, ?_⟩, by rw [hk]⟩
    · rcases hq with ⟨_, hq⟩ | ⟨r, _, hq⟩
      · exact (inPackageR_iff.mp (packageFile_iff.mp hq)).1
      · exact (mem_excludedR.mp hq).2.1
    · rcases hq with ⟨hq, _⟩ | ⟨r, hr, hq⟩
      · exact .inl hq
      · right
        obtain ⟨hb, _⟩ := mem_excludedR.mp hq
        obtain ⟨hpre, hne⟩ := hw.below_under _ _ hb
        have hpre := prefix_dropLast hpre hne
        rw [hk] at hpre
        obtain ⟨p', hp', hin', hd'⟩ := root_dir ((hroots.2 r).mp hr)
        have := hw.apart p' hp' p hp hin' hin (by rw [hd']; exact hpre)
        rw [← this, hd']
        exact hb
  · rintro ⟨content, hR, hf⟩
    have hfne : f.path ≠ [] := by
      intro h
      have := hR.parent
      rw [h, hroot] at this
      simp at this
    refine ⟨⟨f.path, ?_, ?_⟩, ?_⟩
    · by_cases hg : f.path ∈ List.filter (inPackageR fs) paths
      · left; simpa [List.mem_filter] using hg
      · right
        have hbel : f.path ∈ fs.below p.dropLast := by
          rcases hR.found with h | h
          · exfalso
            apply hg
            rw [List.mem_filter]
            exact ⟨h, packageFile_iff.mpr <| inPackageR_iff.mpr ⟨hR.ext, hfne, root, by rw [hR.parent, hroot], hdesc⟩⟩
          · exact h
        refine ⟨root, (hroots.2 root).mpr hrm, mem_excludedR.mpr ⟨?_, hR.ext, hg⟩⟩
        rw [← hroot]; exact hbel
    · rw [scanFile_r]
      refine ⟨hfne, ?_, content, hR.read, ?_⟩
      · rw [hR.parent, hroot]; simp
      · rw [hR.parent]; exact hf
    · rw [hf]

theorem nodup_flatMap_of {α β} {l : List α} {g : α → List β} (hl : l.Nodup) (h1 : ∀ a ∈ l, (g a).Nodup)
    (h2 : ∀ a ∈ l, ∀ b ∈ l, ∀ x, x ∈ g a → x ∈ g b → a = b) : (l.flatMap g).Nodup := by
  induction l with
  | nil => simp
  | cons a l ih =>
    rw [List.flatMap_cons, List.nodup_append]
    rw [List.nodup_cons] at hl
    refine ⟨h1 a (by simp), ih hl.2 (fun b hb => h1 b (by simp [hb])) (fun b hb c hc => h2 b (by simp [hb]) c (by simp [hc])), ?_⟩
    intro x hx y hy hxy
    subst hxy
    obtain ⟨b, hb, hxb⟩ := List.mem_flatMap.mp hy
    have := h2 a (by simp) b (by simp [hb]) x hx hxb
    subst this
    exact hl.1 hb

theorem files_nodup {alnum : Char → Bool} {unused : Bool} {fs : PkgFs} {roots paths : List DPath} (hw : PkgWorld fs paths)
    (hroots : Enumerates roots (· ∈ packageRoots fs paths)) (d : DPath) :
    (((sharedData alnum unused fs roots paths).filter (fun f => f.scope = .r && f.rootKey = d)).map (·.path)).Nodup := by
  rw [sharedData_r]
  have hnd : (paths.filter (inPackageR fs) ++ roots.flatMap (excludedR fs (paths.filter (inPackageR fs)))).Nodup := by
    rw [List.nodup_append]
    refine ⟨hw.paths_nodup.filter _, ?_, ?_⟩
    · apply nodup_flatMap_of hroots.1
      · intro r _
        unfold excludedR
        exact ((hw.below_nodup _).filter _).filter _
      · intro r1 h1 r2 h2 q hq1 hq2
        obtain ⟨b1, _⟩ := mem_excludedR.mp hq1
        obtain ⟨b2, _⟩ := mem_excludedR.mp hq2
        obtain ⟨p1, hp1, hi1, hd1⟩ := root_dir ((hroots.2 r1).mp h1)
        obtain ⟨p2, hp2, hi2, hd2⟩ := root_dir ((hroots.2 r2).mp h2)
        have u1 := (hw.below_under _ _ b1).1
        have u2 := (hw.below_under _ _ b2).1
        have : r1 ++ [['R']] = r2 ++ [['R']] := by
          rw [← hd1, ← hd2] at *
          rcases List.prefix_or_prefix_of_prefix u1 u2 with h | h
          · exact hw.apart p1 hp1 p2 hp2 hi1 hi2 h
          · exact (hw.apart p2 hp2 p1 hp1 hi2 hi1 h).symm
        exact (List.append_inj' this rfl).1
    · intro x hx y hy hxy
      subst hxy
      obtain ⟨r, _, hr⟩ := List.mem_flatMap.mp hy
      exact (mem_excludedR.mp hr).2.2 hx
  have : ∀ l : List DPath, l.Nodup → ((l.filterMap (fun p => scanFile alnum unused fs p .r)).map (·.path)).Nodup := by
    intro l hl
    induction l with
    | nil => simp
    | cons q l ih =>
      rw [List.nodup_cons] at hl
      rw [List.filterMap_cons]
      split
      · exact ih hl.2
      · rename_i f hf
        rw [List.map_cons, List.nodup_cons]
        refine ⟨?_, ih hl.2⟩
        intro hm
        obtain ⟨g, hg, hge⟩ := List.mem_map.mp hm
        obtain ⟨q', hq', hs'⟩ := List.mem_filterMap.mp hg
        obtain ⟨_, _, _, _, rfl⟩ := scanFile_r.mp hf
        obtain ⟨_, _, _, _, rfl⟩ := scanFile_r.mp hs'
        simp at hge
        subst hge
        exact hl.1 hq'
  exact (List.Sublist.map _ List.filter_sublist).nodup (this _ hnd)

/-! ## Order -/

theorem before_asymm {le : DPath → DPath → Bool} (ho : TotalOrder le) {q p : DPath} {s t : Nat} (h : Before le q s p t) :
    ¬ Before le p t q s := by
  rintro (⟨h1, h2⟩ | ⟨h1, h2⟩)
  · rcases h with ⟨_, h3⟩ | ⟨h3, _⟩
    · omega
    · exact h3 h1.symm
  · rcases h with ⟨h3, _⟩ | ⟨h3, h4⟩
    · exact h1 h3.symm
    · exact h3 (ho.antisymm _ _ h4 h2)

theorem find_first {α} {R : α → α → Prop} {P : α → Bool} (has : ∀ a b, R a b → ¬ R b a) {E1 E2 : List α} {x e : α}
    (hp : (E1 ++ x :: E2).Pairwise R) :
    E1.find? P = some e ↔ e ∈ E1 ++ x :: E2 ∧ P e = true ∧ R e x ∧ ∀ e' ∈ E1 ++ x :: E2, P e' = true → ¬ R e' e := by
  rw [List.pairwise_append] at hp
  obtain ⟨p1, p2, p12⟩ := hp
  have main : ∀ e, E1.find? P = some e → e ∈ E1 ∧ P e = true ∧ ∀ e' ∈ E1, P e' = true → e' = e ∨ R e e' := by
    clear p12
    intro e hf
    induction E1 with
    | nil => cases hf
    | cons a as ih =>
      rw [List.pairwise_cons] at p1
      rw [List.find?_cons] at hf
      split at hf
      · rename_i ha
        cases hf
        refine ⟨by simp, ha, ?_⟩
        intro e' he' _
        rcases List.mem_cons.mp he' with rfl | h
        · exact .inl rfl
        · exact .inr (p1.1 e' h)
      · rename_i ha
        obtain ⟨h1, h2, h3⟩ := ih p1.2 hf
        refine ⟨by simp [h1], h2, ?_⟩
        intro e' he' hpe'
        rcases List.mem_cons.mp he' with rfl | h
        · rw [hpe'] at ha; cases ha
        · exact h3 e' h hpe'
  constructor
  · intro hf
    obtain ⟨h1, h2, h3⟩ := main e hf
    refine ⟨by simp [h1], h2, p12 e h1 x (by simp), ?_⟩
    intro e' he' hpe' hR
    rcases List.mem_append.mp he' with h | h
    · rcases h3 e' h hpe' with rfl | h
      · exact has _ _ hR hR
      · exact has _ _ h hR
    · exact has _ _ (p12 e h1 e' h) hR
  · rintro ⟨hm, hP, hR, hmin⟩
    have he1 : e ∈ E1 := by
      rcases List.mem_append.mp hm with h | h
      · exact h
      · exfalso
        rcases List.mem_cons.mp h with rfl | h
        · exact has _ _ hR hR
        · rw [List.pairwise_cons] at p2
          exact has _ _ (p2.1 e h) hR
    cases hf : E1.find? P with
    | none => rw [List.find?_eq_none] at hf; exact absurd hP (hf e he1)
    | some e0 =>
      obtain ⟨h1, h2, h3⟩ := main e0 hf
      rcases h3 e he1 hP with rfl | h
      · rfl
      · exact absurd h (hmin e0 (by simp [h1]) h2)

/-- The order of definitions. -/
def EvBefore (le : DPath → DPath → Bool) (a b : DPath × Assign) : Prop := Before le a.1 a.2.range.start b.1 b.2.range.start

theorem events_pairwise {le : DPath → DPath → Bool} {S : List SharedFile} (h1 : S.Pairwise (fun a b => le a.path b.path = true))
    (h2 : (S.map (·.path)).Nodup) (h3 : ∀ f ∈ S, f.assigns.Pairwise (fun a b => a.range.start < b.range.start)) :
    (events S).Pairwise (EvBefore le) := by
  induction S with
  | nil => exact List.Pairwise.nil
  | cons f fs ih =>
    rw [List.pairwise_cons] at h1
    rw [List.map_cons, List.nodup_cons] at h2
    show (f.assigns.map (fun a => (f.path, a)) ++ events fs).Pairwise (EvBefore le)
    rw [List.pairwise_append]
    refine ⟨?_, ih h1.2 h2.2 (fun g hg => h3 g (by simp [hg])), ?_⟩
    · rw [List.pairwise_map]
      exact (h3 f (by simp)).imp (fun h => .inl ⟨rfl, h⟩)
    · intro a ha b hb
      obtain ⟨a', _, rfl⟩ := List.mem_map.mp ha
      obtain ⟨g, hg, hb⟩ := List.mem_flatMap.mp hb
      obtain ⟨b', _, rfl⟩ := List.mem_map.mp hb
      refine .inr ⟨?_, h1.1 g hg⟩
      show f.path ≠ g.path
      intro heq
      exact h2.1 (List.mem_map.mpr ⟨g, hg, heq.symm⟩)

/-- **C48**: a definition is reported iff the R directory of the package contains an earlier definition of the same name, and the
report points to the first one. -/
theorem C48_reported {alnum : Char → Bool} (hal : Alnum alnum) {le : DPath → DPath → Bool} (ho : TotalOrder le) {unused : Bool}
    {fs : PkgFs} {paths roots keys : List DPath} (hw : PkgWorld fs paths)
    (hroots : Enumerates roots (· ∈ packageRoots fs paths))
    (hkeys : Enumerates keys (fun k => ∃ f ∈ sharedData alnum unused fs roots paths, f.scope = .r ∧ f.rootKey = k))
    {p : DPath} (hp : p ∈ paths) (hin : PackageFile fs p) (r : DupReport) :
    r ∈ reportsFor p (computeDuplicates le keys (sharedData alnum unused fs roots paths)) ↔
    ∃ pre, DefinedIn alnum fs paths p.dropLast p pre r.name ∧ r.range = ⟨blen pre, blen pre + blen r.name⟩ ∧
      ∃ q preq, FirstIn alnum le fs paths p.dropLast r.name q preq ∧ Before le q (blen preq) p (blen pre) ∧
        r.firstFile = q ∧ r.firstLine = 1 + countNl preq := by
  have hfm := files_mem (alnum := alnum) (unused := unused) hw hroots hp hin
  have hnd := files_nodup (alnum := alnum) (unused := unused) hw hroots p.dropLast
  have hall : ∀ k f, f ∈ (sharedData alnum unused fs roots paths).filter (fun f => f.scope = .r && f.rootKey = k) → f.path.dropLast = k := by
    intro k f hf
    rw [sharedData_r] at hf
    obtain ⟨h1, h2⟩ := List.mem_filter.mp hf
    obtain ⟨q, _, hq⟩ := List.mem_filterMap.mp h1
    obtain ⟨_, _, _, _, rfl⟩ := scanFile_r.mp hq
    simpa using h2
  generalize hdata : sharedData alnum unused fs roots paths = data at *
  generalize hD : data.filter (fun f => f.scope = .r && f.rootKey = p.dropLast) = D at *
  -- the sorted files of the directory
  obtain ⟨S, hS⟩ : ∃ S, S = D.mergeSort (fun a b => le a.path b.path) := ⟨_, rfl⟩
  have hperm : S.Perm D := by rw [hS]; exact List.mergeSort_perm _ _
  have hSnd : (S.map (·.path)).Nodup := (hperm.map _).nodup_iff.mpr hnd
  have hSle : S.Pairwise (fun a b => le a.path b.path = true) := by
    rw [hS]
    apply List.pairwise_mergeSort
    · intro a b c h1 h2; exact ho.trans _ _ _ h1 h2
    · intro a b
      rcases ho.total a.path b.path with h | h <;> simp [h]
  have hSm : ∀ f, f ∈ S ↔ ∃ content, RFileIn fs paths p.dropLast f.path content ∧
      f = ⟨p.dropLast, f.path, p.dropLast.dropLast, scanAssigns alnum content, if unused then scanSymbols content else [], .r⟩ := by
    intro f; rw [hperm.mem_iff]; exact hfm f
  have hevs := events_pairwise hSle hSnd (by
    intro f hf
    obtain ⟨c, _, hc⟩ := (hSm f).mp hf
    rw [hc]; exact C48_scan_sorted _ _)
  -- definitions are events
  have hdef : ∀ q b, (q, b) ∈ events S ↔ ∃ pre, DefinedIn alnum fs paths p.dropLast q pre b.name ∧
      b.range = ⟨blen pre, blen pre + blen b.name⟩ ∧ b.line = 1 + countNl pre := by
    intro q b
    unfold events
    rw [List.mem_flatMap]
    constructor
    · rintro ⟨f, hf, hb⟩
      obtain ⟨c, hc, hfe⟩ := (hSm f).mp hf
      obtain ⟨a, ha, hab⟩ := List.mem_map.mp hb
      cases hab
      rw [hfe] at ha
      obtain ⟨pre, h1, h2, h3⟩ := (C48_scan hal c b).mp ha
      exact ⟨pre, ⟨c, hc, h1⟩, h2, h3⟩
    · rintro ⟨pre, ⟨c, hc, h1⟩, h2, h3⟩
      refine ⟨⟨p.dropLast, q, p.dropLast.dropLast, scanAssigns alnum c, if unused then scanSymbols c else [], .r⟩, (hSm _).mpr ⟨c, hc, rfl⟩, ?_⟩
      exact List.mem_map.mpr ⟨b, (C48_scan hal c b).mpr ⟨pre, h1, h2, h3⟩, rfl⟩
  -- the entries of `p`
  have hent : ∀ l, (p, l) ∈ computeDuplicates le keys data ↔ (p, l) ∈ dupFiles [] S := by
    intro l
    unfold computeDuplicates
    rw [List.mem_flatMap]
    constructor
    · rintro ⟨k, hk, hl⟩
      have hpm := dupFiles_paths _ _ _ _ hl
      obtain ⟨f, hf, hfe⟩ := List.mem_map.mp hpm
      have hf := (List.mergeSort_perm _ _).mem_iff.mp hf
      have hk := hall k f hf
      rw [hfe] at hk
      subst hk
      rw [hD, ← hS] at hl
      exact hl
    · intro hl
      have hpm := dupFiles_paths _ _ _ _ hl
      obtain ⟨f, hf, hfe⟩ := List.mem_map.mp hpm
      have hf := hperm.mem_iff.mp hf
      rw [← hD] at hf
      obtain ⟨hf1, hf2⟩ := List.mem_filter.mp hf
      simp at hf2
      refine ⟨p.dropLast, (hkeys.2 _).mpr ⟨f, hf1, hf2⟩, ?_⟩
      rw [hD, ← hS]
      exact hl
  by_cases hpm : p ∈ S.map (·.path)
  · obtain ⟨f, hf, hfp⟩ := List.mem_map.mp hpm
    obtain ⟨fs1, fs2, hsplit⟩ := List.append_of_mem hf
    rw [hsplit] at hSnd
    obtain ⟨s, hs, hget⟩ := dupFiles_get fs1 f fs2 [] [] (fun name => rfl) hSnd
    rw [← hsplit, hfp] at hget
    have hu : ∀ l l', (p, l) ∈ computeDuplicates le keys data → (p, l') ∈ computeDuplicates le keys data → l = l' := by
      intro l l' h1 h2
      rw [hent, hget] at h1 h2
      rw [h1.2, h2.2]
    have hrep : r ∈ reportsFor p (computeDuplicates le keys data) ↔ r ∈ (dupFile p s f.assigns).2 := by
      rw [mem_reportsFor hu]
      constructor
      · rintro ⟨l, hl, hr⟩
        rw [hent, hget] at hl
        rw [← hl.2]; exact hr
      · intro hr
        exact ⟨_, (hent _).mpr ((hget _).mpr ⟨List.ne_nil_of_mem hr, rfl⟩), hr⟩
    rw [hrep, (dupFile_spec p f.assigns s _ hs).2 r]
    have hevsplit : ∀ as1 a as2, f.assigns = as1 ++ a :: as2 →
        events S = ([] ++ events fs1 ++ as1.map (fun a => (p, a))) ++ (p, a) :: (as2.map (fun a => (p, a)) ++ events fs2) := by
      intro as1 a as2 has
      rw [hsplit]
      unfold events
      simp [List.flatMap_append, has, hfp]
    constructor
    · rintro ⟨as1, a, as2, ⟨q, b⟩, has, hfirst, rfl⟩
      have hE := hevsplit as1 a as2 has
      have hevs' := hevs
      rw [hE] at hevs'
      obtain ⟨hm, hn, hR, hmin⟩ := (find_first (fun x y => before_asymm ho) hevs').mp hfirst
      rw [← hE] at hm hmin
      obtain ⟨preq, d1, d2, d3⟩ := (hdef q b).mp hm
      simp only [decide_eq_true_eq] at hn
      obtain ⟨pre, e1, e2, e3⟩ := (hdef p a).mp (by rw [hE]; simp)
      have hR : Before le q b.range.start p a.range.start := hR
      rw [d2, e2] at hR
      refine ⟨pre, e1, e2, q, preq, ⟨hn ▸ d1, ?_⟩, hR, rfl, d3⟩
      intro q' pre' hd' hb
      have hm' := (hdef q' ⟨a.name, ⟨blen pre', blen pre' + blen a.name⟩, 1 + countNl pre'⟩).mpr ⟨pre', hd', rfl, rfl⟩
      refine hmin _ hm' (by simp) ?_
      show Before le q' (blen pre') q b.range.start
      rw [d2]; exact hb
    · rintro ⟨pre, hd, hr, q, preq, ⟨hq, hmin⟩, hb, hf1, hf2⟩
      have hmem := (hdef p ⟨r.name, r.range, 1 + countNl pre⟩).mpr ⟨pre, hd, hr, rfl⟩
      have hmem2 : (⟨r.name, r.range, 1 + countNl pre⟩ : Assign) ∈ f.assigns := by
        unfold events at hmem
        obtain ⟨g, hg, hga⟩ := List.mem_flatMap.mp hmem
        obtain ⟨a', ha', hae⟩ := List.mem_map.mp hga
        have : g = f := by
          have hgp : g.path = f.path := by have := (congrArg Prod.fst hae); simp at this; rw [this, hfp]
          obtain ⟨c1, h1, e1⟩ := (hSm g).mp hg
          obtain ⟨c2, h2, e2⟩ := (hSm f).mp hf
          have hc := h1.read
          rw [hgp, h2.read] at hc
          cases hc
          rw [e1, e2, hgp]
        subst this
        cases hae
        exact ha'
      obtain ⟨as1, as2, has⟩ := List.append_of_mem hmem2
      have hE := hevsplit as1 _ as2 has
      have hevs' := hevs
      rw [hE] at hevs'
      have hfind := (find_first (P := fun e => decide (e.2.name = r.name)) (e := (q, (⟨r.name, ⟨blen preq, blen preq + blen r.name⟩, 1 + countNl preq⟩ : Assign)))
        (fun x y => before_asymm ho) hevs').mpr (by
          rw [← hE]
          refine ⟨(hdef q _).mpr ⟨preq, hq, rfl, rfl⟩, by simp, ?_, ?_⟩
          · show Before le q (blen preq) p r.range.start
            rw [hr]; exact hb
          · rintro ⟨q', b'⟩ he' hn' hbe
            simp at hn'
            obtain ⟨pre', g1, g2, g3⟩ := (hdef q' b').mp he'
            refine hmin q' pre' (hn' ▸ g1) ?_
            have hbe : Before le q' b'.range.start q (blen preq) := hbe
            rw [g2] at hbe
            exact hbe)
      refine ⟨as1, _, as2, _, has, hfind, ?_⟩
      cases r
      simp at hf1 hf2
      simp [hf1, hf2]
  · have hno : ∀ l, (p, l) ∉ computeDuplicates le keys data := by
      intro l hl
      rw [hent] at hl
      exact hpm (dupFiles_paths _ _ _ _ hl)
    constructor
    · intro hr
      rw [mem_reportsFor (fun l l' h => absurd h (hno l))] at hr
      obtain ⟨l, hl, _⟩ := hr
      exact absurd hl (hno l)
    · rintro ⟨pre, ⟨c, hc, _⟩, _⟩
      exfalso
      apply hpm
      exact List.mem_map.mpr ⟨⟨p.dropLast, p, p.dropLast.dropLast, scanAssigns alnum c, if unused then scanSymbols c else [], .r⟩,
        (hSm _).mpr ⟨c, hc, rfl⟩, rfl⟩

theorem dupFile_sublist (path : DPath) (as : List Assign) : ∀ seen, ((dupFile path seen as).2.map (·.range)).Sublist (as.map (·.range)) := by
  induction as with
  | nil => intro seen; simp [dupFile]
  | cons a as ih =>
    intro seen
    unfold dupFile
    split
    · simp only [List.map_cons]; exact (ih _).cons_cons _
    · exact (ih _).cons _

theorem dupFiles_entry (fs : List SharedFile) : ∀ seen p l, (p, l) ∈ dupFiles seen fs →
    ∃ f ∈ fs, (l.map (·.range)).Sublist (f.assigns.map (·.range)) := by
  induction fs with
  | nil => intro seen p l h; cases h
  | cons f fs ih =>
    intro seen p l h
    unfold dupFiles at h
    rcases List.mem_append.mp h with h | h
    · split at h
      · cases h
      · simp at h
        refine ⟨f, by simp, ?_⟩
        rw [h.2]; exact dupFile_sublist _ _ _
    · obtain ⟨g, hg, hl⟩ := ih _ _ _ h
      exact ⟨g, by simp [hg], hl⟩

theorem mem_of_reportsFor {α} {p : DPath} {m : List (DPath × List α)} : reportsFor p m = [] ∨ (p, reportsFor p m) ∈ m := by
  unfold reportsFor lastEntry
  cases hf : m.reverse.find? (fun e => decide (e.1 = p)) with
  | none => left; rfl
  | some e =>
    right
    have h1 := List.mem_of_find?_eq_some hf
    have h2 := List.find?_some hf
    simp at h1 h2
    subst h2
    exact h1

/-- **C48**: the reports of a file are in the order of the text (and no definition is reported twice). -/
theorem C48_sorted {alnum : Char → Bool} {le : DPath → DPath → Bool} {unused : Bool} {fs : PkgFs} {paths roots keys : List DPath} (p : DPath) :
    (reportsFor p (computeDuplicates le keys (sharedData alnum unused fs roots paths))).Pairwise
      (fun a b => a.range.start < b.range.start) := by
  rcases mem_of_reportsFor (p := p) (m := computeDuplicates le keys (sharedData alnum unused fs roots paths)) with h | h
  · rw [h]; exact List.Pairwise.nil
  · generalize reportsFor p (computeDuplicates le keys (sharedData alnum unused fs roots paths)) = l at h ⊢
    obtain ⟨k, _, hl⟩ := List.mem_flatMap.mp h
    obtain ⟨f, hf, hs⟩ := dupFiles_entry _ _ _ _ hl
    have hf := (List.mergeSort_perm _ _).mem_iff.mp hf
    rw [sharedData_r] at hf
    obtain ⟨q, _, hq⟩ := List.mem_filterMap.mp (List.mem_filter.mp hf).1
    obtain ⟨_, _, c, _, rfl⟩ := scanFile_r.mp hq
    have h1 := C48_scan_sorted alnum c
    have h2 : ((scanAssigns alnum c).map (·.range)).Pairwise (fun a b => a.start < b.start) := by
      rw [List.pairwise_map]; exact h1
    have h3 := h2.sublist hs
    rw [List.pairwise_map] at h3
    exact h3

theorem sorted_ext {α} {R : α → α → Prop} (has : ∀ a b, R a b → ¬ R b a) {l l' : List α} (h : l.Pairwise R) (h' : l'.Pairwise R)
    (hm : ∀ x, x ∈ l ↔ x ∈ l') : l = l' := by
  induction l generalizing l' with
  | nil =>
    cases l' with
    | nil => rfl
    | cons a as => have := (hm a).mpr (by simp); cases this
  | cons a as ih =>
    cases l' with
    | nil => have := (hm a).mp (by simp); cases this
    | cons b bs =>
      rw [List.pairwise_cons] at h h'
      have hab : a = b := by
        rcases List.mem_cons.mp ((hm a).mp (by simp)) with h1 | h1
        · exact h1
        · rcases List.mem_cons.mp ((hm b).mpr (by simp)) with h2 | h2
          · exact h2.symm
          · exact absurd (h'.1 a h1) (has _ _ (h.1 b h2))
      subst hab
      have hirr : ∀ x, ¬ R x x := fun x hx => has _ _ hx hx
      rw [ih h.2 h'.2]
      intro x
      constructor
      · intro hx
        rcases List.mem_cons.mp ((hm x).mp (by simp [hx])) with rfl | h2
        · exact absurd (h.1 x hx) (hirr x)
        · exact h2
      · intro hx
        rcases List.mem_cons.mp ((hm x).mpr (by simp [hx])) with rfl | h2
        · exact absurd (h'.1 x hx) (hirr x)
        · exact h2

/-- **C48**: the reports depend neither on the order in which the files are given nor on the order in which packages are visited. -/
theorem C48_deterministic {alnum : Char → Bool} (hal : Alnum alnum) {le : DPath → DPath → Bool} (ho : TotalOrder le)
    {unused unused' : Bool} {fs : PkgFs} {paths roots keys paths' roots' keys' : List DPath}
    (hw : PkgWorld fs paths) (hroots : Enumerates roots (· ∈ packageRoots fs paths))
    (hkeys : Enumerates keys (fun k => ∃ f ∈ sharedData alnum unused fs roots paths, f.scope = .r ∧ f.rootKey = k))
    (hw' : PkgWorld fs paths') (hroots' : Enumerates roots' (· ∈ packageRoots fs paths'))
    (hkeys' : Enumerates keys' (fun k => ∃ f ∈ sharedData alnum unused' fs roots' paths', f.scope = .r ∧ f.rootKey = k))
    (hsame : ∀ p, p ∈ paths ↔ p ∈ paths') {p : DPath} (hp : p ∈ paths) (hin : PackageFile fs p) :
    reportsFor p (computeDuplicates le keys (sharedData alnum unused fs roots paths)) =
    reportsFor p (computeDuplicates le keys' (sharedData alnum unused' fs roots' paths')) := by
  have hmem : paths = paths ∧ (fun x => x ∈ paths) = (fun x => x ∈ paths') := ⟨rfl, funext fun x => propext (hsame x)⟩
  have hR : ∀ d q c, RFileIn fs paths d q c ↔ RFileIn fs paths' d q c := by
    intro d q c
    constructor
    · intro h; exact ⟨h.parent, h.ext, h.read, h.found.imp (hsame q).mp id⟩
    · intro h; exact ⟨h.parent, h.ext, h.read, h.found.imp (hsame q).mpr id⟩
  have hD : ∀ d q pre name, DefinedIn alnum fs paths d q pre name ↔ DefinedIn alnum fs paths' d q pre name := by
    intro d q pre name
    unfold DefinedIn
    simp only [hR]
  have hF : ∀ d name q pre, FirstIn alnum le fs paths d name q pre ↔ FirstIn alnum le fs paths' d name q pre := by
    intro d name q pre
    unfold FirstIn
    simp only [hD]
  apply sorted_ext (R := fun a b => a.range.start < b.range.start) (fun a b h => by omega) (C48_sorted p) (C48_sorted p)
  intro r
  rw [C48_reported hal ho hw hroots hkeys hp hin, C48_reported hal ho hw' hroots' hkeys' ((hsame p).mp hp) hin]
  simp only [hD, hF]

/-! ## Examples -/

/-- An order of paths. -/
def pathLe (a b : DPath) : Bool := decide (a ≤ b)

theorem pathLe_order : TotalOrder pathLe where
  total a b := by
    simp only [pathLe, decide_eq_true_eq]
    exact List.le_total a b
  trans a b c h1 h2 := by
    simp only [pathLe, decide_eq_true_eq] at *
    exact List.le_trans h1 h2
  antisymm a b h1 h2 := by
    simp only [pathLe, decide_eq_true_eq] at *
    exact List.le_antisymm h1 h2

/-- ASCII alphanumerics. -/
def asciiAlnum (c : Char) : Bool := c.isAlphanum

theorem isAlphanum_range {c : Char} (h : c.isAlphanum = true) :
    (65 ≤ c.toNat ∧ c.toNat ≤ 90) ∨ (97 ≤ c.toNat ∧ c.toNat ≤ 122) ∨ (48 ≤ c.toNat ∧ c.toNat ≤ 57) := by
  simp only [Char.isAlphanum, Char.isAlpha, Char.isUpper, Char.isLower, Char.isDigit, Bool.or_eq_true, Bool.and_eq_true,
    decide_eq_true_eq, ge_iff_le, UInt32.le_iff_toNat_le] at h
  rcases h with (⟨h1, h2⟩ | ⟨h1, h2⟩) | ⟨h1, h2⟩
  · exact .inl ⟨h1, h2⟩
  · exact .inr (.inl ⟨h1, h2⟩)
  · exact .inr (.inr ⟨h1, h2⟩)

theorem isAlphanum_not_ws {c : Char} (h : isWs c = true) : c.isAlphanum = false := by
  cases ha : c.isAlphanum with
  | false => rfl
  | true =>
    exfalso
    have := isAlphanum_range ha
    unfold isWs at h
    simp at h
    omega

theorem asciiAlnum_ok : Alnum asciiAlnum := ⟨fun _ _ => rfl, fun _ h => isAlphanum_not_ws h⟩

/-- A package with two files that define the same function. -/
def demoPkg : PkgFs where
  description d := d = [cs! "pkg"]
  read p := if p = [cs! "pkg", cs! "R", cs! "a.R"] then some (cs! "foo <- function(x) x\nbar = \\(x) foo(x)\n")
    else if p = [cs! "pkg", cs! "R", cs! "b.R"] then some (cs! "# comment\nfoo <- function(y) y\n") else none
  below d := if d = [cs! "pkg", cs! "R"] then [[cs! "pkg", cs! "R", cs! "a.R"], [cs! "pkg", cs! "R", cs! "b.R"]] else []

theorem demoPkg_world : PkgWorld demoPkg [[cs! "pkg", cs! "R", cs! "b.R"]] where
  paths_nodup := by decide
  below_nodup d := by
    unfold demoPkg
    simp only
    split
    · decide
    · exact List.nodup_nil
  below_under d q h := by
    unfold demoPkg at h
    simp only at h
    split at h
    · rename_i hd
      subst hd
      simp at h
      rcases h with rfl | rfl <;> decide
    · cases h
  apart p hp q hq _ _ _ := by
    simp at hp hq
    rw [hp, hq]

theorem demoPkg_roots : Enumerates [[cs! "pkg"]] (· ∈ packageRoots demoPkg [[cs! "pkg", cs! "R", cs! "b.R"]]) := by
  have : packageRoots demoPkg [[cs! "pkg", cs! "R", cs! "b.R"]] = [[cs! "pkg"]] := by decide +kernel
  rw [this]
  exact ⟨by decide, fun _ => Iff.rfl⟩

theorem demoPkg_keys : Enumerates [[cs! "pkg", cs! "R"]]
    (fun k => ∃ f ∈ sharedData asciiAlnum false demoPkg [[cs! "pkg"]] [[cs! "pkg", cs! "R", cs! "b.R"]], f.scope = .r ∧ f.rootKey = k) := by
  have h : ∀ f ∈ sharedData asciiAlnum false demoPkg [[cs! "pkg"]] [[cs! "pkg", cs! "R", cs! "b.R"]],
      f.scope = .r ∧ f.rootKey = [cs! "pkg", cs! "R"] := by decide +kernel
  have h2 : (sharedData asciiAlnum false demoPkg [[cs! "pkg"]] [[cs! "pkg", cs! "R", cs! "b.R"]]) ≠ [] := by decide +kernel
  refine ⟨by decide, fun k => ?_⟩
  constructor
  · intro hk
    simp at hk
    subst hk
    obtain ⟨f, hf⟩ := List.exists_mem_of_ne_nil _ h2
    exact ⟨f, hf, h f hf⟩
  · rintro ⟨f, hf, _, rfl⟩
    simp [h f hf]

theorem sort_two {α} (le : α → α → Bool) (x y : α) : [x, y].mergeSort le = if le x y then [x, y] else [y, x] := by
  simp [List.mergeSort, List.MergeSort.Internal.splitInTwo, List.merge]

/-- **C48**, a concrete case: only `b.R` is given, `foo` of `a.R` is found. -/
theorem C48_example :
    reportsFor [cs! "pkg", cs! "R", cs! "b.R"] (computeDuplicates pathLe [[cs! "pkg", cs! "R"]]
      (sharedData asciiAlnum false demoPkg [[cs! "pkg"]] [[cs! "pkg", cs! "R", cs! "b.R"]])) =
    [⟨cs! "foo", ⟨10, 13⟩, [cs! "pkg", cs! "R", cs! "a.R"], 1⟩] := by
  have h : ∃ x y, (sharedData asciiAlnum false demoPkg [[cs! "pkg"]] [[cs! "pkg", cs! "R", cs! "b.R"]]).filter
      (fun f => f.scope = .r && f.rootKey = [cs! "pkg", cs! "R"]) = [x, y] ∧
      reportsFor [cs! "pkg", cs! "R", cs! "b.R"] (dupFiles [] (if pathLe x.path y.path then [x, y] else [y, x])) =
        [⟨cs! "foo", ⟨10, 13⟩, [cs! "pkg", cs! "R", cs! "a.R"], 1⟩] :=
    ⟨⟨[cs! "pkg", cs! "R"], [cs! "pkg", cs! "R", cs! "b.R"], [cs! "pkg"], [⟨cs! "foo", ⟨10, 13⟩, 2⟩], [], .r⟩,
     ⟨[cs! "pkg", cs! "R"], [cs! "pkg", cs! "R", cs! "a.R"], [cs! "pkg"], [⟨cs! "foo", ⟨0, 3⟩, 1⟩, ⟨cs! "bar", ⟨21, 24⟩, 2⟩], [], .r⟩,
     by decide +kernel, by decide +kernel⟩
  obtain ⟨x, y, h1, h2⟩ := h
  unfold computeDuplicates
  rw [List.flatMap_cons, List.flatMap_nil, List.append_nil, h1, sort_two]
  exact h2

/-- The hypotheses of **C48** are met. -/
example := C48_reported asciiAlnum_ok pathLe_order demoPkg_world demoPkg_roots demoPkg_keys (p := [cs! "pkg", cs! "R", cs! "b.R"])
  (by decide) (packageFile_iff.mp (by decide +kernel))

theorem dup_given_twice (le : DPath → DPath → Bool) (f : SharedFile) (hr : f.scope = .r) (a : Assign)
    (ha : f.assigns = [a]) :
    (⟨a.name, a.range, f.path, a.line⟩ : DupReport) ∈ reportsFor f.path (computeDuplicates le [f.rootKey] [f, f]) := by
  have hfil : ([f, f].filter (fun g => g.scope = .r && g.rootKey = f.rootKey)) = [f, f] := by simp [hr]
  unfold computeDuplicates
  rw [List.flatMap_cons, List.flatMap_nil, List.append_nil, hfil, sort_two]
  have : (if le f.path f.path then [f, f] else [f, f]) = [f, f] := by split <;> rfl
  rw [this]
  simp [dupFiles, dupFile, ha, reportsFor, lastEntry]

/-- **C48**, a defect: when a file is given twice (`jarl check R/b.R R/b.R`), its functions are reported as duplicates of themselves.
The hypothesis that files are given once is needed. -/
theorem C48_false_given_twice {alnum : Char → Bool} (le : DPath → DPath → Bool) {fs : PkgFs} {p : DPath} {content : Str} {a : Assign}
    (hin : PackageFile fs p) (hread : fs.read p = some content) (hbelow : fs.below p.dropLast = [p])
    (ha : scanAssigns alnum content = [a]) :
    (⟨a.name, a.range, p, a.line⟩ : DupReport) ∈
      reportsFor p (computeDuplicates le [p.dropLast] (sharedData alnum false fs [p.dropLast.dropLast] [p, p])) := by
  obtain ⟨_, hpne, root, hroot, _⟩ := inPackageR_iff.mp hin
  have hex : excludedR fs [p, p] root = [] := by
    unfold excludedR
    rw [← hroot, hbelow]
    simp
  have hs : scanFile alnum false fs p .r = some ⟨p.dropLast, p, p.dropLast.dropLast, [a], [], .r⟩ := by
    rw [scanFile_r]
    exact ⟨hpne, by rw [hroot]; simp, content, hread, by simp [ha]⟩
  have hroot2 : p.dropLast.dropLast = root := by rw [hroot]; simp
  have hd : sharedData alnum false fs [p.dropLast.dropLast] [p, p] =
      [⟨p.dropLast, p, p.dropLast.dropLast, [a], [], .r⟩, ⟨p.dropLast, p, p.dropLast.dropLast, [a], [], .r⟩] := by
    unfold sharedData
    have hg : [p, p].filter (inPackageR fs) = [p, p] := by simp [packageFile_iff.mpr hin]
    simp only [hg, hroot2, List.flatMap_cons, List.flatMap_nil, hex, List.append_nil, List.filterMap_cons, hs, List.filterMap_nil]
    simp
  rw [hd]
  exact dup_given_twice le ⟨p.dropLast, p, p.dropLast.dropLast, [a], [], .r⟩ rfl a rfl

/-- **C48**, a limitation of the line-based scan: an unindented line inside a string counts as a definition. -/
theorem C48_false_in_string : (scanAssigns asciiAlnum (cs! "doc <- \"\nfoo <- function(x) x\n\"\n")).map (·.name) = [cs! "foo"] := by
  decide +kernel

/-- **C48**, a limitation documented in the code: `function` on another line is not seen. -/
theorem C48_false_next_line : scanAssigns asciiAlnum (cs! "foo <-\n  function(x) x\n") = [] := by decide +kernel

end Jarl
