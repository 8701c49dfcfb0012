import Verif.Spec.Run
import Verif.Props.RunPackage
import Verif.Props.WalkMore
import Verif.Props.Cli
/-!
# Whole runs: files, names, groups
-/
namespace Jarl
open Spec

/-! ## Files below a directory -/

theorem mem_filesBelowIn {p q : DPath} {es : List (Str × FsTree)} :
    q ∈ filesBelowIn p es ↔ ∃ e ∈ es, q ∈ filesBelow (p ++ [e.1]) e.2 := by
  induction es with
  | nil => simp [filesBelowIn]
  | cons e es ih =>
    obtain ⟨n, t⟩ := e
    simp only [filesBelowIn, List.mem_append, ih, List.mem_cons]
    constructor
    · rintro (h | ⟨e, he, h⟩)
      · exact ⟨(n, t), .inl rfl, h⟩
      · exact ⟨e, .inr he, h⟩
    · rintro ⟨e, rfl | he, h⟩
      · exact .inl h
      · exact .inr ⟨e, he, h⟩

theorem mem_filesBelow {t : FsTree} : ∀ {p q : DPath}, OkTree t → (q ∈ filesBelow p t ↔ ∃ r, q = p ++ r ∧ t.at r = some .file) := by
  induction t using FsTree.ind with
  | hf =>
    intro p q _
    simp only [filesBelow, List.mem_singleton]
    constructor
    · rintro rfl; exact ⟨[], by simp, rfl⟩
    · rintro ⟨r, rfl, h⟩
      cases r with
      | nil => simp
      | cons n r => simp [FsTree.at] at h
  | hd es ih =>
    intro p q hok
    cases hok with
    | dir hnd _ hes =>
      simp only [filesBelow, mem_filesBelowIn]
      constructor
      · rintro ⟨e, he, hq⟩
        obtain ⟨r, rfl, hr⟩ := (ih e he (hes e he)).mp hq
        exact ⟨e.1 :: r, by simp, (FsTree.at_entry hnd).mpr ⟨e.2, he, hr⟩⟩
      · rintro ⟨r, rfl, hr⟩
        cases r with
        | nil => simp [FsTree.at] at hr
        | cons n r =>
          obtain ⟨t, ht, hr⟩ := (FsTree.at_entry hnd).mp hr
          exact ⟨(n, t), ht, (ih (n, t) ht (hes _ ht)).mpr ⟨r, by simp, hr⟩⟩

theorem filesBelowIn_nodup {p : DPath} : ∀ {es : List (Str × FsTree)}, (es.map Prod.fst).Nodup → (∀ e ∈ es, OkTree e.2) →
    (∀ e ∈ es, (filesBelow (p ++ [e.1]) e.2).Nodup) → (filesBelowIn p es).Nodup
  | [], _, _, _ => by simp [filesBelowIn]
  | (n, t) :: es, hn, hok, h => by
    rw [List.map_cons, List.nodup_cons] at hn
    simp only [filesBelowIn]
    rw [List.nodup_append]
    refine ⟨h (n, t) (by simp), filesBelowIn_nodup hn.2 (fun e he => hok e (by simp [he])) (fun e he => h e (by simp [he])), ?_⟩
    intro x hx y hy hxy
    subst hxy
    obtain ⟨r, rfl, _⟩ := (mem_filesBelow (hok (n, t) (by simp))).mp hx
    obtain ⟨e, he, hy⟩ := mem_filesBelowIn.mp hy
    obtain ⟨r', hr', _⟩ := (mem_filesBelow (hok e (by simp [he]))).mp hy
    have : n = e.1 := by
      rw [List.append_assoc, List.append_assoc] at hr'
      have := List.append_cancel_left hr'
      simp at this
      exact this.1
    exact hn.1 (List.mem_map.mpr ⟨e, he, this.symm⟩)

theorem filesBelow_nodup {t : FsTree} : ∀ {p : DPath}, OkTree t → (filesBelow p t).Nodup := by
  induction t using FsTree.ind with
  | hf => intro p _; simp [filesBelow]
  | hd es ih =>
    intro p hok
    cases hok with
    | dir hnd _ hes =>
      simp only [filesBelow]
      exact filesBelowIn_nodup hnd hes (fun e he => ih e he (hes e he))

/-- The files below a directory. -/
theorem mem_below {w : FileWorld} (hw : OkWorld w) {d q : DPath} : q ∈ w.below d ↔ IsFile w.tree q ∧ d <+: q ∧ d ≠ q := by
  unfold FileWorld.below IsFile
  cases hd : w.tree.at d with
  | none =>
    simp only [List.not_mem_nil, false_iff]
    rintro ⟨h1, ⟨t, rfl⟩, _⟩
    rw [FsTree.at_append, hd] at h1
    cases h1
  | some t =>
    cases t with
    | file =>
      simp only [List.not_mem_nil, false_iff]
      rintro ⟨h1, ⟨t, rfl⟩, h2⟩
      rw [FsTree.at_append, hd] at h1
      cases t with
      | nil => simp at h2
      | cons n r => simp [FsTree.at] at h1
    | dir es =>
      have hok := (at_ok hw.tree hd).1
      have := mem_filesBelow (p := d) (q := q) hok
      simp only [filesBelow] at this
      simp only [this]
      constructor
      · rintro ⟨r, rfl, hr⟩
        refine ⟨by rw [FsTree.at_append, hd]; exact hr, List.prefix_append _ _, ?_⟩
        intro h
        have : r = [] := by simpa using h
        subst this
        simp [FsTree.at] at hr
      · rintro ⟨h1, ⟨r, rfl⟩, _⟩
        rw [FsTree.at_append, hd] at h1
        exact ⟨r, rfl, h1⟩

theorem below_nodup {w : FileWorld} (hw : OkWorld w) (d : DPath) : (w.below d).Nodup := by
  unfold FileWorld.below
  cases hd : w.tree.at d with
  | none => simp
  | some t =>
    cases t with
    | file => simp
    | dir es =>
      have := filesBelow_nodup (p := d) (at_ok hw.tree hd).1
      simpa only [filesBelow] using this

theorem exists_iff {w : FileWorld} {d : DPath} : w.exists (d ++ [cs! "DESCRIPTION"]) = true ↔ HasDescription w d := by
  unfold FileWorld.exists HasDescription
  exact Option.isSome_iff_exists

theorem package_apart {w : FileWorld} (h : NoPackageInR w) {p q : DPath} (hp : PackageFile w.pkgFs p) (hq : PackageFile w.pkgFs q)
    (hpre : p.dropLast <+: q.dropLast) : p.dropLast = q.dropLast := by
  obtain ⟨_, _, r, hr, hd⟩ := inPackageR_iff.mp hp
  obtain ⟨_, _, r', hr', hd'⟩ := inPackageR_iff.mp hq
  rw [hr, hr'] at hpre ⊢
  rcases prefix_snoc.mp hpre with e | e
  · exact e
  · exact absurd e (h r r' (exists_iff.mp hd) (exists_iff.mp hd'))

theorem pkgWorld {w : FileWorld} (hw : OkWorld w) (h : NoPackageInR w) {paths : List DPath} (hn : paths.Nodup) : PkgWorld w.pkgFs paths where
  paths_nodup := hn
  below_nodup := below_nodup hw
  below_under d q hq := ((mem_below hw).mp hq).2
  apart _ _ _ _ hp hq hpre := package_apart h hp hq hpre

/-! ## Names -/

theorem splitOn_joinPath : ∀ {p : DPath}, p ≠ [] → (∀ n ∈ p, '/' ∉ n) → splitOn '/' (joinPath p) = p
  | [], h, _ => absurd rfl h
  | [n], _, h => by
    have : joinPath [n] = n := rfl
    rw [this, splitOn_no (h n (by simp))]
  | n :: m :: p, _, h => by
    have h1 : '/' ∉ n := h n (by simp)
    have : joinPath (n :: m :: p) = n ++ '/' :: joinPath (m :: p) := rfl
    rw [this, splitOn_at, splitOn_no h1, splitOn_joinPath (by simp) (fun x hx => h x (by simp [hx]))]
    rfl

theorem joinPath_head {n : Str} {p : DPath} (hn : n ≠ []) : ∃ c cs, n = c :: cs ∧ (joinPath (n :: p)).head? = some c := by
  cases n with
  | nil => exact absurd rfl hn
  | cons c cs =>
    refine ⟨c, cs, rfl, ?_⟩
    cases p <;> rfl

theorem joinPath_inj {p q : DPath} (hp : ∀ n ∈ p, n ≠ [] ∧ '/' ∉ n) (hq : ∀ n ∈ q, n ≠ [] ∧ '/' ∉ n) (h : joinPath p = joinPath q) : p = q := by
  have hne : ∀ {p : DPath}, p ≠ [] → (∀ n ∈ p, n ≠ [] ∧ '/' ∉ n) → joinPath p ≠ [] := by
    intro p hp0 hp
    cases p with
    | nil => exact absurd rfl hp0
    | cons n p =>
      obtain ⟨c, cs, _, h⟩ := joinPath_head (p := p) (hp n (by simp)).1
      intro e
      rw [e] at h
      cases h
  by_cases hp0 : p = []
  · subst hp0
    by_cases hq0 : q = []
    · exact hq0.symm
    · exact absurd h.symm (hne hq0 hq)
  · by_cases hq0 : q = []
    · subst hq0; exact absurd h (hne hp0 hp)
    · rw [← splitOn_joinPath hp0 (fun n hn => (hp n hn).2), h, splitOn_joinPath hq0 (fun n hn => (hq n hn).2)]

theorem relText_inj {cwd p q : DPath} (hp : ∀ n ∈ p, n ≠ [] ∧ '/' ∉ n) (hq : ∀ n ∈ q, n ≠ [] ∧ '/' ∉ n)
    (h : relText cwd p = relText cwd q) : p = q := by
  have mixed : ∀ {p q : DPath}, (∀ n ∈ p, n ≠ [] ∧ '/' ∉ n) → joinPath p ≠ '/' :: joinPath q := by
    intro p q hp e
    cases p with
    | nil => cases e
    | cons n p =>
      obtain ⟨c, cs, hn, h⟩ := joinPath_head (p := p) (hp n (by simp)).1
      rw [e] at h
      simp at h
      have := (hp n (by simp)).2
      rw [hn, ← h] at this
      simp at this
  have hd : ∀ {p : DPath} {k : Nat}, (∀ n ∈ p, n ≠ [] ∧ '/' ∉ n) → ∀ n ∈ p.drop k, n ≠ [] ∧ '/' ∉ n :=
    fun hp n hn => hp n (List.mem_of_mem_drop hn)
  unfold relText at h
  split at h <;> split at h
  · rename_i h1 h2
    rw [List.isPrefixOf_iff_prefix] at h1 h2
    have := joinPath_inj (hd hp) (hd hq) h
    rw [← List.prefix_iff_eq_append.mp h1, ← List.prefix_iff_eq_append.mp h2, this]
  · exact absurd h (mixed (hd hp))
  · exact absurd h.symm (mixed (hd hq))
  · exact joinPath_inj hp hq (List.cons.inj h).2

/-! ## The files found -/

theorem visitEntries_nodup {skip : DPath → Bool → Bool} {p : DPath} : ∀ {es : List (Str × FsTree)}, (es.map Prod.fst).Nodup →
    (∀ e ∈ es, OkTree e.2) → (∀ e ∈ es, (visitEntry skip (p ++ [e.1]) e.2).Nodup) → (visitEntries skip p es).Nodup
  | [], _, _, _ => by simp [visitEntries]
  | (n, t) :: es, hn, hok, h => by
    rw [List.map_cons, List.nodup_cons] at hn
    simp only [visitEntries]
    rw [List.nodup_append]
    refine ⟨?_, visitEntries_nodup hn.2 (fun e he => hok e (by simp [he])) (fun e he => h e (by simp [he])), ?_⟩
    · split
      · simp
      · exact h (n, t) (by simp)
    · intro x hx y hy hxy
      subst hxy
      split at hx
      · cases hx
      · obtain ⟨r, rfl, _⟩ := (mem_visitEntry (hok (n, t) (by simp))).mp hx
        obtain ⟨e, he, _, hy⟩ := mem_visitEntries.mp hy
        obtain ⟨r', hr', _⟩ := (mem_visitEntry (hok e (by simp [he]))).mp hy
        have : n = e.1 := by
          rw [List.append_assoc, List.append_assoc] at hr'
          have := List.append_cancel_left hr'
          simp at this
          exact this.1
        exact hn.1 (List.mem_map.mpr ⟨e, he, this.symm⟩)

theorem visitEntry_nodup {skip : DPath → Bool → Bool} {t : FsTree} : ∀ {p : DPath}, OkTree t → (visitEntry skip p t).Nodup := by
  induction t using FsTree.ind with
  | hf => intro p _; simp only [visitEntry]; split <;> simp
  | hd es ih =>
    intro p hok
    cases hok with
    | dir hnd _ hes =>
      simp only [visitEntry]
      exact visitEntries_nodup hnd hes (fun e he => ih e he (hes e he))

theorem visitArg_file {skip : DPath → Bool → Bool} {tree : FsTree} (ht : OkTree tree) {a f : DPath} (h : some f ∈ visitArg skip tree a) :
    IsFile tree f ∧ a <+: f := by
  unfold visitArg at h
  cases ha : tree.at a with
  | none => rw [ha] at h; simp at h
  | some t =>
    rw [ha] at h
    cases t with
    | file =>
      simp at h
      subst h
      exact ⟨ha, List.prefix_refl _⟩
    | dir es =>
      simp only [List.mem_map, Option.some.injEq] at h
      obtain ⟨x, hx, rfl⟩ := h
      have h2 : x ∈ visitEntry skip a (.dir es) := by simpa only [visitEntry] using hx
      obtain ⟨r, rfl, hr, _⟩ := (mem_visitEntry (at_ok ht ha).1).mp h2
      refine ⟨?_, List.prefix_append _ _⟩
      unfold IsFile
      rw [FsTree.at_append, ha]
      exact hr

theorem checkedFiles_file {tree : FsTree} {git : DPath → Bool → GitMatch} {items : List (DPath × ExcludeSettings)}
    {first : Option (DPath × ExcludeSettings)} {nd : Bool} {args : List DPath} {f : DPath} (ht : OkTree tree)
    (h : f ∈ checkedFiles tree git items first nd args) : IsFile tree f := by
  unfold checkedFiles discoverRFiles at h
  rw [List.mem_filterMap] at h
  obtain ⟨x, hx, rfl⟩ := h
  rw [List.mem_filter, List.mem_flatMap] at hx
  obtain ⟨⟨a, _, ha⟩, _⟩ := hx
  exact (visitArg_file ht ha).1

theorem checkedFiles_nodup {tree : FsTree} {git : DPath → Bool → GitMatch} {items : List (DPath × ExcludeSettings)}
    {first : Option (DPath × ExcludeSettings)} {nd : Bool} {args : List DPath} (ht : OkTree tree) (ha : Separate args) :
    (checkedFiles tree git items first nd args).Nodup := by
  have key : ∀ skip, ((args.flatMap (visitArg skip tree)).filterMap id).Nodup := by
    intro skip
    rw [List.filterMap_flatMap]
    apply nodup_flatMap_of ha.1
    · intro a _
      unfold visitArg
      cases hta : tree.at a with
      | none => simp
      | some t =>
        cases t with
        | file => simp
        | dir es =>
          simp only [List.filterMap_map]
          have := visitEntry_nodup (skip := skip) (p := a) (at_ok ht hta).1
          simpa only [visitEntry, Function.comp_def, id, List.filterMap_some] using this
    · intro a h1 b h2 x hx hy
      simp only [List.mem_filterMap, id] at hx hy
      obtain ⟨x', hx, rfl⟩ := hx
      obtain ⟨y', hy, rfl⟩ := hy
      have p1 := (visitArg_file ht hx).2
      have p2 := (visitArg_file ht hy).2
      rcases List.prefix_or_prefix_of_prefix p1 p2 with h | h
      · exact ha.2 a h1 b h2 h
      · exact (ha.2 b h2 a h1 h).symm
  unfold checkedFiles discoverRFiles
  exact (List.Sublist.filterMap id List.filter_sublist).nodup (key _)

theorem foundFiles_file {w : FileWorld} (hw : OkWorld w) {a : RunArgs} {items : List (DPath × JarlSettings)} {f : DPath}
    (h : f ∈ foundFiles w a items) : IsFile w.tree f := checkedFiles_file hw.tree h

theorem foundFiles_nodup {w : FileWorld} (hw : OkWorld w) {a : RunArgs} (ha : Separate a.paths) (items : List (DPath × JarlSettings)) :
    (foundFiles w a items).Nodup := checkedFiles_nodup hw.tree ha

theorem file_names {w : FileWorld} (hw : OkWorld w) {f : DPath} (h : IsFile w.tree f) : ∀ n ∈ f, n ≠ [] ∧ '/' ∉ n := by
  obtain ⟨_, h1, h2⟩ := at_ok hw.tree h
  exact fun n hn => ⟨h1 n hn, h2 n hn⟩

/-! ## Groups -/

/-- The group of a file. -/
def groupKey {S} (items : List (DPath × S)) (f : DPath) : Option DPath := (resolvePath items f).map Prod.fst

/-- What the groups are: one for every key that occurs, with the files of that key in their order. -/
structure GroupsOf (key : DPath → Option DPath) (files : List DPath) (gs : List (Option DPath × List DPath)) : Prop where
  keys : (gs.map Prod.fst).Nodup
  members : ∀ g ∈ gs, g.2 = files.filter (fun f => key f = g.1)
  all : ∀ k, k ∈ gs.map Prod.fst ↔ ∃ f ∈ files, key f = k

theorem addToGroup_keys (key : Option DPath) (f : DPath) : ∀ gs, key ∈ gs.map Prod.fst →
    (addToGroup key f gs).map Prod.fst = gs.map Prod.fst
  | [], h => by cases h
  | (k, fs) :: gs, h => by
    unfold addToGroup
    split
    · rfl
    · rename_i hk
      rw [List.map_cons, List.map_cons, addToGroup_keys key f gs]
      rw [List.map_cons, List.mem_cons] at h
      exact h.resolve_left (fun e => hk e.symm)

theorem addToGroup_new (key : Option DPath) (f : DPath) : ∀ gs, key ∉ gs.map Prod.fst → addToGroup key f gs = gs ++ [(key, [f])]
  | [], _ => rfl
  | (k, fs) :: gs, h => by
    simp only [List.map_cons, List.mem_cons, not_or] at h
    unfold addToGroup
    rw [if_neg (Ne.symm h.1), addToGroup_new key f gs h.2]
    rfl

theorem mem_addToGroup (key : Option DPath) (f : DPath) : ∀ gs, (gs.map Prod.fst).Nodup → ∀ g ∈ addToGroup key f gs,
    (g ∈ gs ∧ g.1 ≠ key) ∨ (g.1 = key ∧ ((∃ fs, (key, fs) ∈ gs ∧ g.2 = fs ++ [f]) ∨ (key ∉ gs.map Prod.fst ∧ g.2 = [f])))
  | [], _, g, hg => by
    simp only [addToGroup, List.mem_singleton] at hg
    subst hg
    exact .inr ⟨rfl, .inr ⟨by simp, rfl⟩⟩
  | (k, fs) :: gs, hn, g, hg => by
    rw [List.map_cons, List.nodup_cons] at hn
    unfold addToGroup at hg
    split at hg
    · rename_i hk
      subst hk
      rcases List.mem_cons.mp hg with rfl | hg
      · exact .inr ⟨rfl, .inl ⟨fs, by simp, rfl⟩⟩
      · exact .inl ⟨by simp [hg], fun e => hn.1 (List.mem_map.mpr ⟨g, hg, e⟩)⟩
    · rename_i hk
      rcases List.mem_cons.mp hg with rfl | hg
      · exact .inl ⟨by simp, hk⟩
      · rcases mem_addToGroup key f gs hn.2 g hg with ⟨h1, h2⟩ | ⟨h1, ⟨fs', h2, h3⟩ | ⟨h2, h3⟩⟩
        · exact .inl ⟨by simp [h1], h2⟩
        · exact .inr ⟨h1, .inl ⟨fs', by simp [h2], h3⟩⟩
        · exact .inr ⟨h1, .inr ⟨by simp [h2, Ne.symm hk], h3⟩⟩

theorem groupsOf_snoc {key : DPath → Option DPath} {files : List DPath} {gs : List (Option DPath × List DPath)} (h : GroupsOf key files gs)
    (f : DPath) : GroupsOf key (files ++ [f]) (addToGroup (key f) f gs) := by
  refine ⟨?_, ?_, ?_⟩
  · by_cases hk : key f ∈ gs.map Prod.fst
    · rw [addToGroup_keys _ _ _ hk]; exact h.keys
    · rw [addToGroup_new _ _ _ hk, List.map_append, List.nodup_append]
      refine ⟨h.keys, by simp, ?_⟩
      intro x hx y hy hxy
      simp at hy
      subst hxy hy
      exact hk hx
  · intro g hg
    rw [List.filter_append]
    rcases mem_addToGroup _ _ _ h.keys g hg with ⟨h1, h2⟩ | ⟨h1, ⟨fs, h2, h3⟩ | ⟨h2, h3⟩⟩
    · simp [h.members g h1, Ne.symm h2]
    · rw [h3, h1, show fs = files.filter (fun x => key x = key f) from h.members _ h2]
      simp
    · rw [h3, h1]
      have : files.filter (fun x => key x = key f) = [] := by
        rw [List.filter_eq_nil_iff]
        intro x hx hk
        exact h2 ((h.all _).mpr ⟨x, hx, by simpa using hk⟩)
      simp [this]
  · intro k
    by_cases hk : key f ∈ gs.map Prod.fst
    · rw [addToGroup_keys _ _ _ hk, h.all]
      constructor
      · rintro ⟨x, hx, e⟩; exact ⟨x, by simp [hx], e⟩
      · rintro ⟨x, hx, e⟩
        rcases List.mem_append.mp hx with hx | hx
        · exact ⟨x, hx, e⟩
        · simp at hx
          subst hx
          rw [← e]
          exact (h.all _).mp hk
    · rw [addToGroup_new _ _ _ hk, List.map_append, List.mem_append, h.all]
      constructor
      · rintro (⟨x, hx, e⟩ | hx)
        · exact ⟨x, by simp [hx], e⟩
        · simp at hx; exact ⟨f, by simp, hx.symm⟩
      · rintro ⟨x, hx, e⟩
        rcases List.mem_append.mp hx with hx | hx
        · exact .inl ⟨x, hx, e⟩
        · simp at hx
          subst hx
          right; simp [e]

theorem groupFiles_spec {S} (items : List (DPath × S)) (files : List DPath) : GroupsOf (groupKey items) files (groupFiles items files) := by
  have : ∀ (fs done : List DPath) gs, GroupsOf (groupKey items) done gs →
      GroupsOf (groupKey items) (done ++ fs) (fs.foldl (fun gs f => addToGroup ((resolvePath items f).map Prod.fst) f gs) gs) := by
    intro fs
    induction fs with
    | nil => intro done gs h; simpa using h
    | cons f fs ih =>
      intro done gs h
      rw [List.foldl_cons, show done ++ f :: fs = (done ++ [f]) ++ fs by simp]
      exact ih _ _ (groupsOf_snoc h f)
  have h0 : GroupsOf (groupKey items) [] [] := ⟨by simp, fun _ h => (nomatch h), by simp⟩
  simpa [groupFiles] using this files [] [] h0

theorem groupsOf_perm {key : DPath → Option DPath} {files : List DPath} {gs gs' : List (Option DPath × List DPath)} (h : GroupsOf key files gs)
    (hp : gs'.Perm gs) : GroupsOf key files gs' :=
  ⟨(hp.map _).nodup_iff.mpr h.keys, fun g hg => h.members g (hp.mem_iff.mp hg), fun k => by rw [(hp.map _).mem_iff, h.all]⟩

end Jarl
