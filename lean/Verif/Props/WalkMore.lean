import Verif.Props.Walk
/-!
# C68: consequences
-/
namespace Jarl
open Spec

/-- What has to hold of the configurations (see `C68_checked`). -/
structure OkItems (tree : FsTree) (items : List (DPath × ExcludeSettings)) (first : Option (DPath × ExcludeSettings)) : Prop where
  okTree : OkTree tree
  nodup : (items.map Prod.fst).Nodup
  dirs : ∀ x ∈ items, IsDirectory tree x.1
  settings : ∀ x ∈ items, OkSettings x.2
  isItem : ∀ x, first = some x → x ∈ items

theorem OkItems.checked {tree : FsTree} {git : DPath → Bool → GitMatch} {items : List (DPath × ExcludeSettings)}
    {first : Option (DPath × ExcludeSettings)} {nd : Bool} {args : List DPath} {f : DPath} (h : OkItems tree items first) :
    f ∈ checkedFiles tree git items first nd args ↔
      IsFile tree f ∧ Reached tree git (first.map Prod.fst) (walkPatterns first nd) args f ∧
        ∀ x, NearestItem items x f → Wanted x.1 x.2 f :=
  C68_checked h.okTree h.nodup h.dirs h.settings h.isItem

/-- **C68** (a run). The configurations that `jarl check` discovers meet what `C68_checked` asks for, so it tells exactly which files a run checks; `first` is any of
them (which one `resolver.items().first()` is depends on the dependency). -/
theorem C68_run {tree : FsTree} {git : DPath → Bool → GitMatch} {fs : ConfigFs ExcludeSettings} {args : List DPath}
    {found : List (DPath × ExcludeSettings)} {first : Option (DPath × ExcludeSettings)} {nd : Bool} {f : DPath}
    (htree : OkTree tree) (hfs : ∀ d s, fs.toml d = some (some s) → IsDirectory tree d ∧ OkSettings s)
    (hfound : discoverSettings fs args = some found) (hfirst : ∀ x, first = some x → x ∈ overrideDefault nd found) :
    OkItems tree (overrideDefault nd found) first ∧
    (f ∈ checkedFiles tree git (overrideDefault nd found) first nd args ↔
      IsFile tree f ∧ Reached tree git (first.map Prod.fst) (walkPatterns first nd) args f ∧
        ∀ x, NearestItem (overrideDefault nd found) x f → Wanted x.1 x.2 f) := by
  have hi := (discover_inv hfound).1
  have hfst : (overrideDefault nd found).map Prod.fst = found.map Prod.fst := by
    unfold overrideDefault
    rw [List.map_map]
    rfl
  have hmem : ∀ x ∈ overrideDefault nd found, ∃ s, (x.1, s) ∈ found ∧ x.2.exclude = s.exclude ∧ x.2.include_ = s.include_ := by
    intro x hx
    unfold overrideDefault at hx
    rw [List.mem_map] at hx
    obtain ⟨y, hy, rfl⟩ := hx
    refine ⟨y.2, hy, ?_, ?_⟩ <;> cases nd <;> rfl
  have hok : OkItems tree (overrideDefault nd found) first := by
    refine ⟨htree, by rw [hfst]; exact hi.nodup, ?_, ?_, hfirst⟩
    · intro x hx
      obtain ⟨s, hs, -, -⟩ := hmem x hx
      exact (hfs _ _ (hi.valid _ hs)).1
    · intro x hx
      obtain ⟨s, hs, h1, h2⟩ := hmem x hx
      have := (hfs _ _ (hi.valid _ hs)).2
      unfold OkSettings
      rw [h1, h2]
      exact this
  exact ⟨hok, hok.checked⟩

/-- **C68** (`--no-default-exclude`). With the option, the default patterns are not in force, whatever the configurations say. -/
theorem C68_no_default_exclude {found : List (DPath × ExcludeSettings)} {first : Option (DPath × ExcludeSettings)}
    (hfirst : ∀ x, first = some x → x ∈ overrideDefault true found) :
    walkPatterns first true = ((first.map (·.2.exclude.getD [])).getD []) := by
  cases first with
  | none => rfl
  | some x =>
    have hx := hfirst x rfl
    unfold overrideDefault at hx
    rw [List.mem_map] at hx
    obtain ⟨y, -, rfl⟩ := hx
    simp [walkPatterns]

theorem mem_listDirsIn {skip : DPath → Bool → Bool} {p d : DPath} {es : List (Str × FsTree)} :
    d ∈ listDirsIn skip p es ↔
      ∃ e ∈ es, skip (p ++ [e.1]) e.2.isDir = false ∧ d ∈ listDirs skip (p ++ [e.1]) e.2 := by
  induction es with
  | nil => simp [listDirsIn]
  | cons e es ih =>
    obtain ⟨n, t⟩ := e
    simp only [listDirsIn, List.mem_append, ih, List.mem_cons, exists_eq_or_imp]
    cases skip (p ++ [n]) t.isDir <;> simp

/-- Every directory with nothing left out on the way is listed. -/
theorem listed {skip : DPath → Bool → Bool} {t : FsTree} : ∀ {p d : DPath} {r : DPath} {es : List (Str × FsTree)}, OkTree t → d = p ++ r →
    t.at r = some (.dir es) → (∀ e, p <+: e → e ≠ p → e <+: d → skip e true = false) → d ∈ listDirs skip p t := by
  induction t using FsTree.ind with
  | hf =>
    intro p d r es _ _ h
    cases r <;> simp [FsTree.at] at h
  | hd es0 ih =>
    intro p d r es hok hd hat hskip
    cases hok with
    | dir hnd hne hok =>
      rw [listDirs]
      cases r with
      | nil => rw [hd, List.append_nil]; exact List.mem_cons_self
      | cons n r =>
        obtain ⟨t, ht, hat'⟩ := (FsTree.at_entry hnd).1 hat
        have hpre : p ++ [n] <+: d := ⟨r, by rw [hd]; simp⟩
        refine List.mem_cons_of_mem _ (mem_listDirsIn.2 ⟨(n, t), ht, ?_, ih _ ht (hok _ ht) (r := r) (by rw [hd]; simp) hat' ?_⟩)
        · have hdir : t.isDir = true := by
            cases t with
            | dir _ => rfl
            | file => cases r <;> simp [FsTree.at] at hat'
          simp only [hdir]
          exact hskip _ ⟨[n], rfl⟩ (by simp) hpre
        · intro e h1 h2 h3
          refine hskip e ((List.prefix_append _ _).trans h1) ?_ h3
          rintro rfl
          exact absurd h1 not_prefix_longer

/-- **C68** with **C47**. Every file that is checked is checked with the settings of the configuration file nearest above it (the default settings if there is none): the
directories with configuration files are looked for in the same way as the files, so none is missed. (Arguments inside the user's configuration directory aside.) -/
theorem C68_nearest_config {tree : FsTree} {git : DPath → Bool → GitMatch} {fs : ConfigFs ExcludeSettings} {args : List DPath}
    {found : List (DPath × ExcludeSettings)} {first : Option (DPath × ExcludeSettings)} {nd : Bool} {f : DPath}
    (htree : OkTree tree) (hfs : ∀ d s, fs.toml d = some (some s) → IsDirectory tree d ∧ OkSettings s)
    (hdirs : ∀ d, fs.toml d ≠ none → IsDirectory tree d) (hwalk : fs.walk = nestedWalk git tree)
    (hfound : discoverSettings fs args = some found) (hfirst : ∀ x, first = some x → x ∈ overrideDefault nd found)
    (hout : ∀ a ∈ args, OutsideUserDir fs a)
    (hf : f ∈ checkedFiles tree git (overrideDefault nd found) first nd args) :
    (∀ d, Nearest fs d f → ∃ s, resolvePath found f = some (d, s) ∧ fs.toml d = some (some s)) ∧
    (NoConfigAbove fs f → resolvePath found f = none) := by
  obtain ⟨hok, hrun⟩ := C68_run (git := git) (nd := nd) (f := f) htree hfs hfound hfirst
  obtain ⟨hfile, hr, -⟩ := hrun.1 hf
  rcases hr with hr | ⟨-, a, ha, h1, h2, h3, -⟩
  · refine C47_nearest_config fs args found f f hfound hr ⟨List.prefix_refl _, ?_⟩ (hout f hr)
    intro e h4 h5 h6 _
    exact absurd (h6.eq_of_length_le h4.length_le) h5
  · refine C47_nearest_config fs args found a f hfound ha ⟨h1, ?_⟩ (hout a ha)
    intro e h4 h5 h6 h7
    obtain ⟨es, hes⟩ := hdirs e h7
    rw [hwalk]
    unfold nestedWalk
    obtain ⟨r, rfl⟩ := h4
    have hes' := hes
    rw [FsTree.at_append] at hes'
    cases hat : tree.at a with
    | none => rw [hat] at hes'; cases hes'
    | some t =>
      rw [hat] at hes'
      refine listed (at_ok htree hat).1 rfl hes' ?_
      intro e h8 h9 h10
      have h11 : e <+: f := h10.trans h6
      have h12 : e ≠ f := by
        rintro rfl
        have := h10.eq_of_length_le h6.length_le
        rw [← this] at hes
        rw [hfile] at hes
        cases hes
      have h13 := h3 e h8 h9 h11 h12
      unfold LeftOut at h13
      simp only [not_or, not_and, Classical.not_not] at h13
      unfold skipNested
      cases hg : git e true with
      | ignore => exact absurd hg h13.2.1
      | whitelist => rfl
      | none =>
        rw [Bool.eq_false_iff]
        intro hh
        have := h13.2.2 (hidden_iff.1 hh)
        rw [hg] at this
        cases this

/-- **C68** (explicit files). A file given as an argument is checked whatever its extension, hidden or not, ignored by git or not, and whatever the
default patterns and patterns for directories: only the patterns of its own configuration for the file itself count. -/
theorem C68_explicit {tree : FsTree} {git : DPath → Bool → GitMatch} {items : List (DPath × ExcludeSettings)}
    {first : Option (DPath × ExcludeSettings)} {nd : Bool} {args : List DPath} {f : DPath} (h : OkItems tree items first)
    (hf : f ∈ args) :
    f ∈ checkedFiles tree git items first nd args ↔ IsFile tree f ∧ ∀ x, NearestItem items x f → Wanted x.1 x.2 f := by
  rw [h.checked]
  constructor
  · rintro ⟨h1, -, h3⟩; exact ⟨h1, h3⟩
  · rintro ⟨h1, h3⟩; exact ⟨h1, .inl hf, h3⟩

/-- **C68** (one configuration). With a single configuration file, above all arguments, a file found in a directory is checked exactly when it has one of the
extensions, neither it nor a directory between the argument and it is hidden, ignored by git or matched by an `exclude` or default
pattern, and `include` is empty or has a pattern that matches it. -/
theorem C68_one_config {tree : FsTree} {git : DPath → Bool → GitMatch} {d : DPath} {s : ExcludeSettings} {nd : Bool} {args : List DPath} {f : DPath}
    (htree : OkTree tree) (hd : IsDirectory tree d) (hs : OkSettings s) (hargs : ∀ a ∈ args, d <+: a) (hf : f ∉ args) :
    f ∈ checkedFiles tree git [(d, s)] (some (d, s)) nd args ↔
      IsFile tree f ∧ CheckedName f ∧
      (∃ a ∈ args, a <+: f ∧ a ≠ f ∧ ∀ e r, a <+: e → e ≠ a → e <+: f → e = d ++ r →
        (∀ l, s.exclude = some l → ¬ AnyHits l r (decide (e ≠ f))) ∧
        (s.defaultExclude ≠ some false → ¬ AnyHits defaultExcludePatterns r (decide (e ≠ f))) ∧
        git e (decide (e ≠ f)) ≠ .ignore ∧ (DotName e → git e (decide (e ≠ f)) = .whitelist)) ∧
      (∀ r l, f = d ++ r → s.include_ = some l → l ≠ [] → ∃ p ∈ l, IncludeHits p r) := by
  have hok : OkItems tree [(d, s)] (some (d, s)) :=
    ⟨htree, by simp, by simpa using hd, by simpa using hs, by intro x hx; cases hx; simp⟩
  rw [hok.checked]
  have hlo : ∀ e r b, e = d ++ r → (¬ LeftOut git (some d) (walkPatterns (some (d, s)) nd) e b ↔
      (∀ l, s.exclude = some l → ¬ AnyHits l r b) ∧
        (s.defaultExclude ≠ some false → ¬ AnyHits defaultExcludePatterns r b) ∧
        git e b ≠ .ignore ∧ (DotName e → git e b = .whitelist)) := by
    intro e r b he
    subst he
    have hsf : (∃ r', SeenFrom (some d) (d ++ r) r' ∧ AnyHits (walkPatterns (some (d, s)) nd) r' b) ↔
        AnyHits (walkPatterns (some (d, s)) nd) r b := by
      constructor
      · rintro ⟨r', h1, h2⟩
        rw [seenFrom_iff, seenFrom_iff.1 SeenFrom.below] at h1
        subst h1; exact h2
      · intro h; exact ⟨r, .below, h⟩
    have hap : AnyHits (walkPatterns (some (d, s)) nd) r b ↔
        AnyHits (s.exclude.getD []) r b ∨ (s.defaultExclude ≠ some false ∧ AnyHits defaultExcludePatterns r b) := by
      unfold AnyHits walkPatterns
      simp only [List.mem_append]
      have hdef : s.defaultExclude.getD true = true ↔ s.defaultExclude ≠ some false := by
        rcases s.defaultExclude with _ | _ | _ <;> simp
      constructor
      · rintro ⟨p, hp | hp, hh⟩
        · exact .inl ⟨p, hp, hh⟩
        · split at hp
          · rename_i h1
            exact .inr ⟨hdef.1 h1, p, hp, hh⟩
          · cases hp
      · rintro (⟨p, hp, hh⟩ | ⟨h1, p, hp, hh⟩)
        · exact ⟨p, .inl hp, hh⟩
        · exact ⟨p, .inr (by rw [if_pos (hdef.2 h1)]; exact hp), hh⟩
    have hex : ¬ AnyHits (s.exclude.getD []) r b ↔ ∀ l, s.exclude = some l → ¬ AnyHits l r b := by
      cases he : s.exclude with
      | none => simp [AnyHits]
      | some l => simp
    unfold LeftOut
    rw [hsf, hap, ← hex]
    simp only [not_or, not_and, Classical.not_not]
    constructor
    · rintro ⟨⟨h1, h2⟩, h3, h4⟩; exact ⟨h1, h2, h3, h4⟩
    · rintro ⟨h1, h2, h3, h4⟩; exact ⟨⟨h1, h2⟩, h3, h4⟩
  have hnear : ∀ {x r}, f = d ++ r → (NearestItem [(d, s)] x f ↔ x = (d, s)) := by
    intro x r hr
    unfold NearestItem
    constructor
    · rintro ⟨h1, -⟩; simpa using h1
    · rintro rfl
      refine ⟨by simp, ⟨r, hr.symm⟩, ?_⟩
      intro y hy _
      simp only [List.mem_singleton] at hy
      subst hy
      exact Nat.le_refl _
  simp only [Option.map_some]
  constructor
  · rintro ⟨h1, h2, h3⟩
    rcases h2 with h2 | ⟨h2, a, ha, h4, h5, h6, h7⟩
    · exact absurd h2 hf
    · refine ⟨h1, h2, ⟨a, ha, h4, h5, ?_⟩, ?_⟩
      · intro e r h8 h9 h10 he
        by_cases hef : e = f
        · subst hef
          simp only [ne_eq, not_true_eq_false, decide_false]
          exact (hlo e r false he).1 h7
        · simp only [ne_eq, hef, not_false_eq_true, decide_true]
          exact (hlo e r true he).1 (h6 e h8 h9 h10 hef)
      · intro r l hr hl hne
        exact (h3 _ ((hnear hr).2 rfl) r hr).2 l hl hne
  · rintro ⟨h1, h2, ⟨a, ha, h4, h5, h6⟩, h7⟩
    refine ⟨h1, .inr ⟨h2, a, ha, h4, h5, ?_, ?_⟩, ?_⟩
    · intro e h8 h9 h10 hef
      obtain ⟨r, hr⟩ := (hargs a ha).trans h8
      have := h6 e r h8 h9 h10 hr.symm
      simp only [ne_eq, hef, not_false_eq_true, decide_true] at this
      exact (hlo e r true hr.symm).2 this
    · obtain ⟨r, hr⟩ := (hargs a ha).trans h4
      have := h6 f r h4 (Ne.symm h5) (List.prefix_refl _) hr.symm
      simp only [ne_eq, not_true_eq_false, decide_false] at this
      exact (hlo f r false hr.symm).2 this
    · intro x hx r hr
      obtain ⟨r', hr'⟩ := (hargs a ha).trans h4
      have hx' := (hnear hr'.symm).1 hx
      subst hx'
      refine ⟨?_, fun l => h7 r l hr⟩
      intro l hl
      have := h6 f r h4 (Ne.symm h5) (List.prefix_refl _) hr
      simp only [ne_eq, not_true_eq_false, decide_false] at this
      exact this.1 l hl

/-- **C69** (partial: with several configurations, patterns for directories and default patterns are those of the first one only, see the theorems
`C69_false_…`). However many configurations there are: the patterns for the file itself and `include` are those of its own configuration; and if the first
configuration has no patterns, nothing else counts. -/
theorem C69_own_config_partial {tree : FsTree} {git : DPath → Bool → GitMatch} {items : List (DPath × ExcludeSettings)}
    {first : Option (DPath × ExcludeSettings)} {nd : Bool} {args : List DPath} {f : DPath} (h : OkItems tree items first) :
    (f ∈ checkedFiles tree git items first nd args → ∀ x, NearestItem items x f → Wanted x.1 x.2 f) ∧
    ((∀ x, first = some x → x.2.defaultExclude = some false ∧ (x.2.exclude = none ∨ x.2.exclude = some [])) → (first = none → nd = true) →
      (f ∈ checkedFiles tree git items first nd args ↔
        IsFile tree f ∧ Reached tree git none [] args f ∧ ∀ x, NearestItem items x f → Wanted x.1 x.2 f)) := by
  refine ⟨fun hf => (h.checked.1 hf).2.2, ?_⟩
  intro h1 h2
  have hw : walkPatterns first nd = [] := by
    cases first with
    | none => simp [walkPatterns, h2 rfl]
    | some x =>
      obtain ⟨d, s⟩ := x
      obtain ⟨h3, h4⟩ := h1 _ rfl
      rcases h4 with h4 | h4 <;> simp_all [walkPatterns]
  have hl : ∀ root e b, LeftOut git root [] e b ↔ LeftOut git none [] e b := by
    intro root e b
    unfold LeftOut AnyHits
    constructor
    · rintro (⟨r, -, p, hp, -⟩ | h)
      · cases hp
      · exact .inr h
    · rintro (⟨r, -, p, hp, -⟩ | h)
      · cases hp
      · exact .inr h
  rw [h.checked, hw]
  unfold Reached
  simp only [hl (first.map Prod.fst)]

/-- **C68** (no configuration). -/
theorem C68_no_config {tree : FsTree} {git : DPath → Bool → GitMatch} {nd : Bool} {args : List DPath} {f : DPath} (htree : OkTree tree) :
    f ∈ checkedFiles tree git [] none nd args ↔
      IsFile tree f ∧ Reached tree git none (if nd then [] else defaultExcludePatterns) args f := by
  rw [C68_checked htree (by simp) (by simp) (by simp) (by simp)]
  constructor
  · rintro ⟨h1, h2, -⟩; exact ⟨h1, h2⟩
  · rintro ⟨h1, h2⟩; exact ⟨h1, h2, fun x hx => (nomatch hx.1)⟩

/-- **C68** (arguments). The order of the arguments and repetitions do not matter, and further arguments add files (for the same configurations). -/
theorem C68_arguments {tree : FsTree} {git : DPath → Bool → GitMatch} {items : List (DPath × ExcludeSettings)}
    {first : Option (DPath × ExcludeSettings)} {nd : Bool} {args args' : List DPath} (h : OkItems tree items first)
    (hsub : ∀ a ∈ args, a ∈ args') {f : DPath} (hf : f ∈ checkedFiles tree git items first nd args) :
    f ∈ checkedFiles tree git items first nd args' := by
  rw [h.checked] at hf ⊢
  obtain ⟨h1, h2, h3⟩ := hf
  refine ⟨h1, ?_, h3⟩
  rcases h2 with h2 | ⟨h2, a, ha, h4⟩
  · exact .inl (hsub f h2)
  · exact .inr ⟨h2, a, hsub a ha, h4⟩

/-- **C68** (missing arguments, finding F45). Arguments that do not exist make no difference at all, not even to what is printed, as long as some file is found. -/
theorem C68_missing {tree : FsTree} {git : DPath → Bool → GitMatch} {items : List (DPath × ExcludeSettings)}
    {first : Option (DPath × ExcludeSettings)} {nd : Bool} {args : List DPath} :
    checkedFiles tree git items first nd (args.filter (fun a => (tree.at a).isSome)) = checkedFiles tree git items first nd args := by
  unfold checkedFiles discoverRFiles
  induction args with
  | nil => rfl
  | cons a args ih =>
    rw [List.filter_cons]
    cases hat : tree.at a with
    | some t =>
      simp only [Option.isSome_some, ite_true, List.flatMap_cons, List.filter_append, List.filterMap_append, ih]
    | none =>
      simp only [Option.isSome_none, Bool.false_eq_true, ite_false, List.flatMap_cons, List.filter_append, List.filterMap_append, ih]
      have : visitArg (skipEntry git first nd) tree a = [none] := by unfold visitArg; rw [hat]
      rw [this]
      rfl

/-- **C68** (threads). Whatever thread is given which entry, and in whatever order the threads end: nothing is lost and nothing appears twice. -/
theorem C68_threads {α} (visits : List (Nat × α)) (ends : List Nat) (hnd : ends.Nodup) (hall : ∀ v ∈ visits, v.1 ∈ ends) :
    (collectVisits visits ends).Perm (visits.map Prod.snd) := by
  induction ends generalizing visits with
  | nil =>
    cases visits with
    | nil => exact .nil
    | cons v vs => exact absurd (hall v (by simp)) (by simp)
  | cons t ends ih =>
    rw [List.nodup_cons] at hnd
    have hrest : collectVisits visits ends = collectVisits (visits.filter (fun v => !decide (v.1 = t))) ends := by
      unfold collectVisits
      have : ∀ l : List Nat, t ∉ l → l.flatMap (fun u => (visits.filter (fun v => v.1 = u)).map Prod.snd) =
          l.flatMap (fun u => ((visits.filter (fun v => !decide (v.1 = t))).filter (fun v => v.1 = u)).map Prod.snd) := by
        intro l hl
        induction l with
        | nil => rfl
        | cons u l ihl =>
          rw [List.mem_cons, not_or] at hl
          rw [List.flatMap_cons, List.flatMap_cons, ihl hl.2, List.filter_filter]
          congr 2
          apply List.filter_congr
          intro v _
          by_cases hv : v.1 = u
          · have : u ≠ t := fun h => hl.1 h.symm
            simp [hv, this]
          · simp [hv]
      exact this ends hnd.1
    have h1 : collectVisits visits (t :: ends) =
        (visits.filter (fun v => decide (v.1 = t))).map Prod.snd ++ collectVisits visits ends := rfl
    rw [h1, hrest]
    have h2 := ih (visits.filter (fun v => !decide (v.1 = t))) hnd.2 (by
      intro v hv
      rw [List.mem_filter] at hv
      rcases List.mem_cons.1 (hall v hv.1) with h | h
      · simp [h] at hv
      · exact h)
    refine (List.Perm.append_left _ h2).trans ?_
    rw [← List.map_append]
    exact (List.filter_append_perm _ _).map _

end Jarl
