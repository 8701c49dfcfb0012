import Verif.Props.WalkFalse
/-!
# C70: the editor and the command line look at the same files
-/
namespace Jarl
open Spec

/-- The text of an absolute path (crates/jarl-lsp/src/utils.rs:16 `to_string_lossy`, 120-125). -/
def pathText (p : DPath) : Str := p.flatMap (fun n => '/' :: n)

namespace Spec

/-- A pattern that both understand: a name (with `*`), or the name of a directory with a slash behind it. -/
def NamePattern (p : Str) : Prop := p ≠ [] ∧ '/' ∉ p ∧ '?' ∉ p
def DirPattern (p : Str) : Prop := ∃ n, p = n ++ ['/'] ∧ n ≠ [] ∧ '/' ∉ n ∧ '?' ∉ n ∧ '*' ∉ n

/-- The patterns of `exclude` and the default patterns in force. -/
def patternsOf (s : ExcludeSettings) : List Str :=
  s.exclude.getD [] ++ (if s.defaultExclude = some false then [] else defaultExcludePatterns)

/-- What the editor does not look at: nothing between the directory of the configuration and the file is hidden or ignored by git. -/
def Plain (git : DPath → Bool → GitMatch) (d f : DPath) : Prop :=
  ∀ e, d <+: e → e ≠ d → e <+: f → ¬ DotName e ∧ git e (decide (e ≠ f)) ≠ .ignore

end Spec

theorem splitOn_pathText {p : DPath} (h : ∀ n ∈ p, '/' ∉ n) : splitOn '/' (pathText p) = [] :: p := by
  induction p with
  | nil => rfl
  | cons n p ih =>
    have h1 : '/' ∉ n := h n (by simp)
    have h2 := ih (fun m hm => h m (by simp [hm]))
    cases p with
    | nil =>
      simp only [pathText, List.flatMap_cons, List.flatMap_nil, List.append_nil]
      rw [show ('/' :: n) = [] ++ '/' :: n from rfl, splitOn_at, splitOn_no h1]
      rfl
    | cons m p =>
      have h3 : pathText (n :: m :: p) = '/' :: n ++ '/' :: (m ++ p.flatMap (fun n => '/' :: n)) := by
        simp [pathText]
      have h4 : pathText (m :: p) = [] ++ '/' :: (m ++ p.flatMap (fun n => '/' :: n)) := by
        simp [pathText]
      rw [h4, splitOn_at] at h2
      rw [h3, splitOn_at, show ('/' :: n) = [] ++ '/' :: n from rfl, splitOn_at, splitOn_no h1]
      have h5 : splitOn '/' (m ++ p.flatMap (fun n => '/' :: n)) = m :: p := by
        have : splitOn '/' ([] : Str) = [[]] := rfl
        rw [this] at h2
        simpa using h2
      rw [h5]
      rfl

theorem normalizeSeps_id {p : DPath} (h : ∀ n ∈ p, '\\' ∉ n) : normalizeSeps (pathText p) = pathText p := by
  unfold normalizeSeps
  conv => rhs; rw [← List.map_id (pathText p)]
  apply List.map_congr_left
  intro c hc
  rw [if_neg]
  · rfl
  · rintro rfl
    unfold pathText at hc
    rw [List.mem_flatMap] at hc
    obtain ⟨n, hn, hc⟩ := hc
    rcases List.mem_cons.1 hc with h1 | h1
    · cases h1
    · exact h n hn h1

theorem glob_iff_wild {p s : Str} (h : '?' ∉ p) : Glob p s ↔ Wild p s := by
  constructor
  · intro hg
    induction hg with
    | nil => exact .nil
    | lit hc _ ih =>
      simp only [List.mem_cons, not_or] at h
      exact .lit hc (Ne.symm h.1) (ih h.2)
    | star g _ ih =>
      simp only [List.mem_cons, not_or] at h
      exact .star g (ih h.2)
  · intro hw
    induction hw with
    | nil => exact .nil
    | star g _ ih =>
      simp only [List.mem_cons, not_or] at h
      exact .star g (ih h.2)
    | one c _ ih => simp at h
    | lit hc _ _ ih =>
      simp only [List.mem_cons, not_or] at h
      exact .lit hc (ih h.2)

theorem wild_literal {p s : Str} (h1 : '*' ∉ p) (h2 : '?' ∉ p) : Wild p s ↔ s = p := by
  constructor
  · intro hw
    induction hw with
    | nil => rfl
    | star g _ ih => simp at h1
    | one c _ ih => simp at h2
    | lit _ _ _ ih =>
      simp only [List.mem_cons, not_or] at h1 h2
      rw [ih h1.2 h2.2]
  · rintro rfl; exact wild_self h1 h2

/-- The editor, a name. -/
theorem editor_name {p : Str} {q : DPath} {x : Str} (hp : NamePattern p) (h1 : ∀ n ∈ q ++ [x], '/' ∉ n) (h2 : ∀ n ∈ q ++ [x], '\\' ∉ n) :
    matchesPattern (pathText (q ++ [x])) p = true ↔ Wild p x := by
  obtain ⟨hp0, hp1, hp2⟩ := hp
  have hl : lastComponent (pathText (q ++ [x])) = x := by
    unfold lastComponent
    rw [splitOn_pathText h1, List.getLast?_cons]
    simp
  have he : endsWith ['/'] p = false := by
    rw [Bool.eq_false_iff]
    intro h
    obtain ⟨t, rfl⟩ := endsWith_iff_suffix.1 h
    simp at hp1
  unfold matchesPattern
  simp only [normalizeSeps_id h2, he, Bool.false_eq_true, ite_false, hl]
  by_cases hs : '*' ∈ p
  · rw [if_pos hs, globBranch_iff hs, glob_iff_wild hp2]
  · rw [if_neg hs, decide_eq_true_eq, wild_literal hs hp2]

/-- The editor, a directory. -/
theorem editor_dir {n : Str} {f : DPath} (hn : n ≠ []) (hn1 : '/' ∉ n) (h1 : ∀ n ∈ f, '/' ∉ n) (h2 : ∀ n ∈ f, '\\' ∉ n) :
    matchesPattern (pathText f) (n ++ ['/']) = true ↔ n ∈ f := by
  have he : endsWith ['/'] (n ++ ['/']) = true := endsWith_iff_suffix.2 ⟨n, rfl⟩
  have ht : ((n ++ ['/']).reverse.dropWhile (· = '/')).reverse = n := by
    rw [List.reverse_append]
    simp only [List.reverse_singleton, List.singleton_append, List.dropWhile_cons, decide_true, ite_true]
    have : n.reverse.dropWhile (· = '/') = n.reverse := by
      cases hr : n.reverse with
      | nil => rfl
      | cons c t =>
        rw [List.dropWhile_cons, if_neg]
        have : c ∈ n := by rw [← List.mem_reverse, hr]; simp
        intro hc
        simp only [decide_eq_true_eq] at hc
        subst hc
        exact hn1 this
    rw [this, List.reverse_reverse]
  unfold matchesPattern
  simp only [normalizeSeps_id h2, he, ite_true, ht, splitOn_pathText h1]
  simp only [List.any_cons, List.any_eq_true, Bool.or_eq_true, decide_eq_true_eq]
  constructor
  · rintro (h | ⟨x, hx, rfl⟩)
    · exact absurd h.symm hn
    · exact hx
  · intro h; exact .inr ⟨n, h, rfl⟩

/-- The command line, a name. -/
theorem hits_name_iff {p : Str} {q : List Str} {x : Str} {b : Bool} (hp : NamePattern p) : Hits p (q ++ [x]) b ↔ Wild p x := by
  obtain ⟨hp0, hp1, hp2⟩ := hp
  constructor
  · intro h
    generalize hr : q ++ [x] = r at h
    cases h with
    | everything => exact wild_two_stars x
    | name _ hw =>
      have := List.append_inj_right' hr rfl
      simp only [List.cons.injEq, and_true] at this
      rw [this]; exact hw
    | path h1 _ _ _ _ => exact absurd h1 hp1
    | rooted _ _ _ => simp at hp1
    | inside _ _ _ _ => simp at hp1
    | rootedInside _ _ => simp at hp1
    | folder _ _ _ => simp at hp1
  · exact .name hp1

/-- The command line, a directory. -/
theorem hits_dir_iff {n : Str} {q : List Str} {x : Str} {b : Bool} (hn : n ≠ []) (hn1 : '/' ∉ n) (hn2 : '?' ∉ n) (hn3 : '*' ∉ n) :
    Hits (n ++ ['/']) (q ++ [x]) b ↔ b = true ∧ x = n := by
  constructor
  · intro h
    generalize hp : n ++ ['/'] = p at h
    generalize hr : q ++ [x] = r at h
    cases h with
    | everything => have := congrArg List.getLast? hp; simp at this
    | name h1 _ => subst hp; simp at h1
    | path _ _ h1 _ _ => exact absurd ⟨n, hp⟩ h1
    | rooted _ _ _ =>
      cases n with
      | nil => exact absurd rfl hn
      | cons c n =>
        simp only [List.cons_append, List.cons.injEq] at hp
        rw [hp.1] at hn1
        simp at hn1
    | inside _ _ _ _ => have := congrArg List.getLast? hp; simp at this
    | rootedInside _ _ =>
      cases n with
      | nil => exact absurd rfl hn
      | cons c n =>
        simp only [List.cons_append, List.cons.injEq] at hp
        rw [hp.1] at hn1
        simp at hn1
    | folder _ _ h3 =>
      have := List.append_cancel_right hp
      subst this
      subst hr
      refine ⟨rfl, ?_⟩
      exact (wild_literal hn3 hn2).1 ((hits_name_iff ⟨hn, hn1, hn2⟩).1 h3)
  · rintro ⟨rfl, rfl⟩
    refine .folder hn ?_ (.name hn1 (wild_self hn3 hn2))
    rintro ⟨t, rfl⟩
    simp at hn1

theorem default_simple : ∀ p ∈ defaultExcludePatterns, NamePattern p ∨ DirPattern p := by
  intro p hp
  simp only [defaultExcludePatterns, List.mem_cons, List.not_mem_nil, or_false] at hp
  unfold NamePattern
  rcases hp with rfl | rfl | rfl | rfl | rfl | rfl | rfl
  · right; exact ⟨cs! ".git", rfl, by decide⟩
  · right; exact ⟨cs! "renv", rfl, by decide⟩
  · right; exact ⟨cs! "revdep", rfl, by decide⟩
  · left; decide
  · left; decide
  · left; decide
  · left; decide

/-- Names of directories between. -/
theorem between_snoc {d r : List Str} {e : DPath} (h1 : d <+: e) (h2 : e ≠ d) (h3 : e <+: d ++ r) : ∃ r1 x r2, e = d ++ (r1 ++ [x]) ∧ r = r1 ++ x :: r2 := by
  obtain ⟨t, rfl⟩ := h1
  have ht : t ≠ [] := by rintro rfl; simp at h2
  obtain ⟨r1, x, rfl⟩ : ∃ r1 x, t = r1 ++ [x] := ⟨t.dropLast, t.getLast ht, (List.dropLast_concat_getLast ht).symm⟩
  obtain ⟨u, hu⟩ := h3
  rw [List.append_assoc] at hu
  refine ⟨r1, x, u, rfl, ?_⟩
  rw [← List.append_cancel_left hu]
  simp

/-- **C70** (partial: where patterns are names or directories, the directories above the configuration have none of these names, no name pattern matches a directory, and nothing is
hidden or ignored by git; without these conditions it is false, see the theorems `C70_false_…`). The editor lints a file exactly when `jarl check`, run on the directory of the
configuration, checks it. -/
theorem C70_agree_partial {tree : FsTree} {git : DPath → Bool → GitMatch} {d r : DPath} {s : ExcludeSettings}
    (htree : OkTree tree) (hd : IsDirectory tree d) (hfile : IsFile tree (d ++ r)) (hname : CheckedName (d ++ r))
    (hplain : Plain git d (d ++ r)) (hbs : ∀ n ∈ d ++ r, '\\' ∉ n)
    (hex : ∀ p ∈ s.exclude.getD [], (NamePattern p ∨ DirPattern p) ∧ trimEnd p = p)
    (hin : ∀ p ∈ s.include_.getD [], NamePattern p ∧ OkInclude p)
    (habove : ∀ n, n ++ ['/'] ∈ patternsOf s → n ∉ d ∧ r.getLast? ≠ some n)
    (hdirs : ∀ p ∈ patternsOf s, NamePattern p → ∀ x ∈ r.dropLast, ¬ Wild p x) :
    d ++ r ∈ checkedFiles tree git [(d, s)] (some (d, s)) false [d] ↔ shouldExcludeBySettings (pathText (d ++ r)) (some s) = false := by
  have hr : r ≠ [] := by
    rintro rfl
    obtain ⟨es, hes⟩ := hd
    rw [List.append_nil] at hfile
    unfold IsFile at hfile
    rw [hfile] at hes
    cases hes
  obtain ⟨r0, x0, rfl⟩ : ∃ r0 x0, r = r0 ++ [x0] := ⟨r.dropLast, r.getLast hr, (List.dropLast_concat_getLast hr).symm⟩
  have hsl : ∀ n ∈ d ++ (r0 ++ [x0]), '/' ∉ n := (at_ok htree hfile).2.2
  have hdl : (r0 ++ [x0]).dropLast = r0 := by simp
  rw [hdl] at hdirs
  have hsimple : ∀ p ∈ patternsOf s, NamePattern p ∨ DirPattern p := by
    intro p hp
    unfold patternsOf at hp
    rcases List.mem_append.1 hp with hp | hp
    · exact (hex p hp).1
    · split at hp
      · cases hp
      · exact default_simple p hp
  have hok : OkSettings s := by
    constructor
    · intro l hl p hp
      have hp' : p ∈ s.exclude.getD [] := by rw [hl]; exact hp
      obtain ⟨h1, h2⟩ := hex p hp'
      refine ⟨?_, h2⟩
      rcases h1 with h1 | ⟨n, rfl, -⟩
      · exact h1.1
      · simp
    · intro l hl p hp
      have hp' : p ∈ s.include_.getD [] := by rw [hl]; exact hp
      exact (hin p hp').2
  have hne : d ++ (r0 ++ [x0]) ∉ [d] := by simp
  -- one pattern
  have hpat : ∀ p ∈ patternsOf s, (matchesPattern (pathText (d ++ (r0 ++ [x0]))) p = true ↔
      ∃ e r', d <+: e ∧ e ≠ d ∧ e <+: d ++ (r0 ++ [x0]) ∧ e = d ++ r' ∧ Hits p r' (decide (e ≠ d ++ (r0 ++ [x0])))) := by
    intro p hp
    rcases hsimple p hp with h1 | ⟨n, rfl, h2, h3, h4, h5⟩
    · have := editor_name (q := d ++ r0) (x := x0) h1 (by rw [List.append_assoc]; exact hsl) (by rw [List.append_assoc]; exact hbs)
      rw [List.append_assoc] at this
      rw [this]
      constructor
      · intro hw
        exact ⟨_, _, List.prefix_append _ _, by simp, List.prefix_refl _, rfl, (hits_name_iff h1).2 hw⟩
      · rintro ⟨e, r', h6, h7, h8, h9, h10⟩
        obtain ⟨r1, x, r2, rfl, h11⟩ := between_snoc h6 h7 h8
        have h12 := List.append_cancel_left h9
        subst h12
        rw [hits_name_iff h1] at h10
        by_cases hr2 : r2 = []
        · subst hr2
          have := List.append_inj_right' h11 rfl
          simp only [List.cons.injEq, and_true] at this
          rw [this]; exact h10
        · refine absurd h10 (hdirs p hp h1 x ?_)
          have := congrArg List.dropLast h11
          rw [hdl] at this
          rw [this, List.dropLast_append_of_ne_nil (by simp)]
          rw [List.dropLast_cons_of_ne_nil hr2]
          simp
    · rw [editor_dir h2 h3 hsl hbs]
      obtain ⟨h6, h7⟩ := habove n hp
      constructor
      · intro hm
        have hm' : n ∈ r0 := by
          rcases List.mem_append.1 hm with hm | hm
          · exact absurd hm h6
          · rcases List.mem_append.1 hm with hm | hm
            · exact hm
            · simp only [List.mem_singleton] at hm
              subst hm
              simp at h7
        obtain ⟨a, b, rfl⟩ := List.append_of_mem hm'
        refine ⟨d ++ (a ++ [n]), a ++ [n], List.prefix_append _ _, by simp, ⟨b ++ [x0], by simp⟩, rfl, ?_⟩
        refine (hits_dir_iff h2 h3 h4 h5).2 ⟨?_, rfl⟩
        rw [decide_eq_true_eq]
        intro h
        have := congrArg List.length h
        simp at this
      · rintro ⟨e, r', h8, h9, h10, h11, h12⟩
        obtain ⟨r1, x, r2, rfl, h13⟩ := between_snoc h8 h9 h10
        have h14 := List.append_cancel_left h11
        subst h14
        obtain ⟨-, rfl⟩ := (hits_dir_iff h2 h3 h4 h5).1 h12
        rw [h13]
        simp
  -- include
  have hinc : ∀ p ∈ s.include_.getD [], (matchesPattern (pathText (d ++ (r0 ++ [x0]))) p = true ↔ IncludeHits p (r0 ++ [x0])) := by
    intro p hp
    obtain ⟨h1, -⟩ := hin p hp
    have := editor_name (q := d ++ r0) (x := x0) h1 (by rw [List.append_assoc]; exact hsl) (by rw [List.append_assoc]; exact hbs)
    rw [List.append_assoc] at this
    rw [this, ← hits_name_iff (q := r0) (b := false) h1]
    unfold IncludeHits
    have hns : ¬ ['/'] <:+ p := by rintro ⟨t, rfl⟩; exact h1.2.1 (by simp)
    constructor
    · intro h; exact .inr ⟨hns, h⟩
    · rintro (⟨t, rfl, -⟩ | ⟨-, h⟩)
      · exact absurd ⟨t, rfl⟩ hns
      · exact h
  have hmp : ∀ p, p ∈ patternsOf s ↔ (∃ l, s.exclude = some l ∧ p ∈ l) ∨ (s.defaultExclude ≠ some false ∧ p ∈ defaultExcludePatterns) := by
    intro p
    unfold patternsOf
    rw [List.mem_append]
    have h1 : p ∈ s.exclude.getD [] ↔ ∃ l, s.exclude = some l ∧ p ∈ l := by
      cases s.exclude <;> simp
    rw [h1]
    by_cases h2 : s.defaultExclude = some false
    · rw [if_pos h2]; simp [h2]
    · rw [if_neg h2]; simp [h2]
  have hfalse : shouldExcludeBySettings (pathText (d ++ (r0 ++ [x0]))) (some s) = false ↔
      (∀ p ∈ patternsOf s, matchesPattern (pathText (d ++ (r0 ++ [x0]))) p = false) ∧
      (∀ l, s.include_ = some l → l ≠ [] → ∃ p ∈ l, matchesPattern (pathText (d ++ (r0 ++ [x0]))) p = true) := by
    rw [← Bool.not_eq_true, C43_excluded]
    constructor
    · intro h
      constructor
      · intro p hp
        rw [Bool.eq_false_iff]
        intro hm
        rcases (hmp p).1 hp with ⟨l, hl, hpl⟩ | ⟨h1, h2⟩
        · exact h ⟨s, rfl, .inl ⟨l, hl, p, hpl, hm⟩⟩
        · exact h ⟨s, rfl, .inr (.inl ⟨h1, p, h2, hm⟩)⟩
      · intro l hl hne
        apply Classical.byContradiction
        intro hno
        refine h ⟨s, rfl, .inr (.inr ⟨l, hl, hne, ?_⟩)⟩
        intro p hp
        rw [Bool.eq_false_iff]
        intro hm
        exact hno ⟨p, hp, hm⟩
    · rintro ⟨h1, h2⟩ ⟨t, ht, h3⟩
      cases ht
      rcases h3 with ⟨l, hl, p, hp, hm⟩ | ⟨hdf, p, hp, hm⟩ | ⟨l, hl, hne, hno⟩
      · have := h1 p ((hmp p).2 (.inl ⟨l, hl, hp⟩))
        rw [hm] at this; cases this
      · have := h1 p ((hmp p).2 (.inr ⟨hdf, hp⟩))
        rw [hm] at this; cases this
      · obtain ⟨p, hp, hm⟩ := h2 l hl hne
        rw [hno p hp] at hm; cases hm
  rw [C68_one_config htree hd hok (by simp) hne, hfalse]
  constructor
  · rintro ⟨-, -, ⟨a, ha, -, -, h4⟩, h5⟩
    simp only [List.mem_singleton] at ha
    subst ha
    constructor
    · intro p hp
      rw [Bool.eq_false_iff]
      intro hm
      obtain ⟨e, r', h6, h7, h8, h9, h10⟩ := (hpat p hp).1 hm
      obtain ⟨h11, h12, -, -⟩ := h4 e r' h6 h7 h8 h9
      rcases (hmp p).1 hp with ⟨l, hl, hpl⟩ | ⟨h1, h2⟩
      · exact h11 l hl ⟨p, hpl, h10⟩
      · exact h12 h1 ⟨p, h2, h10⟩
    · intro l hl hne
      obtain ⟨p, hp, hh⟩ := h5 _ l rfl hl hne
      exact ⟨p, hp, (hinc p (by rw [hl]; exact hp)).2 hh⟩
  · rintro ⟨h1, h2⟩
    refine ⟨hfile, hname, ⟨d, List.mem_singleton.2 rfl, List.prefix_append _ _, by simp, ?_⟩, ?_⟩
    · intro e r' h6 h7 h8 h9
      have key : ∀ p ∈ patternsOf s, ¬ Hits p r' (decide (e ≠ d ++ (r0 ++ [x0]))) := by
        intro p hp hh
        have := (hpat p hp).2 ⟨e, r', h6, h7, h8, h9, hh⟩
        rw [h1 p hp] at this
        cases this
      obtain ⟨h10, h11⟩ := hplain e h6 h7 h8
      refine ⟨?_, ?_, h11, fun h => absurd h h10⟩
      · rintro l hl ⟨p, hp, hh⟩
        exact key p ((hmp p).2 (.inl ⟨l, hl, hp⟩)) hh
      · rintro hdf ⟨p, hp, hh⟩
        exact key p ((hmp p).2 (.inr ⟨hdf, hp⟩)) hh
    · intro r' l hr' hl hne
      have := List.append_cancel_left hr'
      subst this
      obtain ⟨p, hp, hm⟩ := h2 l hl hne
      exact ⟨p, hp, (hinc p (by rw [hl]; exact hp)).1 hm⟩

/-! ## A case that meets the hypotheses -/

def exEditor : ExcludeSettings := { exclude := some [cs! "tests/", cs! "gen*"], include_ := some [cs! "*.R", cs! "*.Rmd"] }

/-- The hypotheses of `C70_agree_partial` hold for five files of `exProject`; the editor and the command line agree about them. -/
theorem C70_ex_agree {r : DPath} (hr : r ∈ [[cs! "R", cs! "a.R"], [cs! "R", cs! "gen.R"], [cs! "tests", cs! "t.R"], [cs! "renv", cs! "activate.R"], [cs! "doc.Rmd"]]) :
    ([cs! "p"] ++ r ∈ checkedFiles exProject noGit [([cs! "p"], exEditor)] (some ([cs! "p"], exEditor)) false [[cs! "p"]] ↔
      shouldExcludeBySettings (pathText ([cs! "p"] ++ r)) (some exEditor) = false) := by
  have hex : ∀ p ∈ exEditor.exclude.getD [], (NamePattern p ∨ DirPattern p) ∧ trimEnd p = p := by
    intro p hp
    simp only [exEditor, Option.getD_some, List.mem_cons, List.not_mem_nil, or_false] at hp
    rcases hp with rfl | rfl
    · exact ⟨.inr ⟨cs! "tests", rfl, by decide⟩, by decide⟩
    · refine ⟨.inl ?_, by decide⟩
      unfold NamePattern; decide
  have hin : ∀ p ∈ exEditor.include_.getD [], NamePattern p ∧ OkInclude p := by
    intro p hp
    simp only [exEditor, Option.getD_some, List.mem_cons, List.not_mem_nil, or_false] at hp
    unfold NamePattern OkInclude OkPattern
    rcases hp with rfl | rfl <;> decide
  have hpats : patternsOf exEditor = [cs! "tests/", cs! "gen*", cs! ".git/", cs! "renv/", cs! "revdep/", cs! "cpp11.R", cs! "RcppExports.R", cs! "extendr-wrappers.R",
      cs! "import-standalone-*.R"] := by decide
  have hnp : ∀ n, n ++ ['/'] ∈ patternsOf exEditor → n ∈ [cs! "tests", cs! ".git", cs! "renv", cs! "revdep"] := by
    intro n hn
    rw [hpats] at hn
    simp only [List.mem_cons, List.not_mem_nil, or_false] at hn
    rcases hn with h | h | h | h | h | h | h | h | h
    all_goals first
      | (have h1 := congrArg List.dropLast h; rw [List.dropLast_concat] at h1; subst h1; decide)
      | (have h1 := congrArg List.getLast? h; rw [List.getLast?_concat] at h1; exact absurd h1 (by decide))
  have hdirs : ∀ p ∈ patternsOf exEditor, NamePattern p → ∀ x ∈ r.dropLast, ¬ Wild p x := by
    intro p hp hpn x hx
    have hx' : x ∈ [cs! "R", cs! "tests", cs! "renv"] := by
      simp only [List.mem_cons, List.not_mem_nil, or_false] at hr
      rcases hr with rfl | rfl | rfl | rfl | rfl <;> revert hx <;> simp <;> rintro rfl <;> simp
    rw [← glob_iff_wild hpn.2.2]
    intro hg
    have hlen : ∀ c ∈ p, c ≠ '*' → c ∈ x := fun c hc hs => Glob.literal hc hs hg
    rw [hpats] at hp
    simp only [List.mem_cons, List.not_mem_nil, or_false] at hp hx'
    rcases hp with rfl | rfl | rfl | rfl | rfl | rfl | rfl | rfl | rfl
    all_goals rcases hx' with rfl | rfl | rfl
    all_goals revert hlen
    all_goals decide
  refine C70_agree_partial exProject_ok.okTree (exProject_ok.dirs _ (List.mem_singleton.2 rfl)) ?_ ?_ ?_ ?_ hex hin ?_ hdirs
  · simp only [List.mem_cons, List.not_mem_nil, or_false] at hr
    rcases hr with rfl | rfl | rfl | rfl | rfl <;> rfl
  · simp only [List.mem_cons, List.not_mem_nil, or_false] at hr
    rcases hr with rfl | rfl | rfl | rfl | rfl
    · exact ⟨[cs! "p", cs! "R"], cs! "a", cs! "R", rfl, by decide, by decide⟩
    · exact ⟨[cs! "p", cs! "R"], cs! "gen", cs! "R", rfl, by decide, by decide⟩
    · exact ⟨[cs! "p", cs! "tests"], cs! "t", cs! "R", rfl, by decide, by decide⟩
    · exact ⟨[cs! "p", cs! "renv"], cs! "activate", cs! "R", rfl, by decide, by decide⟩
    · exact ⟨[cs! "p"], cs! "doc", cs! "Rmd", rfl, by decide, by decide⟩
  · intro e h1 h2 h3
    refine ⟨?_, by simp [noGit]⟩
    obtain ⟨r1, x, r2, rfl, h4⟩ := between_snoc h1 h2 h3
    have hx : x ∈ r := by rw [h4]; simp
    rintro ⟨y, m, hy⟩
    rw [← List.append_assoc] at hy
    have hy' := List.append_inj_right' hy rfl
    simp only [List.cons.injEq, and_true] at hy'
    rw [hy'] at hx
    simp only [List.mem_cons, List.not_mem_nil, or_false] at hr
    rcases hr with rfl | rfl | rfl | rfl | rfl <;> simp at hx
  · simp only [List.mem_cons, List.not_mem_nil, or_false] at hr
    rcases hr with rfl | rfl | rfl | rfl | rfl <;> decide
  · intro n hn
    have := hnp n hn
    simp only [List.mem_cons, List.not_mem_nil, or_false] at this hr
    rcases this with rfl | rfl | rfl | rfl <;> rcases hr with rfl | rfl | rfl | rfl | rfl <;> decide

/-- Three of them are left out by both, two are looked at by both. -/
theorem C70_ex_values :
    checkedFiles exProject noGit [([cs! "p"], exEditor)] (some ([cs! "p"], exEditor)) false [[cs! "p"]] = [[cs! "p", cs! "R", cs! "a.R"], [cs! "p", cs! "doc.Rmd"]] ∧
    shouldExcludeBySettings (cs! "/p/R/a.R") (some exEditor) = false ∧ shouldExcludeBySettings (cs! "/p/doc.Rmd") (some exEditor) = false ∧
    shouldExcludeBySettings (cs! "/p/R/gen.R") (some exEditor) = true ∧ shouldExcludeBySettings (cs! "/p/tests/t.R") (some exEditor) = true ∧
    shouldExcludeBySettings (cs! "/p/renv/activate.R") (some exEditor) = true := by
  refine ⟨?_, ?_, ?_, ?_, ?_, ?_⟩ <;> decide +kernel

/-! ## Without the conditions it is false (findings F21, F47) -/

/-- The files that `jarl check p` checks, with these settings in `p/jarl.toml`. -/
def onCommandLine (s : ExcludeSettings) : List DPath := checkedFiles exProject noGit [([cs! "p"], s)] (some ([cs! "p"], s)) false [[cs! "p"]]

/-- **C70** (F21): the documented form `exclude = ["R/gen.R"]` is obeyed by the command line only. -/
theorem C70_false_path_pattern :
    [cs! "p", cs! "R", cs! "gen.R"] ∉ onCommandLine { exclude := some [cs! "R/gen.R"] } ∧
    shouldExcludeBySettings (cs! "/p/R/gen.R") (some { exclude := some [cs! "R/gen.R"] }) = false := by
  constructor <;> decide +kernel

/-- **C70** (F47): a pattern without a slash that matches a directory leaves out its files on the command line only. -/
theorem C70_false_directory_name :
    [cs! "p", cs! "tests", cs! "t.R"] ∉ onCommandLine { exclude := some [cs! "tests"] } ∧
    shouldExcludeBySettings (cs! "/p/tests/t.R") (some { exclude := some [cs! "tests"] }) = false ∧
    [cs! "p", cs! "tests", cs! "t.R"] ∉ onCommandLine { exclude := some [cs! "test*"] } ∧
    shouldExcludeBySettings (cs! "/p/tests/t.R") (some { exclude := some [cs! "test*"] }) = false := by
  refine ⟨?_, ?_, ?_, ?_⟩ <;> decide +kernel

/-- **C70** (F47): a star in the name of a directory is a star on the command line, and the character `*` in the editor. -/
theorem C70_false_directory_star :
    [cs! "p", cs! "tests", cs! "t.R"] ∉ onCommandLine { exclude := some [cs! "test*/"] } ∧
    shouldExcludeBySettings (cs! "/p/tests/t.R") (some { exclude := some [cs! "test*/"] }) = false := by
  constructor <;> decide +kernel

/-- A project below a directory `renv`. -/
def exBelow : FsTree := .dir [(cs! "renv", .dir [(cs! "p", .dir [(cs! "jarl.toml", .file), (cs! "a.R", .file)])])]

/-- **C70** (F47): the editor compares the names of directories with all directories of the absolute path: in a project below a directory `renv` or `revdep` (revdep checks are there) nothing is
linted, with an empty `jarl.toml`; the command line checks the files. -/
theorem C70_false_above :
    [cs! "renv", cs! "p", cs! "a.R"] ∈
      checkedFiles exBelow noGit [([cs! "renv", cs! "p"], {})] (some ([cs! "renv", cs! "p"], {})) false [[cs! "renv", cs! "p"]] ∧
    shouldExcludeBySettings (cs! "/renv/p/a.R") (some {}) = true := by
  constructor <;> decide +kernel

/-- The same for all projects: below a directory with one of the three names, the editor lints no file, unless the default patterns are turned off. -/
theorem C70_above_nothing {s : ExcludeSettings} {f : DPath} {n : Str} (h1 : ∀ m ∈ f, '/' ∉ m) (h2 : ∀ m ∈ f, '\\' ∉ m)
    (hs : s.defaultExclude ≠ some false) (hn : n ∈ defaultDirs) (hf : n ∈ f) : shouldExcludeBySettings (pathText f) (some s) = true := by
  rw [C43_excluded]
  refine ⟨s, rfl, .inr (.inl ⟨hs, n ++ ['/'], ?_, ?_⟩)⟩
  · simp only [defaultDirs, List.mem_cons, List.not_mem_nil, or_false] at hn
    rcases hn with rfl | rfl | rfl <;> decide
  · refine (editor_dir ?_ (h1 n hf) h1 h2).2 hf
    simp only [defaultDirs, List.mem_cons, List.not_mem_nil, or_false] at hn
    rcases hn with rfl | rfl | rfl <;> decide

/-- **C70** (F47): hidden files and files that git ignores are linted in the editor; without a configuration the default patterns are not in force there. -/
theorem C70_false_hidden :
    [cs! "p", cs! "tests", cs! ".hidden.R"] ∉ onCommandLine {} ∧ shouldExcludeBySettings (cs! "/p/tests/.hidden.R") (some {}) = false ∧
    [cs! "p", cs! "R", cs! "cpp11.R"] ∉ checkedFiles exProject noGit [] none false [[cs! "p"]] ∧ shouldExcludeBySettings (cs! "/p/R/cpp11.R") none = false := by
  refine ⟨?_, ?_, ?_, ?_⟩ <;> decide +kernel

/-- **C70** (F47): `include = ["tests/"]` means the directory next to `jarl.toml` on the command line, any directory of that name, also above the project, in the editor; `include = ["R/a.R"]`
includes nothing in the editor. -/
theorem C70_false_include :
    includedBy [cs! "tests/"] [cs! "sub", cs! "tests", cs! "t.R"] = false ∧
    shouldExcludeBySettings (cs! "/p/sub/tests/t.R") (some { include_ := some [cs! "tests/"] }) = false ∧
    onCommandLine { include_ := some [cs! "R/a.R"] } = [[cs! "p", cs! "R", cs! "a.R"]] ∧
    shouldExcludeBySettings (cs! "/p/R/a.R") (some { include_ := some [cs! "R/a.R"] }) = true := by
  refine ⟨?_, ?_, ?_, ?_⟩ <;> decide +kernel

end Jarl
