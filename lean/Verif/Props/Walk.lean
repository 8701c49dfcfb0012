import Verif.Props.WalkPatterns
import Verif.Props.Discovery
/-!
# C68: which files are checked
-/
namespace Jarl
open Spec

/-! ## include -/

theorem trimEnd_star (s : Str) : trimEnd (s ++ ['*']) = s ++ ['*'] := by
  unfold trimEnd
  rw [List.reverse_append]
  have : (['*'].reverse ++ s.reverse).dropWhile isWs = ['*'].reverse ++ s.reverse := by
    simp only [List.reverse_singleton, List.singleton_append]
    rw [List.dropWhile_cons, if_neg (by decide)]
  rw [this]
  simp

theorem includeGlob_ok {p : Str} (h : OkInclude p) :
    ∃ g, includeGlob p = some g ∧ g.negated = false ∧
      ∀ r, r.getLast? ≠ some [] → (g.hits r false = true ↔ IncludeHits p r) := by
  obtain ⟨⟨hne, htr⟩, hh, hb⟩ := h
  unfold includeGlob
  by_cases hs : ['/'] <:+ p
  · have he := endsWith_iff_suffix.2 hs
    obtain ⟨d, rfl⟩ := hs
    have hline : (d ++ ['/'] ++ cs! "**") = d ++ cs! "/**" := by simp
    have hhead : (d ++ cs! "/**").head? = (d ++ ['/']).head? := by cases d <;> rfl
    have htrim : trimEnd (d ++ cs! "/**") = d ++ cs! "/**" := by
      have := trimEnd_star (d ++ cs! "/*")
      simpa using this
    simp only [he, ite_true, hline, hhead, if_neg hh, htrim, if_neg hb]
    rw [if_neg (by simp)]
    refine ⟨_, rfl, ?_, ?_⟩
    · rfl
    · intro r hr
      rw [C68_pattern (by simp) hr]
      constructor
      · intro h; exact .inl ⟨d, rfl, h⟩
      · rintro (⟨d', hd, h⟩ | ⟨h, -⟩)
        · rw [List.append_cancel_right hd]; exact h
        · exact absurd ⟨d, rfl⟩ h
  · have he : endsWith ['/'] p = false := by
      rw [Bool.eq_false_iff]; intro h; exact hs (endsWith_iff_suffix.1 h)
    simp only [he, Bool.false_eq_true, ite_false, if_neg hh, htr, if_neg hne, if_neg hb]
    refine ⟨_, rfl, rfl, ?_⟩
    intro r hr
    rw [C68_pattern hne hr]
    constructor
    · intro h; exact .inr ⟨hs, h⟩
    · rintro (⟨d, rfl, -⟩ | ⟨-, h⟩)
      · exact absurd ⟨d, rfl⟩ hs
      · exact h

/-- **C68** (include). -/
theorem C68_include {ps : List Str} (hps : ∀ p ∈ ps, OkInclude p) {r : List Str} (hr : r.getLast? ≠ some []) :
    includedBy ps r = true ↔ ∃ p ∈ ps, IncludeHits p r := by
  unfold includedBy
  cases hf : ((ps.filterMap includeGlob).reverse).find? (fun g => g.hits r false) with
  | none =>
    refine ⟨fun h => (nomatch h), ?_⟩
    rintro ⟨p, hp, h⟩
    obtain ⟨g, hg, -, hi⟩ := includeGlob_ok (hps p hp)
    rw [List.find?_eq_none] at hf
    exact absurd ((hi r hr).2 h) (hf g (by rw [List.mem_reverse, List.mem_filterMap]; exact ⟨p, hp, hg⟩))
  | some g =>
    have hm := List.mem_of_find?_eq_some hf
    have hh := List.find?_some hf
    rw [List.mem_reverse, List.mem_filterMap] at hm
    obtain ⟨p, hp, hg⟩ := hm
    obtain ⟨g', hg', hn, hi⟩ := includeGlob_ok (hps p hp)
    rw [hg] at hg'
    cases hg'
    simp only [hn, Bool.not_false, true_iff]
    exact ⟨p, hp, (hi r hr).1 hh⟩

/-! ## The tree -/

theorem FsTree.ind {P : FsTree → Prop} (hf : P .file) (hd : ∀ es, (∀ e ∈ es, P e.2) → P (.dir es)) (t : FsTree) : P t :=
  FsTree.rec (motive_1 := P) (motive_2 := fun es => ∀ e ∈ es, P e.2) (motive_3 := fun e => P e.2)
    hf (fun es h => hd es h) (fun _ h => (nomatch h))
    (fun e es h1 h2 x hx => by
      rcases List.mem_cons.1 hx with rfl | hx
      · exact h1
      · exact h2 x hx)
    (fun _ _ h => h) t

theorem FsTree.at_append (t : FsTree) (p q : DPath) : t.at (p ++ q) = (t.at p).bind (fun s => s.at q) := by
  induction p generalizing t with
  | nil => simp [FsTree.at]
  | cons n p ih =>
    cases t with
    | file => simp [FsTree.at]
    | dir es =>
      simp only [List.cons_append, FsTree.at]
      cases h : es.find? (fun e => e.1 = n) with
      | none => rfl
      | some x => obtain ⟨m, s⟩ := x; exact ih s

theorem find_entry {es : List (Str × FsTree)} (hnd : (es.map Prod.fst).Nodup) {e : Str × FsTree} (he : e ∈ es) :
    es.find? (fun x => x.1 = e.1) = some e := by
  induction es with
  | nil => cases he
  | cons x es ih =>
    rw [List.map_cons, List.nodup_cons] at hnd
    rw [List.find?_cons]
    rcases List.mem_cons.1 he with rfl | h
    · simp
    · have : x.1 ≠ e.1 := fun hx => hnd.1 (hx ▸ List.mem_map_of_mem h)
      simp only [this, decide_false]
      exact ih hnd.2 h

theorem FsTree.at_entry {es : List (Str × FsTree)} (hnd : (es.map Prod.fst).Nodup) {n : Str} {ns : DPath} {s : FsTree} :
    (FsTree.dir es).at (n :: ns) = some s ↔ ∃ t, (n, t) ∈ es ∧ t.at ns = some s := by
  simp only [FsTree.at]
  constructor
  · intro h
    cases hf : es.find? (fun e => e.1 = n) with
    | none => rw [hf] at h; cases h
    | some x =>
      obtain ⟨m, t⟩ := x
      rw [hf] at h
      have h1 := List.mem_of_find?_eq_some hf
      have h2 := List.find?_some hf
      simp only [decide_eq_true_eq] at h2
      subst h2
      exact ⟨t, h1, h⟩
  · rintro ⟨t, h1, h2⟩
    have := find_entry hnd h1
    simp only [this]
    exact h2

theorem at_ok {t s : FsTree} {p : DPath} (ht : OkTree t) (h : t.at p = some s) : OkTree s ∧ (∀ n ∈ p, n ≠ []) ∧ ∀ n ∈ p, '/' ∉ n := by
  induction p generalizing t with
  | nil => simp only [FsTree.at, Option.some.injEq] at h; subst h; exact ⟨ht, fun _ h => (nomatch h), fun _ h => (nomatch h)⟩
  | cons n p ih =>
    cases ht with
    | file => cases h
    | dir hnd hne hok =>
      obtain ⟨t', h1, h2⟩ := (FsTree.at_entry hnd).1 h
      obtain ⟨h3, h4, h5⟩ := ih (hok _ h1) h2
      refine ⟨h3, ?_, ?_⟩
      · intro m hm
        rcases List.mem_cons.1 hm with rfl | hm
        · exact (hne _ h1).1
        · exact h4 m hm
      · intro m hm
        rcases List.mem_cons.1 hm with rfl | hm
        · exact (hne _ h1).2
        · exact h5 m hm

theorem checkedName_iff {p : DPath} (h : ∀ n ∈ p, '/' ∉ n) : hasCheckedExtension p = true ↔ CheckedName p := by
  have hext : ∀ {n : Str} {e : Str}, '/' ∉ n → (extension n = some e ↔ ∃ stem, n = stem ++ '.' :: e ∧ '.' ∉ e ∧ stem ≠ []) := by
    intro n e hn
    unfold extension
    rw [splitLast_none.2 hn]
    simp only [nameExtension]
    constructor
    · intro h
      split at h
      · cases h
      · rename_i a e' hne hs
        cases h
        obtain ⟨h1, h2⟩ := splitLast_iff.1 hs
        exact ⟨a, h1, h2, fun ha => hne ha⟩
      · cases h
    · rintro ⟨stem, h1, h2, h3⟩
      rw [splitLast_iff.2 ⟨h1, h2⟩]
      cases stem with
      | nil => exact absurd rfl h3
      | cons _ _ => rfl
  have hkey : ∀ n : Str, (hasRExtension n || hasRmdExtension n) = true ↔
      ∃ e ∈ [cs! "R", cs! "r", cs! "Rmd", cs! "rmd", cs! "Qmd", cs! "qmd"], extension n = some e := by
    intro n
    unfold hasRExtension hasRmdExtension
    cases extension n with
    | none => simp
    | some e =>
      simp only [Bool.or_eq_true, decide_eq_true_eq, Option.some.injEq, List.mem_cons, List.not_mem_nil, or_false]
      constructor
      · rintro ((rfl | rfl) | (((rfl | rfl) | rfl) | rfl))
        all_goals exact ⟨_, by simp, rfl⟩
      · rintro ⟨e', (rfl | rfl | rfl | rfl | rfl | rfl), rfl⟩ <;> simp
  unfold hasCheckedExtension
  rw [hkey]
  unfold CheckedName
  constructor
  · rintro ⟨e, he, hx⟩
    have hp : p ≠ [] := by
      rintro rfl
      have := hx
      simp [fileNameOf, extension, nameExtension, splitLast, splitFirst] at this
    obtain ⟨q, n, rfl⟩ : ∃ q n, p = q ++ [n] := ⟨p.dropLast, p.getLast hp, (List.dropLast_concat_getLast hp).symm⟩
    have hfn : fileNameOf (q ++ [n]) = n := by simp [fileNameOf]
    rw [hfn] at hx
    obtain ⟨stem, h1, -, h3⟩ := (hext (h n (by simp))).1 hx
    exact ⟨q, stem, e, by rw [h1], h3, he⟩
  · rintro ⟨q, stem, e, rfl, h3, he⟩
    have hfn : fileNameOf (q ++ [stem ++ '.' :: e]) = stem ++ '.' :: e := by simp [fileNameOf]
    refine ⟨e, he, ?_⟩
    rw [hfn]
    refine (hext (h _ (by simp))).2 ⟨stem, rfl, ?_, h3⟩
    simp only [List.mem_cons, List.not_mem_nil, or_false] at he
    rcases he with rfl | rfl | rfl | rfl | rfl | rfl <;> decide

theorem mem_visitEntries {skip : DPath → Bool → Bool} {p f : DPath} {es : List (Str × FsTree)} :
    f ∈ visitEntries skip p es ↔
      ∃ e ∈ es, skip (p ++ [e.1]) e.2.isDir = false ∧ f ∈ visitEntry skip (p ++ [e.1]) e.2 := by
  induction es with
  | nil => simp [visitEntries]
  | cons e es ih =>
    obtain ⟨n, t⟩ := e
    simp only [visitEntries, List.mem_append, ih, List.mem_cons, exists_eq_or_imp]
    cases skip (p ++ [n]) t.isDir <;> simp

theorem prefix_between {p e f : DPath} {n : Str} {r : DPath} (hf : f = p ++ n :: r) (h1 : p <+: e) (h2 : e ≠ p) (h3 : e <+: f) :
    p ++ [n] <+: e := by
  subst hf
  obtain ⟨t, rfl⟩ := h1
  have h4 : t <+: n :: r := by
    obtain ⟨u, hu⟩ := h3
    rw [List.append_assoc] at hu
    exact ⟨u, List.append_cancel_left hu⟩
  cases t with
  | nil => simp at h2
  | cons m t =>
    obtain ⟨u, hu⟩ := h4
    simp only [List.cons_append, List.cons.injEq] at hu
    rw [hu.1]
    exact ⟨t, by simp⟩

/-- What is found by looking at an entry that is not left out, and below. -/
theorem mem_visitEntry {skip : DPath → Bool → Bool} {t : FsTree} : ∀ {p f : DPath}, OkTree t →
    (f ∈ visitEntry skip p t ↔
      ∃ r, f = p ++ r ∧ t.at r = some .file ∧ hasCheckedExtension f = true ∧
        (∀ e, p <+: e → e ≠ p → e <+: f → e ≠ f → skip e true = false) ∧ (r ≠ [] → skip f false = false)) := by
  induction t using FsTree.ind with
  | hf =>
    intro p f _
    simp only [visitEntry]
    constructor
    · intro h
      split at h
      · rename_i hr
        simp only [List.mem_singleton] at h
        subst h
        refine ⟨[], by simp, rfl, hr, ?_, fun h => absurd rfl h⟩
        intro e h1 h2 h3 _
        exact absurd (h3.eq_of_length_le h1.length_le) h2
      · cases h
    · rintro ⟨r, rfl, h2, h3, -⟩
      cases r with
      | cons n r => simp [FsTree.at] at h2
      | nil =>
        rw [List.append_nil] at h3 ⊢
        rw [if_pos h3]
        exact List.mem_singleton.2 rfl
  | hd es ih =>
    intro p f hok
    cases hok with
    | dir hnd hne hok =>
      simp only [visitEntry, mem_visitEntries]
      constructor
      · rintro ⟨⟨n, t⟩, he, hs, hm⟩
        obtain ⟨r, hf, h2, h3, h4, h5⟩ := (ih _ he (hok _ he)).1 hm
        rw [List.append_assoc, List.singleton_append] at hf
        refine ⟨n :: r, hf, (FsTree.at_entry hnd).2 ⟨t, he, h2⟩, h3, ?_, ?_⟩
        · intro e h6 h7 h8 h9
          by_cases hen : e = p ++ [n]
          · subst hen
            have htd : t.isDir = true := by
              cases t with
              | dir _ => rfl
              | file =>
                cases r with
                | nil => exact absurd hf.symm h9
                | cons m r => simp [FsTree.at] at h2
            rw [htd] at hs
            exact hs
          · exact h4 e (prefix_between hf h6 h7 h8) hen h8 h9
        · intro _
          cases r with
          | cons m r => exact h5 (by simp)
          | nil =>
            simp only [FsTree.at, Option.some.injEq] at h2
            subst h2
            rw [hf]
            exact hs
      · rintro ⟨r, hf, h2, h3, h4, h5⟩
        cases r with
        | nil => simp [FsTree.at] at h2
        | cons n r =>
          obtain ⟨t, he, h2⟩ := (FsTree.at_entry hnd).1 h2
          have hpn : p ++ [n] <+: f := by rw [hf]; exact ⟨r, by simp⟩
          refine ⟨(n, t), he, ?_, (ih _ he (hok _ he)).2 ⟨r, by rw [hf]; simp, h2, h3, ?_, fun _ => h5 (by simp)⟩⟩
          · cases r with
            | nil =>
              simp only [FsTree.at, Option.some.injEq] at h2
              subst h2
              have := h5 (by simp)
              rw [hf] at this
              exact this
            | cons m r =>
              have htd : t.isDir = true := by
                cases t with
                | dir _ => rfl
                | file => simp [FsTree.at] at h2
              simp only [htd]
              refine h4 _ ⟨[n], rfl⟩ (by simp) hpn ?_
              rw [hf]
              intro h
              have := congrArg List.length h
              simp at this
          · intro e h6 h7 h8 h9
            refine h4 e ((List.prefix_append _ _).trans h6) ?_ h8 h9
            rintro rfl
            exact absurd h6 not_prefix_longer

/-! ## Entries that are left out -/

theorem seenFrom_iff {root : Option DPath} {p : DPath} {r : List Str} : SeenFrom root p r ↔ stripRoot root p = r := by
  cases root with
  | none =>
    simp only [stripRoot]
    constructor
    · intro h; cases h; rfl
    · rintro rfl; exact .noConfig
  | some d =>
    simp only [stripRoot]
    constructor
    · intro h
      cases h with
      | below => rw [if_pos (by rw [List.isPrefixOf_iff_prefix]; exact List.prefix_append _ _)]; simp
      | elsewhere h => rw [if_neg (by rw [List.isPrefixOf_iff_prefix]; exact h)]
    · intro h
      split at h
      · rename_i hp
        rw [List.isPrefixOf_iff_prefix] at hp
        obtain ⟨t, rfl⟩ := hp
        rw [List.drop_left] at h
        subst h
        exact .below
      · rename_i hp
        rw [List.isPrefixOf_iff_prefix] at hp
        subst h
        exact .elsewhere hp

theorem hidden_iff {p : DPath} : isHidden p = true ↔ DotName p := by
  unfold isHidden fileNameOf DotName
  simp only [decide_eq_true_eq]
  constructor
  · intro h
    cases hl : p.getLast? with
    | none => rw [hl] at h; cases h
    | some n =>
      rw [hl] at h
      simp only [Option.getD_some] at h
      obtain ⟨d, rfl⟩ := List.getLast?_eq_some_iff.1 hl
      cases n with
      | nil => cases h
      | cons c n =>
        simp only [List.head?_cons, Option.some.injEq] at h
        subst h
        exact ⟨d, n, rfl⟩
  · rintro ⟨d, n, rfl⟩
    simp

/-- The patterns of a configuration are covered by the model. -/
def OkSettings (s : ExcludeSettings) : Prop :=
  (∀ l, s.exclude = some l → ∀ p ∈ l, OkPattern p) ∧ (∀ l, s.include_ = some l → ∀ p ∈ l, OkInclude p)

theorem default_ok : ∀ p ∈ defaultExcludePatterns, OkPattern p := by
  unfold OkPattern
  decide

theorem walkPatterns_ok {first : Option (DPath × ExcludeSettings)} (h : ∀ x, first = some x → OkSettings x.2) {nd : Bool} :
    ∀ p ∈ walkPatterns first nd, OkPattern p := by
  intro p hp
  unfold walkPatterns at hp
  cases first with
  | none =>
    cases nd with
    | true => cases hp
    | false => exact default_ok p hp
  | some x =>
    obtain ⟨d, s⟩ := x
    simp only [List.mem_append] at hp
    rcases hp with hp | hp
    · cases he : s.exclude with
      | none => rw [he] at hp; cases hp
      | some l => rw [he] at hp; exact (h _ rfl).1 l he p hp
    · split at hp
      · exact default_ok p hp
      · cases hp

theorem stripRoot_last {root : Option DPath} {p : DPath} (h : ∀ n ∈ p, n ≠ []) (hp : p ≠ []) : (stripRoot root p).getLast? ≠ some [] := by
  obtain ⟨q, x, rfl⟩ : ∃ q x, p = q ++ [x] := ⟨p.dropLast, p.getLast hp, (List.dropLast_concat_getLast hp).symm⟩
  have hx : x ≠ [] := h x (by simp)
  have h1 : ([] :: (q ++ [x]) : List Str).getLast? ≠ some [] := by
    rw [List.getLast?_cons]
    simpa using hx
  cases root with
  | none => exact h1
  | some d =>
    simp only [stripRoot]
    split
    · intro h2
      have h3 := List.mem_of_getLast? h2
      exact h _ (List.mem_of_mem_drop h3) rfl
    · exact h1

theorem leftOut_iff {git : DPath → Bool → GitMatch} {first : Option (DPath × ExcludeSettings)} {nd : Bool} {p : DPath} {isDir : Bool}
    (hf : ∀ x, first = some x → OkSettings x.2) (hp : p ≠ []) (hn : ∀ n ∈ p, n ≠ []) :
    skipEntry git first nd p isDir = true ↔ LeftOut git (first.map Prod.fst) (walkPatterns first nd) p isDir := by
  unfold skipEntry LeftOut
  have he := C68_exclude (walkPatterns_ok hf (nd := nd)) (d := isDir) (stripRoot_last (root := first.map Prod.fst) hn hp)
  have h1 : (∃ r, SeenFrom (first.map Prod.fst) p r ∧ AnyHits (walkPatterns first nd) r isDir) ↔
      AnyHits (walkPatterns first nd) (stripRoot (first.map Prod.fst) p) isDir := by
    constructor
    · rintro ⟨r, hr, h⟩
      rw [seenFrom_iff] at hr
      subst hr
      exact h
    · intro h
      exact ⟨_, seenFrom_iff.2 rfl, h⟩
  rw [h1, ← he, ← hidden_iff]
  cases excludedBy (walkPatterns first nd) (stripRoot (first.map Prod.fst) p) isDir with
  | true => simp
  | false =>
    cases git p isDir <;> simp

/-! ## The configuration of the file itself -/

theorem resolvePath_some {items : List (DPath × ExcludeSettings)} {f : DPath} {x : DPath × ExcludeSettings}
    (hnd : (items.map Prod.fst).Nodup) : resolvePath items f = some x ↔ NearestItem items x f := by
  have hfind : ∀ {y : DPath × ExcludeSettings}, y ∈ items → items.find? (fun z => z.1 = y.1) = some y := by
    intro y hy
    clear x
    induction items with
    | nil => cases hy
    | cons z items ih =>
      rw [List.map_cons, List.nodup_cons] at hnd
      rw [List.find?_cons]
      rcases List.mem_cons.1 hy with rfl | h
      · simp
      · have : z.1 ≠ y.1 := fun hz => hnd.1 (hz ▸ List.mem_map_of_mem h)
        simp only [this, decide_false]
        exact ih hnd.2 h
  unfold resolvePath NearestItem
  induction f using snoc_ind with
  | h0 =>
    rw [ancestors_nil]
    simp only [List.findSome?_cons, List.findSome?_nil, List.prefix_nil]
    constructor
    · intro h
      cases hf : items.find? (fun z => z.1 = []) with
      | none => rw [hf] at h; cases h
      | some y =>
        rw [hf] at h
        cases h
        have h2 := List.find?_some hf
        simp only [decide_eq_true_eq] at h2
        refine ⟨List.mem_of_find?_eq_some hf, h2, ?_⟩
        intro y _ hy
        rw [hy]; exact Nat.zero_le _
    · rintro ⟨h1, h2, -⟩
      have := hfind h1
      rw [h2] at this
      rw [this]
  | h1 p n ih =>
    rw [ancestors_snoc, List.findSome?_cons]
    cases hf : items.find? (fun z => z.1 = p ++ [n]) with
    | some y =>
      have h2 := List.find?_some hf
      simp only [decide_eq_true_eq] at h2
      have h3 := List.mem_of_find?_eq_some hf
      simp only [Option.some.injEq]
      constructor
      · rintro rfl
        refine ⟨h3, h2 ▸ List.prefix_refl _, ?_⟩
        intro z _ hz
        rw [h2]
        exact hz.length_le
      · rintro ⟨h4, h5, h6⟩
        have h7 := h6 y h3 (h2 ▸ List.prefix_refl _)
        have h8 : x.1 = p ++ [n] := h5.eq_of_length_le (by rw [← h2]; exact h7)
        have := hfind h4
        rw [h8, hf] at this
        cases this
        rfl
    | none =>
      refine Iff.trans ih ?_
      have hno : ∀ y ∈ items, y.1 ≠ p ++ [n] := by
        intro y hy h
        rw [List.find?_eq_none] at hf
        exact absurd (decide_eq_true h) (hf y hy)
      have hpre : ∀ y ∈ items, (y.1 <+: p ++ [n] ↔ y.1 <+: p) := by
        intro y hy
        rw [prefix_snoc]
        simp [hno y hy]
      constructor
      · rintro ⟨h1, h2, h3⟩
        exact ⟨h1, (hpre x h1).2 h2, fun y hy h => h3 y hy ((hpre y hy).1 h)⟩
      · rintro ⟨h1, h2, h3⟩
        exact ⟨h1, (hpre x h1).1 h2, fun y hy h => h3 y hy ((hpre y hy).2 h)⟩

theorem wanted_iff {d : DPath} {s : ExcludeSettings} {r : List Str} (hs : OkSettings s) (hr : r.getLast? ≠ some []) :
    (if !(s.exclude.getD []).isEmpty && excludedBy (s.exclude.getD []) r false then false
      else if !(s.include_.getD []).isEmpty && !includedBy (s.include_.getD []) r then false else true) = true ↔
    Wanted d s (d ++ r) := by
  have hw : Wanted d s (d ++ r) ↔
      ¬ (AnyHits (s.exclude.getD []) r false) ∧ (s.include_.getD [] ≠ [] → ∃ p ∈ s.include_.getD [], IncludeHits p r) := by
    unfold Wanted
    constructor
    · intro h
      obtain ⟨h1, h2⟩ := h r rfl
      constructor
      · cases he : s.exclude with
        | none => rintro ⟨p, hp, -⟩; cases hp
        | some l => exact h1 l he
      · cases hi : s.include_ with
        | none => intro h; exact absurd rfl h
        | some l => exact h2 l hi
    · rintro ⟨h1, h2⟩ r' hr'
      have := List.append_cancel_left hr'
      subst this
      constructor
      · intro l hl; rw [hl] at h1; exact h1
      · intro l hl hne; rw [hl] at h2; exact h2 hne
  have he : excludedBy (s.exclude.getD []) r false = true ↔ AnyHits (s.exclude.getD []) r false := by
    apply C68_exclude _ hr
    cases he : s.exclude with
    | none => intro p hp; cases hp
    | some l => exact hs.1 l he
  have hi : includedBy (s.include_.getD []) r = true ↔ ∃ p ∈ s.include_.getD [], IncludeHits p r := by
    apply C68_include _ hr
    cases he : s.include_ with
    | none => intro p hp; cases hp
    | some l => exact hs.2 l he
  rw [hw, ← he, ← hi]
  generalize s.exclude.getD [] = ex
  generalize s.include_.getD [] = inc
  cases hb : excludedBy ex r false with
  | true =>
    have : ex.isEmpty = false := by
      cases ex with
      | nil => simp [excludedBy] at hb
      | cons _ _ => rfl
    simp [this]
  | false =>
    cases includedBy inc r <;> cases inc <;> simp

/-- **C68**. A file is checked exactly when it exists, is reached from the arguments, and the configuration closest to it wants it. -/
theorem C68_checked {tree : FsTree} {git : DPath → Bool → GitMatch} {items : List (DPath × ExcludeSettings)}
    {first : Option (DPath × ExcludeSettings)} {nd : Bool} {args : List DPath} {f : DPath}
    (htree : OkTree tree) (hnd : (items.map Prod.fst).Nodup) (hdir : ∀ x ∈ items, IsDirectory tree x.1)
    (hitems : ∀ x ∈ items, OkSettings x.2) (hfirst : ∀ x, first = some x → x ∈ items) :
    f ∈ checkedFiles tree git items first nd args ↔
      IsFile tree f ∧ Reached tree git (first.map Prod.fst) (walkPatterns first nd) args f ∧
        ∀ x, NearestItem items x f → Wanted x.1 x.2 f := by
  have hf : ∀ x, first = some x → OkSettings x.2 := fun x hx => hitems x (hfirst x hx)
  have hkeep : IsFile tree f → (keepFile items f = true ↔ ∀ x, NearestItem items x f → Wanted x.1 x.2 f) := by
    intro hfile
    obtain ⟨-, hnames, -⟩ := at_ok htree hfile
    unfold keepFile
    cases hr : resolvePath items f with
    | none =>
      simp only [true_iff]
      intro x hx
      rw [← resolvePath_some hnd, hr] at hx
      cases hx
    | some x =>
      obtain ⟨d, s⟩ := x
      have hx := (resolvePath_some hnd).1 hr
      obtain ⟨r, rfl⟩ := hx.2.1
      have hlast : r.getLast? ≠ some [] := by
        intro h
        exact hnames [] (List.mem_append_right _ (List.mem_of_getLast? h)) rfl
      have hd : (d ++ r).drop d.length = r := by simp
      simp only [hd]
      rw [wanted_iff (d := d) (hitems _ hx.1) hlast]
      constructor
      · intro h y hy
        rw [← resolvePath_some hnd, hr] at hy
        cases hy
        exact h
      · intro h
        exact h _ hx
  have hskip : ∀ (a e : DPath) {b : Bool}, IsFile tree f → e <+: f → a <+: e → e ≠ a →
      (skipEntry git first nd e b = false ↔ ¬ LeftOut git (first.map Prod.fst) (walkPatterns first nd) e b) := by
    intro a e b hfile h1 h2 h3
    obtain ⟨-, hnames, -⟩ := at_ok htree hfile
    have hne : e ≠ [] := by
      rintro rfl
      exact h3 (List.prefix_nil.1 h2).symm
    rw [← leftOut_iff hf hne (fun n hn => hnames n (h1.subset hn)), Bool.not_eq_true]
  have hwalk : (∃ a ∈ args, some f ∈ visitArg (skipEntry git first nd) tree a) ↔
      IsFile tree f ∧ Reached tree git (first.map Prod.fst) (walkPatterns first nd) args f := by
    constructor
    · rintro ⟨a, ha, hm⟩
      unfold visitArg at hm
      cases hat : tree.at a with
      | none => rw [hat] at hm; simp at hm
      | some t =>
        rw [hat] at hm
        cases t with
        | file =>
          simp only [List.mem_singleton, Option.some.injEq] at hm
          subst hm
          exact ⟨hat, .inl ha⟩
        | dir es =>
          simp only [List.mem_map, Option.some.injEq, exists_eq_right] at hm
          have hok := (at_ok htree hat).1
          have hm' : f ∈ visitEntry (skipEntry git first nd) a (.dir es) := by rw [visitEntry]; exact hm
          obtain ⟨r, rfl, h2, h3, h4, h5⟩ := (mem_visitEntry hok).1 hm'
          have hfile : IsFile tree (a ++ r) := by
            unfold IsFile
            rw [FsTree.at_append, hat]
            exact h2
          have hr : r ≠ [] := by
            rintro rfl
            simp [FsTree.at] at h2
          have har : a ≠ a ++ r := by simpa using hr
          refine ⟨hfile, .inr ⟨(checkedName_iff (at_ok htree hfile).2.2).1 h3, a, ha, List.prefix_append _ _, har, ?_, ?_⟩⟩
          · intro e h6 h7 h8 h9
            exact (hskip a e hfile h8 h6 h7).1 (h4 e h6 h7 h8 h9)
          · exact (hskip a _ hfile (List.prefix_refl _) (List.prefix_append _ _) (Ne.symm har)).1 (h5 hr)
    · rintro ⟨hfile, h | ⟨h3, a, ha, h6, h7, h8, h9⟩⟩
      · refine ⟨f, h, ?_⟩
        unfold visitArg
        rw [hfile]
        exact List.mem_singleton.2 rfl
      · refine ⟨a, ha, ?_⟩
        obtain ⟨r, rfl⟩ := h6
        have hr : r ≠ [] := by
          rintro rfl
          simp at h7
        have hfile' := hfile
        unfold IsFile at hfile'
        rw [FsTree.at_append] at hfile'
        cases hat : tree.at a with
        | none => rw [hat] at hfile'; cases hfile'
        | some t =>
          rw [hat] at hfile'
          have hat2 : t.at r = some .file := hfile'
          unfold visitArg
          rw [hat]
          cases t with
          | file =>
            cases r with
            | nil => exact absurd rfl hr
            | cons n r => simp [FsTree.at] at hat2
          | dir es =>
            simp only [List.mem_map, Option.some.injEq, exists_eq_right]
            have hok := (at_ok htree hat).1
            have hm : a ++ r ∈ visitEntry (skipEntry git first nd) a (.dir es) := by
              refine (mem_visitEntry hok).2 ⟨r, rfl, hat2, (checkedName_iff (at_ok htree hfile).2.2).2 h3, ?_, ?_⟩
              · intro e h10 h11 h12 h13
                exact (hskip a e hfile h12 h10 h11).2 (h8 e h10 h11 h12 h13)
              · intro _
                exact (hskip a _ hfile (List.prefix_refl _) (List.prefix_append _ _) (Ne.symm h7)).2 h9
            rw [visitEntry] at hm
            exact hm
  unfold checkedFiles discoverRFiles
  simp only [List.mem_filterMap, id, exists_eq_right, List.mem_filter, List.mem_flatMap]
  constructor
  · rintro ⟨h1, h2⟩
    obtain ⟨h3, h4⟩ := hwalk.1 h1
    exact ⟨h3, h4, (hkeep h3).1 h2⟩
  · rintro ⟨h1, h2, h3⟩
    exact ⟨hwalk.2 ⟨h1, h2⟩, (hkeep h1).2 h3⟩

end Jarl
