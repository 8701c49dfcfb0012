import Verif.Spec.Walk
import Verif.Props.LspExclude
/-!
# C68, patterns: the translation of a pattern means what `.gitignore` patterns mean
-/
namespace Jarl
open Spec

theorem mem_tailsOf {α} {x l : List α} : x ∈ tailsOf l ↔ ∃ g, l = g ++ x := by
  induction l with
  | nil =>
    simp only [tailsOf, List.mem_singleton]
    constructor
    · rintro rfl; exact ⟨[], rfl⟩
    · rintro ⟨g, h⟩; exact (List.append_eq_nil_iff.1 h.symm).2
  | cons a l ih =>
    simp only [tailsOf, List.mem_cons, ih]
    constructor
    · rintro (rfl | ⟨g, rfl⟩)
      · exact ⟨[], rfl⟩
      · exact ⟨a :: g, rfl⟩
    · rintro ⟨g, h⟩
      cases g with
      | nil => left; exact h.symm
      | cons b g =>
        simp only [List.cons_append, List.cons.injEq] at h
        right; exact ⟨g, h.2⟩

theorem segMatch_iff {p s : Str} : segMatch p s = true ↔ Wild p s := by
  induction p generalizing s with
  | nil =>
    simp only [segMatch, List.isEmpty_iff]
    constructor
    · rintro rfl; exact .nil
    · intro h; cases h; rfl
  | cons c p ih =>
    rw [show segMatch (c :: p) s = (if c = '*' then (tailsOf s).any (segMatch p) else match s with | [] => false | d :: s' => (c = '?' || c = d) && segMatch p s') from by cases s <;> rfl]
    split
    · rename_i hc
      subst hc
      simp only [List.any_eq_true, mem_tailsOf, ih]
      constructor
      · rintro ⟨x, ⟨g, rfl⟩, hw⟩
        exact .star g hw
      · intro h
        cases h with
        | star g hw => exact ⟨_, ⟨g, rfl⟩, hw⟩
        | lit h1 _ _ => exact absurd rfl h1
    · rename_i hc
      cases s with
      | nil =>
        refine ⟨fun h => (nomatch h), fun h => ?_⟩
        generalize ht : ([] : Str) = t at h
        cases h with
        | star g hw => exact absurd rfl hc
        | one _ _ => cases ht
        | lit _ _ _ => cases ht
      | cons d s =>
        simp only [Bool.and_eq_true, Bool.or_eq_true, decide_eq_true_eq, ih]
        constructor
        · rintro ⟨rfl | rfl, hw⟩
          · exact .one d hw
          · by_cases hq : c = '?'
            · subst hq; exact .one _ hw
            · exact .lit hc hq hw
        · intro h
          generalize ht : (d :: s : Str) = t at h
          cases h with
          | star g hw => exact absurd rfl hc
          | one _ hw => cases ht; exact ⟨.inl rfl, hw⟩
          | lit _ _ hw => cases ht; exact ⟨.inr rfl, hw⟩

theorem pathMatch_iff {gs r : List Str} : pathMatch gs r = true ↔ Along gs r := by
  induction gs generalizing r with
  | nil =>
    simp only [pathMatch, List.isEmpty_iff]
    constructor
    · rintro rfl; exact .nil
    · intro h; cases h; rfl
  | cons g gs ih =>
    rw [show pathMatch (g :: gs) r = (if g = cs! "**" then (tailsOf r).any (pathMatch gs) else match r with | [] => false | x :: r' => segMatch g x && pathMatch gs r') from by cases r <;> rfl]
    split
    · rename_i hc
      subst hc
      simp only [List.any_eq_true, mem_tailsOf, ih]
      constructor
      · rintro ⟨x, ⟨q, rfl⟩, hw⟩
        exact .any q hw
      · intro h
        generalize hg : cs! "**" = g at h
        cases h with
        | any q hw => exact ⟨_, ⟨q, rfl⟩, hw⟩
        | step h1 _ _ => exact absurd hg.symm h1
    · rename_i hc
      cases r with
      | nil =>
        refine ⟨fun h => (nomatch h), fun h => ?_⟩
        generalize ht : ([] : List Str) = t at h
        cases h with
        | any q hw => exact absurd rfl hc
        | step _ _ _ => cases ht
      | cons d s =>
        simp only [Bool.and_eq_true, ih, segMatch_iff]
        constructor
        · rintro ⟨hw, hs⟩
          exact .step hc hw hs
        · intro h
          generalize ht : (d :: s : List Str) = t at h
          cases h with
          | any q hw => exact absurd rfl hc
          | step _ hw hs => cases ht; exact ⟨hw, hs⟩

theorem splitOn_at (c : Char) (s t : Str) : splitOn c (s ++ c :: t) = splitOn c s ++ splitOn c t := by
  induction s with
  | nil => simp [splitOn]
  | cons d s ih =>
    simp only [List.cons_append, splitOn, ih]
    split
    · rfl
    · cases h : splitOn c s with
      | nil => exact absurd h (splitOn_ne_nil c s)
      | cons p ps => rfl

theorem wild_star_all (x : Str) : Wild ['*'] x := by
  have := Wild.star x Wild.nil
  rwa [List.append_nil] at this

theorem wild_two_stars (x : Str) : Wild (cs! "**") x := by
  have := Wild.star (p := cs! "*") x (wild_star_all [])
  rwa [List.append_nil] at this

theorem along_nil_left {r : List Str} : Along [] r ↔ r = [] :=
  ⟨fun h => by cases h; rfl, fun h => by subst h; exact .nil⟩

theorem along_any {gs r : List Str} : Along (cs! "**" :: gs) r ↔ ∃ q r', r = q ++ r' ∧ Along gs r' := by
  constructor
  · intro h
    generalize hg : cs! "**" = g at h
    cases h with
    | any q hw => exact ⟨q, _, rfl, hw⟩
    | step h1 _ _ => exact absurd hg.symm h1
  · rintro ⟨q, r', rfl, h⟩
    exact .any q h

theorem along_step {g gs r} (hg : g ≠ cs! "**") : Along (g :: gs) r ↔ ∃ x r', r = x :: r' ∧ Wild g x ∧ Along gs r' := by
  constructor
  · intro h
    cases h with
    | any q hw => exact absurd rfl hg
    | step _ hw hs => exact ⟨_, _, rfl, hw, hs⟩
  · rintro ⟨x, r', rfl, h1, h2⟩
    exact .step hg h1 h2

theorem along_append {gs hs r : List Str} : Along (gs ++ hs) r ↔ ∃ a b, r = a ++ b ∧ Along gs a ∧ Along hs b := by
  induction gs generalizing r with
  | nil =>
    constructor
    · intro h; exact ⟨[], r, rfl, .nil, h⟩
    · rintro ⟨a, b, rfl, h1, h2⟩
      rw [along_nil_left] at h1; subst h1; exact h2
  | cons g gs ih =>
    by_cases hg : g = cs! "**"
    · subst hg
      rw [List.cons_append, along_any]
      constructor
      · rintro ⟨q, r', rfl, h⟩
        obtain ⟨a, b, rfl, h1, h2⟩ := ih.1 h
        exact ⟨q ++ a, b, by simp, .any q h1, h2⟩
      · rintro ⟨a, b, rfl, h1, h2⟩
        obtain ⟨q, r', rfl, h3⟩ := along_any.1 h1
        exact ⟨q, r' ++ b, by simp, ih.2 ⟨r', b, rfl, h3, h2⟩⟩
    · rw [List.cons_append, along_step hg]
      constructor
      · rintro ⟨x, r', rfl, hw, h⟩
        obtain ⟨a, b, rfl, h1, h2⟩ := ih.1 h
        exact ⟨x :: a, b, rfl, .step hg hw h1, h2⟩
      · rintro ⟨a, b, rfl, h1, h2⟩
        obtain ⟨x, r', rfl, hw, h3⟩ := (along_step hg).1 h1
        exact ⟨x, r' ++ b, rfl, hw, ih.2 ⟨r', b, rfl, h3, h2⟩⟩

/-- Everything inside. -/
theorem along_inside {gs r : List Str} : Along (gs ++ [cs! "**", cs! "*"]) r ↔ ∃ a b, r = a ++ b ∧ Along gs a ∧ b ≠ [] := by
  rw [along_append]
  constructor
  · rintro ⟨a, b, rfl, h1, h2⟩
    refine ⟨a, b, rfl, h1, ?_⟩
    obtain ⟨q, r', rfl, h3⟩ := along_any.1 h2
    obtain ⟨x, r'', rfl, -, -⟩ := (along_step (by decide)).1 h3
    simp
  · rintro ⟨a, b, rfl, h1, h2⟩
    refine ⟨a, b, rfl, h1, ?_⟩
    obtain ⟨q, x, rfl⟩ : ∃ q x, b = q ++ [x] := ⟨b.dropLast, b.getLast h2, (List.dropLast_concat_getLast h2).symm⟩
    exact .any q (.step (by decide) (wild_star_all x) .nil)

theorem along_name {n : Str} {r : List Str} (hn : n ≠ cs! "**") : Along [cs! "**", n] r ↔ ∃ q x, r = q ++ [x] ∧ Wild n x := by
  rw [along_any]
  constructor
  · rintro ⟨q, r', rfl, h⟩
    obtain ⟨x, r'', rfl, hw, h2⟩ := (along_step hn).1 h
    rw [along_nil_left] at h2; subst h2
    exact ⟨q, x, rfl, hw⟩
  · rintro ⟨q, x, rfl, hw⟩
    exact ⟨q, [x], rfl, .step hn hw .nil⟩

/-- A last component is matched by the last part of the pattern. -/
theorem along_last_empty {gs r : List Str} (h : Along (gs ++ [[]]) r) : r.getLast? = some [] := by
  obtain ⟨a, b, he, -, hb⟩ := along_append.1 h
  obtain ⟨y, r, rfl, hw, hr⟩ := (along_step (by decide)).1 hb
  rw [along_nil_left] at hr; subst hr
  cases hw
  rw [he]
  simp

/-- The parts of a pattern that does not end in a slash (`absolute`: a slash in front was removed). -/
def segsOf (absolute : Bool) (line : Str) : List Str :=
  let actual := if !absolute && !line.contains '/' && line ≠ cs! "**" then cs! "**/" ++ line else line
  splitOn '/' (if endsWith (cs! "/**") actual then actual ++ cs! "/*" else actual)

theorem endsWith_iff_suffix {a s : Str} : endsWith a s = true ↔ a <:+ s := by
  rw [endsWith_iff]
  exact ⟨fun ⟨r, h⟩ => ⟨r, h.symm⟩, fun ⟨r, h⟩ => ⟨r, h.symm⟩⟩

theorem splitOn_inside (p : Str) : splitOn '/' (p ++ cs! "/**" ++ cs! "/*") = splitOn '/' p ++ [cs! "**", cs! "*"] := by
  have h : p ++ cs! "/**" ++ cs! "/*" = p ++ '/' :: (cs! "**/*") := by simp
  rw [h, splitOn_at]
  rfl

theorem segs_slash {b : Bool} {l : Str} {r : List Str} (h : b = true ∨ '/' ∈ l) :
    Along (segsOf b l) r ↔ (¬ cs! "/**" <:+ l ∧ Along (splitOn '/' l) r) ∨
      ∃ p a q, l = p ++ cs! "/**" ∧ r = a ++ q ∧ q ≠ [] ∧ Along (splitOn '/' p) a := by
  have ha : (if !b && !l.contains '/' && l ≠ cs! "**" then cs! "**/" ++ l else l) = l := by
    rw [if_neg]
    rcases h with rfl | h
    · simp
    · simp [h]
  unfold segsOf
  simp only [ha]
  by_cases hs : cs! "/**" <:+ l
  · rw [if_pos (endsWith_iff_suffix.2 hs)]
    obtain ⟨p, rfl⟩ := hs
    rw [splitOn_inside, along_inside]
    constructor
    · rintro ⟨a, q, rfl, h1, h2⟩
      exact .inr ⟨p, a, q, rfl, rfl, h2, h1⟩
    · rintro (⟨h1, -⟩ | ⟨p', a, q, hp, rfl, h2, h1⟩)
      · exact absurd ⟨p, rfl⟩ h1
      · rw [List.append_cancel_right hp]
        exact ⟨a, q, rfl, h1, h2⟩
  · rw [if_neg (by rw [endsWith_iff_suffix]; exact hs)]
    constructor
    · intro h1; exact .inl ⟨hs, h1⟩
    · rintro (⟨-, h1⟩ | ⟨p', a, q, rfl, -⟩)
      · exact h1
      · exact absurd ⟨p', rfl⟩ hs

theorem segs_name {l : Str} {r : List Str} (h : '/' ∉ l) :
    Along (segsOf false l) r ↔ l = cs! "**" ∨ ∃ q x, r = q ++ [x] ∧ Wild l x := by
  by_cases hl : l = cs! "**"
  · subst hl
    have : segsOf false (cs! "**") = [cs! "**"] := by decide
    rw [this, along_any]
    constructor
    · intro _; exact .inl rfl
    · intro _
      exact ⟨r, [], by simp, .nil⟩
  · have ha : (if !false && !l.contains '/' && l ≠ cs! "**" then cs! "**/" ++ l else l) = cs! "**/" ++ l := by
      rw [if_pos]
      simp [h, hl]
    unfold segsOf
    simp only [ha]
    have hns : ¬ cs! "/**" <:+ cs! "**/" ++ l := by
      rintro ⟨t, ht⟩
      have : ∃ m, l = m ++ cs! "/**" ∨ l = cs! "**" := by
        match t, ht with
        | [], ht => simp at ht
        | [a], ht => simp at ht
        | [a, b], ht => exact ⟨[], .inr (by simp at ht; exact ht.2.2.symm)⟩
        | a :: b :: c :: t, ht =>
          refine ⟨t, .inl ?_⟩
          simp only [List.cons_append, List.cons.injEq, List.nil_append] at ht
          exact ht.2.2.2.symm
      obtain ⟨m, rfl | h2⟩ := this
      · exact h (by simp)
      · exact hl h2
    rw [if_neg (by rw [endsWith_iff_suffix]; exact hns)]
    have : splitOn '/' (cs! "**/" ++ l) = [cs! "**", l] := by
      have : cs! "**/" ++ l = cs! "**" ++ '/' :: l := by simp
      rw [this, splitOn_at, splitOn_no h]
      rfl
    rw [this, along_name hl]
    simp only [hl, false_or]

/-- A pattern that does not end in a slash. -/
theorem hits_plain {l : Str} {r : List Str} {d : Bool} (hl : ¬ ['/'] <:+ l) (hne : l ≠ []) :
    Along (if l.head? = some '/' then segsOf true (l.drop 1) else segsOf false l) r ↔ Hits l r d := by
  have hlast : ∀ {p : Str}, ['/'] <:+ p → ['/'] <:+ '/' :: p := fun ⟨t, ht⟩ => ⟨'/' :: t, by rw [← ht]; rfl⟩
  constructor
  · intro h
    split at h
    · rename_i hh
      obtain ⟨p, rfl⟩ : ∃ p, l = '/' :: p := by
        cases l with
        | nil => cases hh
        | cons c l => simp at hh; subst hh; exact ⟨l, rfl⟩
      rw [List.drop_succ_cons, List.drop_zero, segs_slash (.inl rfl)] at h
      rcases h with ⟨h1, h2⟩ | ⟨p', a, q, rfl, rfl, hq, h2⟩
      · exact .rooted (fun h => hl (hlast h)) h1 h2
      · exact .rootedInside h2 hq
    · rename_i hh
      by_cases hs : '/' ∈ l
      · rw [segs_slash (.inr hs)] at h
        rcases h with ⟨h1, h2⟩ | ⟨p', a, q, rfl, rfl, hq, h2⟩
        · exact .path hs hh hl h1 h2
        · refine .inside ?_ ?_ h2 hq
          · rintro rfl; exact hh rfl
          · intro h3
            cases p' with
            | nil => cases h3
            | cons c p' => exact hh h3
      · rw [segs_name hs] at h
        rcases h with rfl | ⟨q, x, rfl, hw⟩
        · exact .everything
        · exact .name hs hw
  · intro h
    cases h with
    | everything =>
      rw [if_neg (by decide), segs_name (by decide)]
      exact .inl rfl
    | name hs hw =>
      rw [if_neg, segs_name hs]
      · exact .inr ⟨_, _, rfl, hw⟩
      · intro h
        cases l with
        | nil => cases h
        | cons c l => simp at h; subst h; exact hs (by simp)
    | path h1 h2 h3 h4 h5 =>
      rw [if_neg h2, segs_slash (.inr h1)]
      exact .inl ⟨h4, h5⟩
    | rooted h1 h2 h3 =>
      rw [List.head?_cons, if_pos rfl, List.drop_succ_cons, List.drop_zero, segs_slash (.inl rfl)]
      exact .inl ⟨h2, h3⟩
    | @inside p a q _ h1 h2 h3 h4 =>
      rw [if_neg, segs_slash (.inr (by simp))]
      · exact .inr ⟨_, _, _, rfl, rfl, h4, h3⟩
      · cases p with
        | nil => exact absurd rfl h1
        | cons c p => exact h2
    | @rootedInside p a q _ h3 h4 =>
      rw [List.head?_cons, if_pos rfl, List.drop_succ_cons, List.drop_zero, segs_slash (.inl rfl)]
      exact .inr ⟨_, _, _, rfl, rfl, h4, h3⟩
    | @folder p _ _ _ _ => exact absurd ⟨p, rfl⟩ hl

/-- `addLine` in two cases. -/
theorem addLine_plain {b : Bool} {l : Str} (hl : ¬ ['/'] <:+ l) :
    addLine b l = ⟨if l.head? = some '/' then segsOf true (l.drop 1) else segsOf false l, false, b⟩ := by
  unfold addLine
  have h1 : endsWith ['/'] (if l.head? = some '/' then l.drop 1 else l) = false := by
    rw [Bool.eq_false_iff]
    intro h
    rw [endsWith_iff_suffix] at h
    split at h
    · exact hl (h.trans (List.drop_suffix _ _))
    · exact hl h
  by_cases hh : l.head? = some '/'
  · simp only [if_pos hh] at h1 ⊢
    simp only [h1, hh, decide_true]
    rfl
  · simp only [if_neg hh] at h1 ⊢
    simp only [h1, hh, decide_false]
    rfl

theorem addLine_slash {b : Bool} {p : Str} (hp : p ≠ []) :
    addLine b (p ++ ['/']) = ⟨if p.head? = some '/' then segsOf true (p.drop 1) else segsOf false p, true, b⟩ := by
  unfold addLine
  cases p with
  | nil => exact absurd rfl hp
  | cons c p =>
    have he : ∀ q : Str, endsWith ['/'] (q ++ ['/']) = true := fun q => endsWith_iff_suffix.2 ⟨q, rfl⟩
    by_cases hh : c = '/'
    · subst hh
      simp only [List.cons_append, List.head?_cons, decide_true, ite_true, List.drop_succ_cons, List.drop_zero, he, List.dropLast_concat]
      rfl
    · have h1 : (some c = some '/') = False := by simp [hh]
      have h2 := he (c :: p)
      have h3 : (c :: (p ++ ['/'])).dropLast = c :: p := by
        rw [← List.cons_append, List.dropLast_concat]
      rw [List.cons_append] at h2
      simp only [List.cons_append, List.head?_cons, h1, decide_false, h2, h3, ite_true, Bool.false_eq_true, ite_false]
      rfl

/-- **C68** (patterns). The translation of a pattern by the walker means what the specification says: a pattern without slash is a name in any
directory, one with a slash is a path from the directory of the configuration, `**` any directories, a slash at the end only
directories. -/
theorem C68_pattern {b : Bool} {l : Str} {r : List Str} {d : Bool} (hne : l ≠ []) (hx : r.getLast? ≠ some []) :
    (addLine b l).hits r d = true ↔ Hits l r d := by
  by_cases hl : ['/'] <:+ l
  · obtain ⟨p, rfl⟩ := hl
    by_cases hp : p = []
    · subst hp
      have h1 : addLine b ([] ++ ['/']) = ⟨[[]], false, b⟩ := by
        have h0 : addLine b ([] ++ ['/']) = ⟨(addLine false ['/']).segs, (addLine false ['/']).onlyDir, b⟩ := rfl
        rw [h0]
        have h2 : (addLine false ['/']).segs = [[]] := by decide
        have h3 : (addLine false ['/']).onlyDir = false := by decide
        rw [h2, h3]
      rw [h1]
      simp only [WalkGlob.hits, Bool.not_false, Bool.true_or, Bool.true_and, pathMatch_iff]
      constructor
      · intro h
        exact absurd (along_last_empty (gs := []) h) hx
      · intro h
        exfalso
        generalize hl : ([] ++ ['/'] : Str) = l at h
        generalize hr : r = r' at h
        cases h with
        | everything => cases hl
        | name h1 _ => subst hl; exact h1 (by simp)
        | path _ h1 _ _ _ => subst hl; exact h1 rfl
        | rooted _ _ h3 =>
          cases hl; subst hr
          exact hx (along_last_empty (gs := []) h3)
        | @inside p a q' _ h1 h2 _ _ =>
          have := congrArg List.length hl
          simp at this
        | @rootedInside p a q' _ _ _ =>
          have := congrArg List.length hl
          simp at this
        | @folder p _ h1 _ _ =>
          have := List.append_inj_left' hl rfl
          exact h1 this.symm
    · rw [addLine_slash hp]
      by_cases hps : ['/'] <:+ p
      · -- two slashes at the end match nothing
        constructor
        · intro h
          exfalso
          simp only [WalkGlob.hits, Bool.and_eq_true, pathMatch_iff] at h
          have h2 := h.2
          obtain ⟨p', rfl⟩ := hps
          have key : ∀ (b : Bool) (m : Str), (b = true ∨ '/' ∈ m ++ ['/']) → Along (segsOf b (m ++ ['/'])) r → False := by
            intro b m hm h3
            rw [segs_slash hm] at h3
            rcases h3 with ⟨-, h3⟩ | ⟨p'', a, q', h4, -⟩
            · rw [splitOn_at] at h3
              exact hx (along_last_empty h3)
            · have := congrArg List.getLast? h4
              simp at this
          cases p' with
          | nil =>
            simp only [List.nil_append, List.head?_cons, ite_true, List.drop_succ_cons, List.drop_zero] at h2
            rw [segs_slash (.inl rfl)] at h2
            rcases h2 with ⟨-, h3⟩ | ⟨p'', a, q', h4, -⟩
            · exact hx (along_last_empty (gs := []) h3)
            · have := congrArg List.length h4
              simp at this
          | cons c p' =>
            simp only [List.cons_append, List.head?_cons, List.drop_succ_cons, List.drop_zero] at h2
            split at h2
            · exact key _ _ (.inl rfl) h2
            · exact key false (c :: p') (.inr (by simp)) h2
        · intro h
          exfalso
          generalize hl : (p ++ ['/'] : Str) = l at h
          generalize hr : r = r' at h
          cases h with
          | everything => have := congrArg List.getLast? hl; simp at this
          | name h1 _ => subst hl; exact h1 (by simp)
          | path _ _ h1 _ _ => exact h1 ⟨p, hl⟩
          | @rooted p' _ _ h1 _ h3 =>
            cases p with
            | nil => exact hp rfl
            | cons c p =>
              simp only [List.cons_append, List.cons.injEq] at hl
              exact h1 ⟨p, hl.2⟩
          | inside _ _ _ _ =>
            have := congrArg List.getLast? hl
            simp at this
          | @rootedInside p a q' _ _ _ =>
            have := congrArg List.getLast? hl
            simp at this
            rw [List.getLast?_cons] at this
            simp at this
          | folder _ h1 _ =>
            have := List.append_cancel_right hl
            subst this
            exact h1 hps
      · have hpl := fun d => hits_plain (d := d) hps (r := r) hp
        simp only [WalkGlob.hits, Bool.not_true, Bool.false_or, Bool.and_eq_true, pathMatch_iff]
        constructor
        · rintro ⟨rfl, h⟩
          exact .folder hp hps ((hpl true).1 h)
        · intro h
          generalize hl : (p ++ ['/'] : Str) = l at h
          generalize hr : r = r' at h
          cases h with
          | everything => have := congrArg List.getLast? hl; simp at this
          | name h1 _ => subst hl; exact absurd (by simp) h1
          | path _ _ h1 _ _ => exact absurd ⟨p, hl⟩ h1
          | @rooted p' _ _ h1 _ h3 =>
            cases p with
            | nil => exact absurd rfl hp
            | cons c p =>
              simp only [List.cons_append, List.cons.injEq] at hl
              exact absurd ⟨p, hl.2⟩ h1
          | inside _ _ _ _ =>
            have := congrArg List.getLast? hl
            simp at this
          | @rootedInside p a q' _ _ _ =>
            have := congrArg List.getLast? hl
            simp at this
            rw [List.getLast?_cons] at this
            simp at this
          | folder _ h1 h2 =>
            have := List.append_cancel_right hl
            subst this
            subst hr
            exact ⟨rfl, (hpl true).2 h2⟩
  · rw [addLine_plain hl]
    simp only [WalkGlob.hits, Bool.not_false, Bool.true_or, Bool.true_and, pathMatch_iff]
    exact hits_plain hl hne

/-- **C68** (exclude). -/
theorem C68_exclude {ps : List Str} (hps : ∀ p ∈ ps, OkPattern p) {r : List Str} {d : Bool} (hx : r.getLast? ≠ some []) :
    excludedBy ps r d = true ↔ AnyHits ps r d := by
  unfold excludedBy AnyHits
  rw [List.any_eq_true]
  constructor
  · rintro ⟨p, hp, h⟩
    refine ⟨p, hp, ?_⟩
    rw [excludeGlob, (hps p hp).2] at h
    exact (C68_pattern (hps p hp).1 hx).1 h
  · rintro ⟨p, hp, h⟩
    refine ⟨p, hp, ?_⟩
    rw [excludeGlob, (hps p hp).2]
    exact (C68_pattern (hps p hp).1 hx).2 h

end Jarl
