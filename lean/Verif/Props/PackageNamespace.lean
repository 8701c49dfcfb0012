import Verif.Spec.Namespace
import Verif.Props.LspExclude
import Verif.Props.PackageSymbols
import Verif.Props.PackageDup
/-!
# What NAMESPACE exports
-/
namespace Jarl
open Spec

/-! ## Stripping -/

theorem head_dropWhile {α} {p : α → Bool} (l : List α) : ∀ c ∈ (l.dropWhile p).head?, p c = false := by
  induction l with
  | nil => simp
  | cons a l ih =>
    rw [List.dropWhile_cons]
    split
    · exact ih
    · simpa using ‹¬ p a = true›

theorem dropWhile_append_all {α} {p : α → Bool} {a t : List α} (ha : ∀ c ∈ a, p c = true) (ht : ∀ c ∈ t.head?, p c = false) :
    (a ++ t).dropWhile p = t := by
  induction a with
  | nil =>
    cases t with
    | nil => rfl
    | cons c cs => simp [ht c (by simp)]
  | cons x a ih => simp [ha x (by simp), ih (fun c hc => ha c (by simp [hc]))]

theorem dropWhile_all {α} {p : α → Bool} {a : List α} (ha : ∀ c ∈ a, p c = true) : a.dropWhile p = [] := by
  have := dropWhile_append_all (t := []) ha (by simp)
  simpa using this

/-- Stripping both ends. -/
theorem stripped_iff {p : Char → Bool} {P : Char → Prop} (hP : ∀ c, P c ↔ p c = true) {s t : Str} :
    Stripped P s t ↔ (((s.dropWhile p).reverse).dropWhile p).reverse = t := by
  constructor
  · rintro ⟨a, b, rfl, ha, hb, h1, h2⟩
    have ha' : ∀ c ∈ a, p c = true := fun c hc => (hP c).mp (ha c hc)
    have hb' : ∀ c ∈ b, p c = true := fun c hc => (hP c).mp (hb c hc)
    cases t with
    | nil =>
      rw [dropWhile_all (a := a ++ [] ++ b)]
      · rfl
      · intro c hc
        simp at hc
        rcases hc with hc | hc
        · exact ha' c hc
        · exact hb' c hc
    | cons x t =>
      have hx : p x = false := by
        have := h1 x (by simp)
        rw [hP] at this
        simpa using this
      rw [List.append_assoc, dropWhile_append_all ha' (by intro c hc; simp at hc; subst hc; exact hx), List.reverse_append,
        dropWhile_append_all (by intro c hc; exact hb' c (by simpa using hc)), List.reverse_reverse]
      intro c hc
      rw [List.head?_reverse] at hc
      have := h2 c hc
      rw [hP] at this
      simpa using this
  · rintro rfl
    obtain ⟨a, ha, hpa⟩ := dropWhile_rest (p := p) s
    obtain ⟨b, hb, hpb⟩ := dropWhile_rest (p := p) (s.dropWhile p).reverse
    refine ⟨a, b.reverse, ?_, fun c hc => (hP c).mpr (hpa c hc), fun c hc => (hP c).mpr (hpb c (by simpa using hc)), ?_, ?_⟩
    · have : s.dropWhile p = ((s.dropWhile p).reverse.dropWhile p).reverse ++ b.reverse := by
        rw [← List.reverse_append, ← hb, List.reverse_reverse]
      rw [List.append_assoc, ← this]
      exact ha
    · -- the head of the result is the head of `s.dropWhile p`
      intro c hc hPc
      have h3 : s.dropWhile p = ((s.dropWhile p).reverse.dropWhile p).reverse ++ b.reverse := by
        rw [← List.reverse_append, ← hb, List.reverse_reverse]
      have h4 : c ∈ (s.dropWhile p).head? := by
        rw [h3]
        cases hr : ((s.dropWhile p).reverse.dropWhile p).reverse with
        | nil => rw [hr] at hc; cases hc
        | cons y ys => rw [hr] at hc; simpa using hc
      have := head_dropWhile s c h4
      rw [(hP c).mp hPc] at this
      cases this
    · intro c hc hPc
      rw [List.getLast?_reverse] at hc
      have := head_dropWhile _ c hc
      rw [(hP c).mp hPc] at this
      cases this

theorem unquoted_iff {s t : Str} : Unquoted s t ↔ unquote s = t := by
  unfold Unquoted unquote
  constructor
  · rintro ⟨u, v, h1, h2, h3⟩
    rw [stripped_iff (p := isWs) (fun c => Iff.rfl)] at h1
    rw [stripped_iff (p := (· == '"')) (fun c => by simp)] at h2
    rw [stripped_iff (p := (· == '\'')) (fun c => by simp)] at h3
    have e1 : trim s = u := h1
    rw [e1]
    show trimMatches '\'' (trimMatches '"' u) = t
    rw [show trimMatches '"' u = v from h2]
    exact h3
  · intro h
    refine ⟨trim s, trimMatches '"' (trim s), ?_, ?_, ?_⟩
    · rw [stripped_iff (p := isWs) (fun c => Iff.rfl)]; rfl
    · rw [stripped_iff (p := (· == '"')) (fun c => by simp)]; rfl
    · rw [stripped_iff (p := (· == '\'')) (fun c => by simp)]; exact h

/-! ## Calls -/

theorem findSub_iff {n s a b : Str} : findSub n s = some (a, b) ↔
    s = a ++ n ++ b ∧ ∀ g r, s = g ++ n ++ r → a.length ≤ g.length := by
  constructor
  · intro h
    refine ⟨findSub_some h, ?_⟩
    intro g r hg
    obtain ⟨a', b', h1, t, h2⟩ := findSub_first hg
    rw [h] at h1
    cases h1
    have e1 := congrArg List.length (findSub_some h)
    have e2 := congrArg List.length hg
    rw [h2] at e1
    simp at e1 e2
    omega
  · rintro ⟨h1, h2⟩
    obtain ⟨a', b', h3, t, h4⟩ := findSub_first h1
    have h5 := findSub_some h3
    have h6 := h2 _ _ h5
    have e1 := congrArg List.length h1
    have e2 := congrArg List.length h5
    rw [h4] at e2
    simp at e1 e2
    have ht : t = [] := List.eq_nil_of_length_eq_zero (by omega)
    rw [h3]
    rw [ht] at h4
    simp at h4
    subst h4
    rw [h1] at h5
    have := List.append_cancel_right (List.append_cancel_right h5)
    rw [this]

theorem findSub_none {n s : Str} : findSub n s = none ↔ ∀ g r, s ≠ g ++ n ++ r := by
  constructor
  · intro h g r hg
    obtain ⟨a, b, h1, _⟩ := findSub_first hg
    rw [h] at h1
    cases h1
  · intro h
    cases hf : findSub n s with
    | none => rfl
    | some x => exact absurd (findSub_some (a := x.1) (b := x.2) hf) (h _ _)

theorem extractDirective_iff {line kw inner : Str} : extractDirective line kw = some inner ↔ NsCall line kw inner := by
  unfold extractDirective NsCall
  cases hf : findSub (kw ++ ['(']) line with
  | none =>
    simp only
    constructor
    · intro h; cases h
    · rintro ⟨b, a, h1, _⟩
      exact absurd h1 (findSub_none.mp hf _ _)
  | some x =>
    obtain ⟨before, rest⟩ := x
    obtain ⟨h1, h2⟩ := findSub_iff.mp hf
    simp only
    have huniq : ∀ b r, line = b ++ (kw ++ ['(']) ++ r → (∀ g r, line = g ++ (kw ++ ['(']) ++ r → b.length ≤ g.length) → b = before ∧ r = rest := by
      intro b r e1 e2
      have := findSub_iff.mpr ⟨e1, e2⟩
      rw [hf] at this
      simp at this
      exact ⟨this.1.symm, this.2.symm⟩
    have hcond : wordBefore before = true ↔ ¬ ∀ c ∈ before.getLast?, ¬ (c.isAlphanum = true ∨ c = '_') := by
      unfold wordBefore
      cases before.getLast? with
      | none => simp
      | some c => simp [Classical.or_iff_not_imp_left]
    by_cases hl : ∀ c ∈ before.getLast?, ¬ (c.isAlphanum = true ∨ c = '_')
    · rw [if_neg (fun h => hcond.mp h hl), Option.map_eq_some_iff]
      constructor
      · rintro ⟨⟨i, after⟩, h3, rfl⟩
        obtain ⟨h4, h5⟩ := splitLast_iff.mp h3
        exact ⟨before, after, by rw [h1, h4], h5, hl, h2⟩
      · rintro ⟨b, after, e1, e2, e3, e4⟩
        obtain ⟨_, hr⟩ := huniq _ _ e1 e4
        exact ⟨(inner, after), splitLast_iff.mpr ⟨hr.symm, e2⟩, rfl⟩
    · rw [if_pos (hcond.mpr hl)]
      constructor
      · intro h; cases h
      · rintro ⟨b, after, e1, e2, e3, e4⟩
        obtain ⟨rfl, _⟩ := huniq _ _ e1 e4
        exact absurd e3 hl

theorem ws_not_word {c : Char} (h : isWs c = true) : ¬ (c.isAlphanum = true ∨ c = '_') := by
  rintro (h1 | rfl)
  · have := isAlphanum_not_ws h
    rw [h1] at this
    cases this
  · revert h; decide

theorem nsCall_ws_cons {w : Char} {t kw inner : Str} (hw : isWs w = true) (hkw : ∃ k ks, kw = k :: ks ∧ isWs k = false) :
    NsCall (w :: t) kw inner ↔ NsCall t kw inner := by
  obtain ⟨k, ks, rfl, hk⟩ := hkw
  have hne : ∀ g r : Str, w :: t = g ++ (k :: ks ++ ['(']) ++ r → ∃ g', g = w :: g' ∧ t = g' ++ (k :: ks ++ ['(']) ++ r := by
    intro g r h
    cases g with
    | nil =>
      simp at h
      rw [h.1, hk] at hw
      cases hw
    | cons x g =>
      simp only [List.cons_append, List.cons.injEq] at h
      obtain ⟨rfl, h⟩ := h
      exact ⟨g, rfl, by simpa using h⟩
  constructor
  · rintro ⟨b, after, h1, h2, h3, h4⟩
    obtain ⟨b', rfl, h5⟩ := hne _ _ h1
    refine ⟨b', after, h5, h2, ?_, ?_⟩
    · intro c hc
      apply h3
      cases b' with
      | nil => cases hc
      | cons x xs => simpa using hc
    · intro g r hg
      have := h4 (w :: g) r (by rw [hg]; simp)
      simpa using this
  · rintro ⟨b, after, h1, h2, h3, h4⟩
    refine ⟨w :: b, after, by rw [h1]; simp, h2, ?_, ?_⟩
    · intro c hc
      cases b with
      | nil => simp at hc; subst hc; exact ws_not_word hw
      | cons x xs => apply h3; simpa using hc
    · intro g r hg
      obtain ⟨g', rfl, h5⟩ := hne _ _ hg
      have := h4 g' r h5
      simpa using this

theorem snoc_split {x : Char} {t a b : Str} (h : t ++ [x] = a ++ b) (hb : b ≠ []) : ∃ b', b = b' ++ [x] ∧ t = a ++ b' := by
  rcases List.eq_nil_or_concat b with rfl | ⟨b', y, rfl⟩
  · exact absurd rfl hb
  · rw [List.concat_eq_append, ← List.append_assoc] at h
    have := List.append_inj' h rfl
    refine ⟨b', ?_, this.1⟩
    rw [List.concat_eq_append, this.2]

theorem nsCall_ws_snoc {w : Char} {t kw inner : Str} (hw : isWs w = true) :
    NsCall (t ++ [w]) kw inner ↔ NsCall t kw inner := by
  constructor
  · rintro ⟨b, after, h1, h2, h3, h4⟩
    have e : t ++ [w] = (b ++ (kw ++ ['(']) ++ inner ++ [')']) ++ after := by rw [h1]; simp
    have hne : after ≠ [] := by
      rintro rfl
      have := List.append_inj' (e.trans (List.append_nil _)) rfl
      have h5 : w = ')' := by simpa using this.2
      rw [h5] at hw
      revert hw; decide
    obtain ⟨a', rfl, h5⟩ := snoc_split e hne
    refine ⟨b, a', by rw [h5]; simp, fun h => h2 (by simp [h]), h3, ?_⟩
    intro g r hg
    exact h4 g (r ++ [w]) (by rw [hg]; simp)
  · rintro ⟨b, after, h1, h2, h3, h4⟩
    refine ⟨b, after ++ [w], by rw [h1]; simp, ?_, h3, ?_⟩
    · simp only [List.mem_append, List.mem_singleton]
      rintro (h | h)
      · exact h2 h
      · rw [← h] at hw; revert hw; decide
    · intro g r hg
      have e : t ++ [w] = (g ++ (kw ++ ['('])) ++ r := by rw [hg]
      have hne : r ≠ [] := by
        rintro rfl
        have e' : t ++ [w] = (g ++ kw) ++ ['('] := by rw [e]; simp
        have := List.append_inj' e' rfl
        have h5 : w = '(' := by simpa using this.2
        rw [h5] at hw
        revert hw; decide
      obtain ⟨r', rfl, h5⟩ := snoc_split e hne
      exact h4 g r' (by rw [h5])

theorem nsCall_blank {w1 w2 t kw inner : Str} (h1 : ∀ c ∈ w1, isWs c = true) (h2 : ∀ c ∈ w2, isWs c = true)
    (hkw : ∃ k ks, kw = k :: ks ∧ isWs k = false) : NsCall (w1 ++ t ++ w2) kw inner ↔ NsCall t kw inner := by
  have hr : ∀ n, ∀ w2 t : Str, w2.length = n → (∀ c ∈ w2, isWs c = true) → (NsCall (t ++ w2) kw inner ↔ NsCall t kw inner) := by
    intro n
    induction n with
    | zero => intro w2 t hn _; rw [List.length_eq_zero_iff.mp hn, List.append_nil]
    | succ n ih =>
      intro w2 t hn hw
      rcases List.eq_nil_or_concat w2 with rfl | ⟨w, x, rfl⟩
      · cases hn
      · rw [List.concat_eq_append] at *
        rw [← List.append_assoc, nsCall_ws_snoc (hw x (by simp))]
        exact ih w t (by simpa using hn) (fun c hc => hw c (by simp [hc]))
  rw [hr _ w2 _ rfl h2]
  clear hr h2
  induction w1 with
  | nil => rfl
  | cons x w1 ih =>
    rw [List.cons_append, nsCall_ws_cons (h1 x (by simp)) hkw]
    exact ih (fun c hc => h1 c (by simp [hc]))

/-! ## Lines -/

theorem listItem_iff {inner item : Str} : ListItem inner item ↔ item ∈ splitOn ',' inner := by
  rw [mem_splitOn]
  unfold ListItem
  constructor
  · rintro ⟨a, b, h1, h2, h3, h4⟩
    refine ⟨h2, a, b, h1, ?_, ?_⟩
    · rcases h3 with rfl | h3
      · exact .inl rfl
      · right
        obtain ⟨ys, rfl⟩ := List.getLast?_eq_some_iff.mp h3
        exact ⟨ys, rfl⟩
    · rcases h4 with rfl | h4
      · exact .inl rfl
      · right
        cases b with
        | nil => cases h4
        | cons x xs => simp at h4; subst h4; exact ⟨xs, rfl⟩
  · rintro ⟨h2, a, b, h1, h3, h4⟩
    refine ⟨a, b, h1, h2, ?_, ?_⟩
    · rcases h3 with rfl | ⟨a', rfl⟩
      · exact .inl rfl
      · right; simp
    · rcases h4 with rfl | ⟨b', rfl⟩
      · exact .inl rfl
      · right; rfl

theorem mem_exportNames {inner name : Str} (hn : name ≠ []) :
    name ∈ exportNames inner ↔ ∃ item, ListItem inner item ∧ Unquoted item name := by
  unfold exportNames
  simp only [List.mem_filter, List.mem_map, ne_eq, decide_not, Bool.not_eq_true', decide_eq_false_iff_not, hn, not_false_eq_true, and_true]
  constructor
  · rintro ⟨i, h1, h2⟩; exact ⟨i, listItem_iff.mpr h1, unquoted_iff.mpr h2⟩
  · rintro ⟨i, h1, h2⟩; exact ⟨i, listItem_iff.mp h1, unquoted_iff.mp h2⟩

theorem afterColons_iff {s g : Str} : AfterColons s g ↔ afterColons s = g := by
  have hrev : ∀ y z : Str, s = y ++ [':', ':'] ++ z ↔ s.reverse = z.reverse ++ [':', ':'] ++ y.reverse := by
    intro y z
    constructor
    · rintro rfl; simp
    · intro h
      have := congrArg List.reverse h
      simpa using this
  unfold afterColons AfterColons
  cases hf : findSub [':', ':'] s.reverse with
  | none =>
    have h := findSub_none.mp hf
    have hno : ∀ y z, s ≠ y ++ [':', ':'] ++ z := fun y z e => h _ _ ((hrev y z).mp e)
    simp only
    constructor
    · rintro (⟨x, h1, _⟩ | ⟨h1, _⟩)
      · exact absurd h1 (hno _ _)
      · exact h1
    · intro h1; exact .inr ⟨h1, hno⟩
  | some p =>
    obtain ⟨a, b⟩ := p
    obtain ⟨h1, h2⟩ := findSub_iff.mp hf
    have hs : s = b.reverse ++ [':', ':'] ++ a.reverse := (hrev _ _).mpr (by simpa using h1)
    simp only
    constructor
    · rintro (⟨x, h3, h4⟩ | ⟨_, h3⟩)
      · have := findSub_iff.mpr ⟨(hrev x g).mp h3, fun g' r hg => by
          have := h4 r.reverse g'.reverse ((hrev _ _).mpr (by simpa using hg))
          simpa using this⟩
        rw [hf] at this
        simp at this
        rw [this.1]; simp
      · exact absurd hs (h3 _ _)
    · rintro rfl
      left
      refine ⟨b.reverse, hs, ?_⟩
      intro y z h3
      have := h2 _ _ ((hrev y z).mp h3)
      simpa using this

theorem splitOn_cases (c : Char) (s : Str) : (c ∉ s ∧ splitOn c s = [s]) ∨ ∃ a b, s = a ++ c :: b ∧ c ∉ a ∧ splitOn c s = a :: splitOn c b := by
  cases h : splitFirst c s with
  | none => left; have h1 := splitFirst_none.mp h; exact ⟨h1, splitOn_no h1⟩
  | some x =>
    right
    obtain ⟨h1, h2⟩ := splitFirst_iff.mp h
    exact ⟨x.1, x.2, h1, h2, by rw [h1]; exact splitOn_append h2 _⟩

theorem mem_s3Names {inner name : Str} (hn : name ≠ []) : name ∈ s3Names inner ↔
    (∃ g c gq cq gen, ',' ∉ g ∧ ',' ∉ c ∧ inner = g ++ ',' :: c ∧ Unquoted g gq ∧ Unquoted c cq ∧ AfterColons gq gen ∧ name = gen ++ '.' :: cq) ∨
    (∃ g c f rest, ',' ∉ g ∧ ',' ∉ c ∧ ',' ∉ f ∧ (rest = [] ∨ rest.head? = some ',') ∧ inner = g ++ ',' :: (c ++ ',' :: (f ++ rest)) ∧ Unquoted f name) := by
  unfold s3Names
  have two : ∀ g c : Str, ',' ∉ g → ',' ∉ c → splitOn ',' (g ++ ',' :: c) = [g, c] := by
    intro g c hg hc
    rw [splitOn_append hg, splitOn_no hc]
  have three : ∀ g c f rest : Str, ',' ∉ g → ',' ∉ c → ',' ∉ f → (rest = [] ∨ rest.head? = some ',') →
      ∃ l, splitOn ',' (g ++ ',' :: (c ++ ',' :: (f ++ rest))) = g :: c :: f :: l := by
    intro g c f rest hg hc hf hrest
    rw [splitOn_append hg, splitOn_append hc]
    rcases hrest with rfl | hrest
    · rw [List.append_nil, splitOn_no hf]; exact ⟨[], rfl⟩
    · cases rest with
      | nil => cases hrest
      | cons x xs => simp at hrest; subst hrest; rw [splitOn_append hf]; exact ⟨_, rfl⟩
  constructor
  · intro h
    rcases splitOn_cases ',' inner with ⟨_, h1⟩ | ⟨g, r, rfl, hg, h1⟩
    · rw [h1] at h; cases h
    · rw [h1] at h
      rcases splitOn_cases ',' r with ⟨hc, h2⟩ | ⟨c, r', rfl, hc, h2⟩
      · rw [h2] at h
        simp at h
        left
        exact ⟨g, r, _, _, _, hg, hc, rfl, unquoted_iff.mpr rfl, unquoted_iff.mpr rfl, afterColons_iff.mpr rfl, by simpa using h⟩
      · rw [h2] at h
        have hf : ∃ f rest l, r' = f ++ rest ∧ ',' ∉ f ∧ (rest = [] ∨ rest.head? = some ',') ∧ splitOn ',' r' = f :: l := by
          rcases splitOn_cases ',' r' with ⟨hf, h3⟩ | ⟨f, r'', rfl, hf, h3⟩
          · exact ⟨r', [], [], by simp, hf, .inl rfl, h3⟩
          · exact ⟨f, ',' :: r'', _, rfl, hf, .inr rfl, h3⟩
        obtain ⟨f, rest, l, rfl, hf, hrest, h3⟩ := hf
        rw [h3] at h
        right
        refine ⟨g, c, f, rest, hg, hc, hf, hrest, rfl, ?_⟩
        simp only at h
        split at h
        · cases h
        · simp at h; exact unquoted_iff.mpr h.symm
  · rintro (⟨g, c, gq, cq, gen, hg, hc, rfl, h1, h2, h3, rfl⟩ | ⟨g, c, f, rest, hg, hc, hf, hrest, rfl, h1⟩)
    · rw [two g c hg hc]
      have e1 := unquoted_iff.mp h1
      have e2 := unquoted_iff.mp h2
      have e3 := afterColons_iff.mp h3
      simp [e1, e2, e3]
    · obtain ⟨l, hl⟩ := three g c f rest hg hc hf hrest
      rw [hl]
      have e1 := unquoted_iff.mp h1
      simp [e1, hn]

theorem mem_patternNames {re : Str → Option (Str → Bool)} {all : List Str} {inner name : Str} (hall : name ∈ all) :
    name ∈ patternNames re all inner ↔ ∃ p m, Unquoted inner p ∧ re p = some m ∧ m name = true := by
  unfold patternNames
  constructor
  · intro h
    split at h
    · rename_i m hm
      exact ⟨_, m, unquoted_iff.mpr rfl, hm, (List.mem_filter.mp h).2⟩
    · cases h
  · rintro ⟨p, m, h1, h2, h3⟩
    rw [unquoted_iff] at h1
    rw [h1, h2]
    simp [hall, h3]

/-- The directive of a line: which branch is taken. -/
theorem nsDirective_iff {line kw inner : Str} : NsDirective line kw inner ↔
    ∃ a b, NsKeywords = a ++ kw :: b ∧ extractDirective line kw = some inner ∧ ∀ kw' ∈ a, extractDirective line kw' = none := by
  unfold NsDirective
  apply exists_congr; intro a
  apply exists_congr; intro b
  rw [extractDirective_iff]
  apply and_congr_right; intro _
  apply and_congr_right; intro _
  apply forall_congr'; intro kw'
  apply imp_congr_right; intro _
  rw [Option.eq_none_iff_forall_ne_some]
  exact ⟨fun h i hi => h i (extractDirective_iff.mp hi), fun h i hi => h i (extractDirective_iff.mpr hi)⟩

/-- What is found for a line: keyword and text between the parentheses. -/
def lineDirective (line : Str) : Option (Str × Str) :=
  NsKeywords.findSome? (fun kw => (extractDirective line kw).map (fun i => (kw, i)))

theorem lineDirective_iff {line kw inner : Str} : lineDirective line = some (kw, inner) ↔ NsDirective line kw inner := by
  rw [nsDirective_iff]
  unfold lineDirective
  rw [List.findSome?_eq_some_iff]
  constructor
  · rintro ⟨a, x, b, h1, h2, h3⟩
    simp only [Option.map_eq_some_iff, Prod.mk.injEq] at h2
    obtain ⟨i, h4, rfl, rfl⟩ := h2
    refine ⟨a, b, h1, h4, ?_⟩
    intro kw' hk
    simpa using h3 kw' hk
  · rintro ⟨a, b, h1, h2, h3⟩
    exact ⟨a, kw, b, h1, by simp [h2], fun x hx => by simp [h3 x hx]⟩

/-- The names of a directive. -/
def directiveNames (re : Str → Option (Str → Bool)) (all : List Str) : Option (Str × Str) → List Str
  | none => []
  | some (kw, inner) =>
    if kw = cs! "export" then exportNames inner
    else if kw = cs! "exportPattern" then patternNames re all inner
    else if kw = cs! "S3method" then s3Names inner
    else exportNames inner

theorem namespaceLine_eq (re : Str → Option (Str → Bool)) (all : List Str) (line : Str) :
    namespaceLine re all line =
      if trim line = [] || startsWith ['#'] (trim line) then [] else directiveNames re all (lineDirective (trim line)) := by
  unfold namespaceLine lineDirective NsKeywords
  simp only [List.findSome?_cons, List.findSome?_nil]
  split
  · rfl
  · cases extractDirective (trim line) (cs! "export") with
    | some i => simp [directiveNames]
    | none =>
      simp only [Option.map_none]
      cases extractDirective (trim line) (cs! "exportPattern") with
      | some i => simp [directiveNames]
      | none =>
        simp only [Option.map_none]
        cases extractDirective (trim line) (cs! "S3method") with
        | some i => simp [directiveNames]
        | none =>
          simp only [Option.map_none]
          cases extractDirective (trim line) (cs! "exportMethods") with
          | some i => simp [directiveNames]
          | none =>
            simp only [Option.map_none]
            cases extractDirective (trim line) (cs! "exportClasses") with
            | some i => simp [directiveNames]
            | none => simp [directiveNames]

theorem nsKeyword_head {kw : Str} (h : kw ∈ NsKeywords) : ∃ k ks, kw = k :: ks ∧ isWs k = false := by
  simp only [NsKeywords, List.mem_cons, List.not_mem_nil, or_false] at h
  rcases h with rfl | rfl | rfl | rfl | rfl <;> exact ⟨_, _, rfl, by decide⟩

theorem nsDirective_blank {w1 w2 t kw inner : Str} (h1 : ∀ c ∈ w1, isWs c = true) (h2 : ∀ c ∈ w2, isWs c = true) :
    NsDirective (w1 ++ t ++ w2) kw inner ↔ NsDirective t kw inner := by
  unfold NsDirective
  apply exists_congr; intro a
  apply exists_congr; intro b
  apply and_congr_right; intro hk
  have hkw : ∀ k ∈ a ++ kw :: b, ∃ c ks, k = c :: ks ∧ isWs c = false := fun k hk' => nsKeyword_head (hk ▸ hk')
  rw [nsCall_blank h1 h2 (hkw kw (by simp))]
  apply and_congr_right; intro _
  apply forall_congr'; intro kw'
  apply imp_congr_right; intro hmem
  apply forall_congr'; intro i
  rw [nsCall_blank h1 h2 (hkw kw' (by simp [hmem]))]

theorem nsComment_iff {line : Str} : startsWith ['#'] (trim line) = true ↔ NsComment line := by
  rw [startsWith_iff]
  unfold NsComment
  obtain ⟨w1, w2, h1, h2, h3⟩ := trim_decomp line
  constructor
  · rintro ⟨r, hr⟩
    refine ⟨w1, r ++ w2, ?_, h1⟩
    rw [hr] at h3
    simpa using h3
  · rintro ⟨w, r, rfl, hw⟩
    refine ⟨trimEnd r, ?_⟩
    unfold trim
    rw [trimStart_ws_append hw, trimStart_of_head (by decide)]
    by_cases hr : ∀ c ∈ r, isWs c = true
    · have e : trimEnd ('#' :: r) = trimEnd ['#'] := trimEnd_append_ws (s := ['#']) hr
      rw [e, trimEnd_eq_nil.mpr hr]
      decide
    · exact trimEnd_append_of_not_blank (a := ['#']) hr

theorem mem_directiveNames {re : Str → Option (Str → Bool)} {all : List Str} {line name : Str} (hn : name ≠ []) (hall : name ∈ all) :
    name ∈ directiveNames re all (lineDirective line) ↔ LineExports re line name := by
  constructor
  · intro h
    cases hd : lineDirective line with
    | none => rw [hd] at h; cases h
    | some x =>
      obtain ⟨kw, inner⟩ := x
      rw [hd] at h
      have hdir := lineDirective_iff.mp hd
      have hmem : kw ∈ NsKeywords := by
        obtain ⟨a, b, h1, _⟩ := hdir
        rw [h1]; simp
      simp only [NsKeywords, List.mem_cons, List.not_mem_nil, or_false] at hmem
      have names : ∀ kw, (kw = cs! "export" ∨ kw = cs! "exportMethods" ∨ kw = cs! "exportClasses") → NsDirective line kw inner →
          name ∈ exportNames inner → LineExports re line name := by
        intro kw hkw hdir h
        obtain ⟨i, h1, h2⟩ := (mem_exportNames hn).mp h
        exact .names kw inner i hkw hdir h1 h2
      rcases hmem with rfl | rfl | rfl | rfl | rfl
      · exact names _ (by simp) hdir (by simpa [directiveNames] using h)
      · have h : name ∈ patternNames re all inner := by simpa [directiveNames] using h
        obtain ⟨p, m, h1, h2, h3⟩ := (mem_patternNames hall).mp h
        exact .pattern inner p m hdir h1 h2 h3
      · have h : name ∈ s3Names inner := by simpa [directiveNames] using h
        rcases (mem_s3Names hn).mp h with ⟨g, c, gq, cq, gen, h1, h2, rfl, h4, h5, h6, h7⟩ | ⟨g, c, f, rest, h1, h2, h3, h4, rfl, h6⟩
        · exact .method g c gq cq gen h1 h2 hdir h4 h5 h6 h7
        · exact .method3 g c f rest h1 h2 h3 h4 hdir h6
      · exact names _ (by simp) hdir (by simpa [directiveNames] using h)
      · exact names _ (by simp) hdir (by simpa [directiveNames] using h)
  · intro h
    cases h with
    | names kw inner item hkw hd hi hq =>
      rw [lineDirective_iff.mpr hd]
      have := (mem_exportNames hn).mpr ⟨item, hi, hq⟩
      rcases hkw with rfl | rfl | rfl <;> simpa [directiveNames] using this
    | pattern inner p m hd hq hre hm =>
      rw [lineDirective_iff.mpr hd]
      have := (mem_patternNames hall).mpr ⟨p, m, hq, hre, hm⟩
      simpa [directiveNames] using this
    | method g c gq cq gen hg hc hd hgq hcq hgen hname =>
      rw [lineDirective_iff.mpr hd]
      have := (mem_s3Names hn).mpr (.inl ⟨g, c, gq, cq, gen, hg, hc, rfl, hgq, hcq, hgen, hname⟩)
      simpa [directiveNames] using this
    | method3 g c f rest hg hc hf hrest hd hq =>
      rw [lineDirective_iff.mpr hd]
      have := (mem_s3Names hn).mpr (.inr ⟨g, c, f, rest, hg, hc, hf, hrest, rfl, hq⟩)
      simpa [directiveNames] using this

theorem lineExports_blank {re : Str → Option (Str → Bool)} {w1 w2 t name : Str} (h1 : ∀ c ∈ w1, isWs c = true) (h2 : ∀ c ∈ w2, isWs c = true) :
    LineExports re (w1 ++ t ++ w2) name ↔ LineExports re t name := by
  constructor
  · intro h
    cases h with
    | names kw inner item hkw hd hi hq => exact .names kw inner item hkw ((nsDirective_blank h1 h2).mp hd) hi hq
    | pattern inner p m hd hq hre hm => exact .pattern inner p m ((nsDirective_blank h1 h2).mp hd) hq hre hm
    | method g c gq cq gen hg hc hd hgq hcq hgen hname => exact .method g c gq cq gen hg hc ((nsDirective_blank h1 h2).mp hd) hgq hcq hgen hname
    | method3 g c f rest hg hc hf hrest hd hq => exact .method3 g c f rest hg hc hf hrest ((nsDirective_blank h1 h2).mp hd) hq
  · intro h
    cases h with
    | names kw inner item hkw hd hi hq => exact .names kw inner item hkw ((nsDirective_blank h1 h2).mpr hd) hi hq
    | pattern inner p m hd hq hre hm => exact .pattern inner p m ((nsDirective_blank h1 h2).mpr hd) hq hre hm
    | method g c gq cq gen hg hc hd hgq hcq hgen hname => exact .method g c gq cq gen hg hc ((nsDirective_blank h1 h2).mpr hd) hgq hcq hgen hname
    | method3 g c f rest hg hc hf hrest hd hq => exact .method3 g c f rest hg hc hf hrest ((nsDirective_blank h1 h2).mpr hd) hq

theorem nsDirective_nil {kw inner : Str} : ¬ NsDirective [] kw inner := by
  rintro ⟨a, b, _, ⟨x, y, h, _⟩, _⟩
  simp at h

theorem lineExports_nil {re : Str → Option (Str → Bool)} {name : Str} : ¬ LineExports re [] name := by
  intro h
  cases h with
  | names _ _ _ _ hd => exact nsDirective_nil hd
  | pattern _ _ _ hd => exact nsDirective_nil hd
  | method _ _ _ _ _ _ _ hd => exact nsDirective_nil hd
  | method3 _ _ _ _ _ _ _ _ hd => exact nsDirective_nil hd

theorem mem_namespaceLine {re : Str → Option (Str → Bool)} {all : List Str} {line name : Str} (hn : name ≠ []) (hall : name ∈ all) :
    name ∈ namespaceLine re all line ↔ ¬ NsComment line ∧ LineExports re line name := by
  obtain ⟨w1, w2, h1, h2, h3⟩ := trim_decomp line
  have hle : LineExports re line name ↔ LineExports re (trim line) name := by
    rw [← lineExports_blank h1 h2 (t := trim line), ← h3]
  rw [hle, ← nsComment_iff, namespaceLine_eq]
  by_cases hnil : trim line = []
  · simp [hnil, lineExports_nil]
  · by_cases hc : startsWith ['#'] (trim line) = true
    · simp [hc]
    · simp only [hnil, hc, decide_false, Bool.false_or, Bool.false_eq_true, if_false, not_false_eq_true, true_and]
      exact mem_directiveNames hn hall

theorem nsComment_iff' {line : Str} : NsComment line ↔ NsComment (trim line) := by
  rw [← nsComment_iff, ← nsComment_iff, trim_trim]

/-- Only the trimmed line counts. -/
theorem mem_namespaceLine_trim {re : Str → Option (Str → Bool)} {all : List Str} {l l' : Str} (h : trim l = trim l') :
    namespaceLine re all l = namespaceLine re all l' := by
  unfold namespaceLine
  rw [h]

theorem trim_stripEol (l : Str) : trim (stripEol l) = trim l := by
  obtain ⟨r, h1, h2⟩ := stripEol_eols l
  have hb : Blank r := by
    intro e he
    rcases h2 e he with rfl | rfl <;> decide
  have e : trim l = trim (stripEol l ++ r) := by rw [← h1]
  rw [e, trim_append_blank hb]

/-- **C49**, NAMESPACE: a function counts as exported exactly when a line of NAMESPACE that is not a comment exports it. -/
theorem C49_namespace {re : Str → Option (Str → Bool)} {all : List Str} {content name : Str} (hn : name ≠ []) (hall : name ∈ all) :
    name ∈ namespaceExports re all content ↔ NsExports re content name := by
  have key := lines_pieces (P := fun l => name ∉ namespaceLine re all l)
    (by rw [mem_namespaceLine hn hall]; exact fun h => lineExports_nil h.2)
    (fun l => by rw [mem_namespaceLine_trim (l := l ++ ['\n']) (l' := l) (trim_append_blank (by intro c hc; simp at hc; subst hc; decide))])
    content.length content (Nat.le_refl _)
  unfold namespaceExports rustLines NsExports
  have e1 : name ∈ ((splitInclusive '\n' content).map stripEol).flatMap (namespaceLine re all) ↔
      ¬ ∀ piece ∈ splitInclusive '\n' content, name ∉ namespaceLine re all piece := by
    simp only [List.mem_flatMap, List.mem_map]
    constructor
    · rintro ⟨_, ⟨p, hp, rfl⟩, h⟩ hall'
      rw [mem_namespaceLine_trim (trim_stripEol p)] at h
      exact hall' p hp h
    · intro h
      apply Classical.byContradiction
      intro h2
      apply h
      intro p hp hmem
      refine h2 ⟨stripEol p, ⟨p, hp, rfl⟩, ?_⟩
      rw [mem_namespaceLine_trim (trim_stripEol p)]
      exact hmem
  rw [e1, ← key]
  constructor
  · intro h
    apply Classical.byContradiction
    intro h2
    apply h
    intro pre l post hl hmem
    exact h2 ⟨pre, l, post, hl, (mem_namespaceLine hn hall).mp hmem⟩
  · rintro ⟨pre, l, post, hl, h⟩ hall'
    exact hall' pre l post hl ((mem_namespaceLine hn hall).mpr h)

end Jarl
