import Verif.Spec.Suppression
import Verif.Props.Directive
namespace Jarl
open Spec

/-- The visits a node contributes itself. -/
def ownVisits (source : Str) (first : Bool) (level : Nat) (n : SynNode) : List Visit :=
  leadingVisits n.range first level none n.leading ++
  n.trailing.map (fun c => .comment c n.range false (isSameLineAsCode c.range source) level) ++
  n.dangling.map (fun c => .comment c n.range false false level)

theorem visitNode_eq (source : Str) (first : Bool) (level : Nat) (n : SynNode) :
    visitNode source first level n = ownVisits source first level n ++ visitChildren source first level n.children := by
  cases n with
  | mk r b l t d cs =>
    rw [visitNode]
    rfl

mutual
theorem visitNode_reach {root : SynNode} {source : Str} : ∀ (n : SynNode) {f : Bool} {l : Nat},
    Reach root f l n → ∀ v ∈ visitNode source f l n,
    ∃ n' f' l', Reach root f' l' n' ∧ v ∈ ownVisits source f' l' n'
  | .mk r b le tr da ch, f, l, hr, v, hv => by
    rw [visitNode_eq] at hv
    rcases List.mem_append.mp hv with hv | hv
    · exact ⟨_, f, l, hr, hv⟩
    · refine visitChildren_reach (root := root) ch (f := f) (l := l) ?_ ?_ v hv
      · intro c rest hc
        exact .firstChild hr hc
      · intro c d rest hc hm
        exact .laterChild hr hc hm
theorem visitChildren_reach {root : SynNode} {source : Str} : ∀ (cs : List SynNode) {f : Bool} {l : Nat},
    (∀ c rest, cs = c :: rest → Reach root f (if c.braced then l + 1 else l) c) →
    (∀ c d rest, cs = d :: rest → c ∈ rest → Reach root false (if c.braced then l + 1 else l) c) →
    ∀ v ∈ visitChildren source f l cs,
    ∃ n' f' l', Reach root f' l' n' ∧ v ∈ ownVisits source f' l' n'
  | [], f, l, _, _, v, hv => by simp [visitChildren] at hv
  | c :: cs, f, l, h1, h2, v, hv => by
    rw [visitChildren] at hv
    rcases List.mem_append.mp hv with hv | hv
    · exact visitNode_reach c (h1 c cs rfl) v hv
    · refine visitChildren_reach cs (f := false) (l := l) ?_ ?_ v hv
      · intro d rest hd
        exact h2 d c cs rfl (by rw [hd]; simp)
      · intro d e rest hd hm
        exact h2 d c cs rfl (by rw [hd]; simp [hm])
end

theorem visitNode_mono {root : SynNode} {source : Str} {f : Bool} {l : Nat} {n : SynNode} (h : Reach root f l n) :
    ∀ v ∈ visitNode source f l n, v ∈ visitNode source true 0 root := by
  induction h with
  | root => exact fun v h => h
  | @firstChild first level n c cs _ hc ih =>
    intro v hv
    apply ih
    rw [visitNode_eq, hc, visitChildren]
    simp [hv]
  | @laterChild first level n d cs c _ hc hm ih =>
    intro v hv
    apply ih
    rw [visitNode_eq, hc, visitChildren]
    have : ∀ cs : List SynNode, c ∈ cs → v ∈ visitChildren source false level cs := by
      intro cs
      induction cs with
      | nil => intro h; cases h
      | cons x xs ihx =>
        intro h
        rw [visitChildren]
        rcases List.mem_cons.mp h with rfl | h
        · simp [hv]
        · simp [ihx h]
    simp [this cs hm]

/-- The visits of a tree are those of its nodes. -/
theorem mem_visits {root : SynNode} {source : Str} {v : Visit} :
    v ∈ visitNode source true 0 root ↔ ∃ n f l, Reach root f l n ∧ v ∈ ownVisits source f l n := by
  constructor
  · exact visitNode_reach root .root v
  · rintro ⟨n, f, l, h1, h2⟩
    apply visitNode_mono h1
    rw [visitNode_eq]; simp [h2]

/-! ### leading comments -/

theorem header_parse {t : Str} (h : isQuartoHeader t = true) : parseCommentDirective t = some .blanket := by
  rw [C11_blanket]
  obtain ⟨w1, w2, h1, _, rfl⟩ := C11_array_header.mp h
  exact ⟨w1, cs! "#| ", cs! "jarl-ignore-chunk", h1, .inr ⟨.inr rfl, rfl⟩, .inr ⟨w2, .inl (by simp)⟩⟩

/-- What is consumed as an array item. -/
theorem arrayItem_iff {s : Str} {p : DirectiveParse} :
    arrayItem s = some p ↔ ∃ t, ItemText s t ∧ wrapRule .ignoreChunk (parseRuleWithExplanation t) = some p := by
  rw [← parseItem_iff]
  unfold arrayItem
  cases h : parseQuartoItem s with
  | none => simp
  | some q =>
    obtain ⟨t, _, ht⟩ := parseItem_iff.mp h
    cases hr : parseRuleWithExplanation t <;> rw [hr] at ht <;> simp [wrapRule] at ht <;> subst ht <;> simp

theorem isItem_iff {s : Str} : IsItem s ↔ ∃ p, arrayItem s = some p := by
  unfold IsItem
  constructor
  · rintro ⟨t, h1, h2⟩
    rcases h2 with ⟨r, h⟩ | h | h
    · exact ⟨_, arrayItem_iff.mpr ⟨t, h1, by rw [parseRule_valid.mpr h]; rfl⟩⟩
    · exact ⟨_, arrayItem_iff.mpr ⟨t, h1, by rw [parseRule_missing.mpr h]; rfl⟩⟩
    · exact ⟨_, arrayItem_iff.mpr ⟨t, h1, by rw [parseRule_misnamed.mpr h]; rfl⟩⟩
  · rintro ⟨p, hp⟩
    obtain ⟨t, h1, h2⟩ := arrayItem_iff.mp hp
    refine ⟨t, h1, ?_⟩
    cases hr : parseRuleWithExplanation t with
    | valid r => exact .inl ⟨r, parseRule_valid.mp hr⟩
    | missingExplanation => exact .inr (.inl (parseRule_missing.mp hr))
    | invalidRuleName => exact .inr (.inr (parseRule_misnamed.mp hr))
    | invalid => rw [hr] at h2; cases h2

/-- The code's test for end-of-line comments. -/
theorem sameLine_iff {source : Str} {r : Range} : isSameLineAsCode r source = true ↔ TrailsCode source r := by
  unfold isSameLineAsCode TrailsCode
  constructor
  · intro h
    split at h
    · cases h
    · split at h
      · cases h
      · rename_i pre post hs
        obtain ⟨rfl, hb⟩ := splitAtByte_iff.mp hs
        split at h
        · rename_i b line hl
          obtain ⟨rfl, hn⟩ := splitLast_iff.mp hl
          obtain ⟨x, hx, hw⟩ := List.any_eq_true.mp h
          exact ⟨b ++ ['\n'], line, post, by simp, by rw [← hb]; congr 1; simp, .inr ⟨b, rfl⟩, hn, x, hx, by simpa using hw⟩
        · rename_i hl
          obtain ⟨x, hx, hw⟩ := List.any_eq_true.mp h
          exact ⟨[], pre, post, by simp, by simpa using hb, .inl rfl, splitLast_none.mp hl, x, hx, by simpa using hw⟩
  · rintro ⟨before, line, after, rfl, hb, hpre, hn, x, hx, hw⟩
    have hpos : r.start ≠ 0 := by
      intro h0
      rw [h0] at hb
      have := length_le_blen (before ++ line)
      have hl : line.length = 0 := by rw [hb] at this; simp at this; simp [this.2]
      rw [List.eq_nil_of_length_eq_zero hl] at hx
      cases hx
    rw [if_neg hpos, splitAtByte_iff.mpr ⟨rfl, hb⟩]
    simp only
    rcases hpre with rfl | ⟨b, rfl⟩
    · rw [List.nil_append, splitLast_none.mpr hn]
      exact List.any_eq_true.mpr ⟨x, hx, by simpa using hw⟩
    · have : splitLast '\n' (b ++ ['\n'] ++ line) = some (b, line) := splitLast_iff.mpr ⟨by simp, hn⟩
      rw [this]
      exact List.any_eq_true.mpr ⟨x, hx, by simpa using hw⟩

theorem sameLine_false {source : Str} {r : Range} : isSameLineAsCode r source = false ↔ ¬ TrailsCode source r := by
  rw [← sameLine_iff]; simp

theorem arrayItem_form {t : Str} {p : DirectiveParse} (h : arrayItem t = some p) :
    ∃ w w1 u, Blank w ∧ Blank w1 ∧ t = w ++ cs! "#|" ++ w1 ++ '-' :: u := by
  have h' : ∃ q, parseQuartoItem t = some q := by
    cases hq : parseQuartoItem t with
    | none => unfold arrayItem at h; rw [hq] at h; cases h
    | some q => exact ⟨q, rfl⟩
  obtain ⟨q, hq⟩ := h'
  unfold parseQuartoItem at hq
  obtain ⟨w, w', hw, _, hs⟩ := trim_decomp t
  split at hq
  · cases hq
  · rename_i rest h1
    have h1 := stripPrefix_iff.mp h1
    split at hq
    · cases hq
    · rename_i rest2 h2
      have h2 := stripPrefix_iff.mp h2
      obtain ⟨w1, h3, h4⟩ := trimStart_spec rest
      refine ⟨w, w1, rest2 ++ w', hw, h4, ?_⟩
      rw [hs, h1, h3, h2]
      simp

theorem item_parse {t : Str} {p : DirectiveParse} (h : arrayItem t = some p) : parseCommentDirective t = none := by
  obtain ⟨w, w1, u, hw, hw1, rfl⟩ := arrayItem_form h
  have hh : isWs '#' = false := by decide
  have e : trimStart (w ++ cs! "#|" ++ w1 ++ '-' :: u) = '#' :: '|' :: (w1 ++ '-' :: u) := by
    have := trimStart_blank_head (s := '|' :: (w1 ++ '-' :: u)) hw hh
    simpa using this
  unfold parseCommentDirective
  rw [e]
  cases w1 with
  | nil => simp [stripMarker, stripPrefix]
  | cons c cs =>
    have hc := hw1 c (by simp)
    by_cases hsp : c = ' '
    · subst hsp
      cases cs with
      | nil => simp [stripMarker, stripPrefix]
      | cons d ds =>
        have hd := hw1 d (by simp)
        have : ¬ 'j' = d := by rintro rfl; exact absurd hd (by decide)
        simp [stripMarker, stripPrefix, this]
    · have hsp' : ¬ ' ' = c := fun h => hsp h.symm
      simp [stripMarker, stripPrefix, hsp']

theorem header_not_item {t : Str} (h : isQuartoHeader t = true) : arrayItem t = none := by
  cases hi : arrayItem t with
  | none => rfl
  | some p =>
    have h1 := item_parse hi
    rw [header_parse h] at h1
    cases h1

/-- A comment that parses to something other than a header is handed to `process_comment`, unless it was consumed as an
array item, in which case it parses to nothing. -/
theorem mem_leading_comment {nr : Range} {first : Bool} {level : Nat} {st : Option (Range × Bool)} {cs : List Comment}
    {c : Comment} {x : DirectiveParse} (hx : parseCommentDirective c.text = some x) (hh : isQuartoHeader c.text = false) :
    Visit.comment c nr first false level ∈ leadingVisits nr first level st cs ↔ c ∈ cs := by
  have hflush : ∀ st, Visit.comment c nr first false level ∉ flushHeader st := by
    intro st; rcases st with _ | ⟨h, _ | _⟩ <;> simp [flushHeader]
  induction cs generalizing st with
  | nil => simp only [leadingVisits]; simp [hflush]
  | cons d ds ih =>
    have normal : Visit.comment c nr first false level ∈
        (if isQuartoHeader d.text then leadingVisits nr first level (some (d.range, false)) ds
         else .comment d nr first false level :: leadingVisits nr first level none ds) ↔ c ∈ d :: ds := by
      split
      · rename_i hd
        refine Iff.trans ih ?_
        constructor
        · intro h; simp [h]
        · intro h
          rcases List.mem_cons.mp h with rfl | h
          · rw [hd] at hh; cases hh
          · exact h
      · simp only [List.mem_cons, ih, Visit.comment.injEq, and_self, and_true]
    cases st with
    | none => simp only [leadingVisits]; exact normal
    | some hf =>
      obtain ⟨h, found⟩ := hf
      simp only [leadingVisits]
      split
      · rename_i p hp
        simp only [List.mem_cons, ih]
        constructor
        · rintro (h | h)
          · cases h
          · exact .inr h
        · rintro (rfl | h)
          · rw [item_parse hp] at hx; cases hx
          · exact .inr h
      · rw [List.mem_append, normal]
        constructor
        · rintro (h | h)
          · exact absurd h (hflush _)
          · exact h
        · exact .inr

theorem leading_comment_flags {nr : Range} {first : Bool} {level : Nat} {st : Option (Range × Bool)} {cs : List Comment}
    {c : Comment} {nr' : Range} {af tr : Bool} {lv : Nat}
    (h : Visit.comment c nr' af tr lv ∈ leadingVisits nr first level st cs) :
    nr' = nr ∧ af = first ∧ tr = false ∧ lv = level ∧ c ∈ cs ∧ isQuartoHeader c.text = false := by
  have hflush : ∀ st, Visit.comment c nr' af tr lv ∉ flushHeader st := by
    intro st; rcases st with _ | ⟨h, _ | _⟩ <;> simp [flushHeader]
  induction cs generalizing st with
  | nil => simp only [leadingVisits] at h; exact absurd h (hflush _)
  | cons d ds ih =>
    have normal : Visit.comment c nr' af tr lv ∈
        (if isQuartoHeader d.text then leadingVisits nr first level (some (d.range, false)) ds
         else .comment d nr first false level :: leadingVisits nr first level none ds) →
        nr' = nr ∧ af = first ∧ tr = false ∧ lv = level ∧ c ∈ d :: ds ∧ isQuartoHeader c.text = false := by
      intro h
      split at h
      · obtain ⟨a1, a2, a3, a4, a5, a6⟩ := ih h
        exact ⟨a1, a2, a3, a4, by simp [a5], a6⟩
      · rename_i hd
        rcases List.mem_cons.mp h with h | h
        · cases h; exact ⟨rfl, rfl, rfl, rfl, by simp, by simpa using hd⟩
        · obtain ⟨a1, a2, a3, a4, a5, a6⟩ := ih h
          exact ⟨a1, a2, a3, a4, by simp [a5], a6⟩
    cases st with
    | none => simp only [leadingVisits] at h; exact normal h
    | some hf =>
      obtain ⟨hr, found⟩ := hf
      simp only [leadingVisits] at h
      split at h
      · rcases List.mem_cons.mp h with h | h
        · cases h
        · obtain ⟨a1, a2, a3, a4, a5, a6⟩ := ih h
          exact ⟨a1, a2, a3, a4, by simp [a5], a6⟩
      · rcases List.mem_append.mp h with h | h
        · exact absurd h (hflush _)
        · exact normal h

/-- Items are exactly the lines below a header with only items in between. -/
theorem mem_leading_item {nr : Range} {first : Bool} {level : Nat} {st : Option (Range × Bool)} {cs : List Comment}
    {p : DirectiveParse} {r : Range} :
    Visit.item p r ∈ leadingVisits nr first level st cs ↔
    (∃ c, c.range = r ∧ arrayItem c.text = some p ∧
      ((∃ pre h items post, cs = pre ++ h :: items ++ c :: post ∧ isQuartoHeader h.text = true ∧
          ∀ i ∈ items, IsItem i.text) ∨
       (st.isSome = true ∧ ∃ items post, cs = items ++ c :: post ∧ ∀ i ∈ items, IsItem i.text))) := by
  have hflush : ∀ st, Visit.item p r ∉ flushHeader st := by
    intro st; rcases st with _ | ⟨h, _ | _⟩ <;> simp [flushHeader]
  induction cs generalizing st with
  | nil =>
    simp only [leadingVisits]
    constructor
    · intro h; exact absurd h (hflush _)
    · rintro ⟨c, _, _, ⟨pre, h, items, post, h1, _⟩ | ⟨_, items, post, h1, _⟩⟩ <;> simp at h1
  | cons d ds ih =>
    -- the branch in which `d` is not consumed as an item
    have normal : ∀ (hd : st.isSome = true → arrayItem d.text = none), (Visit.item p r ∈
        (if isQuartoHeader d.text then leadingVisits nr first level (some (d.range, false)) ds
         else .comment d nr first false level :: leadingVisits nr first level none ds)) ↔
        (∃ c, c.range = r ∧ arrayItem c.text = some p ∧
          ((∃ pre h items post, d :: ds = pre ++ h :: items ++ c :: post ∧ isQuartoHeader h.text = true ∧
              ∀ i ∈ items, IsItem i.text) ∨
           (st.isSome = true ∧ ∃ items post, d :: ds = items ++ c :: post ∧ ∀ i ∈ items, IsItem i.text))) := by
      intro hd
      have second : ∀ c, arrayItem c.text = some p →
          ¬ (st.isSome = true ∧ ∃ items post, d :: ds = items ++ c :: post ∧ ∀ i ∈ items, IsItem i.text) := by
        rintro c hc ⟨hs, items, post, he, hi⟩
        have hdn := hd hs
        cases items with
        | nil => simp at he; obtain ⟨rfl, _⟩ := he; rw [hdn] at hc; cases hc
        | cons i is =>
          simp at he
          obtain ⟨rfl, _⟩ := he
          obtain ⟨q, hq⟩ := isItem_iff.mp (hi d (by simp))
          rw [hdn] at hq; cases hq
      split
      · rename_i hdh
        refine Iff.trans ih ?_
        constructor
        · rintro ⟨c, hc1, hc2, ⟨pre, h, items, post, he, hh, hi⟩ | ⟨_, items, post, he, hi⟩⟩
          · exact ⟨c, hc1, hc2, .inl ⟨d :: pre, h, items, post, by rw [he]; simp, hh, hi⟩⟩
          · exact ⟨c, hc1, hc2, .inl ⟨[], d, items, post, by rw [he]; simp, hdh, hi⟩⟩
        · rintro ⟨c, hc1, hc2, ⟨pre, h, items, post, he, hh, hi⟩ | h⟩
          · cases pre with
            | nil =>
              simp at he
              obtain ⟨rfl, he⟩ := he
              exact ⟨c, hc1, hc2, .inr ⟨rfl, items, post, he, hi⟩⟩
            | cons x xs =>
              simp at he
              obtain ⟨rfl, he⟩ := he
              exact ⟨c, hc1, hc2, .inl ⟨xs, h, items, post, by rw [he]; simp, hh, hi⟩⟩
          · exact absurd h (second c hc2)
      · rename_i hdh
        refine Iff.trans (List.mem_cons.trans (or_congr Iff.rfl ih)) ?_
        constructor
        · rintro (h | ⟨c, hc1, hc2, ⟨pre, h, items, post, he, hh, hi⟩ | ⟨hs, _⟩⟩)
          · cases h
          · exact ⟨c, hc1, hc2, .inl ⟨d :: pre, h, items, post, by rw [he]; simp, hh, hi⟩⟩
          · cases hs
        · rintro ⟨c, hc1, hc2, ⟨pre, h, items, post, he, hh, hi⟩ | h⟩
          · cases pre with
            | nil =>
              simp at he
              obtain ⟨rfl, he⟩ := he
              exact absurd hh hdh
            | cons x xs =>
              simp at he
              obtain ⟨rfl, he⟩ := he
              exact .inr ⟨c, hc1, hc2, .inl ⟨xs, h, items, post, by rw [he]; simp, hh, hi⟩⟩
          · exact absurd h (second c hc2)
    cases st with
    | none => simp only [leadingVisits]; exact normal (by simp)
    | some hf =>
      obtain ⟨hr, found⟩ := hf
      simp only [leadingVisits]
      split
      · rename_i q hq
        refine Iff.trans (List.mem_cons.trans (or_congr Iff.rfl ih)) ?_
        constructor
        · rintro (h | ⟨c, hc1, hc2, ⟨pre, h, items, post, he, hh, hi⟩ | ⟨_, items, post, he, hi⟩⟩)
          · cases h
            exact ⟨d, rfl, hq, .inr ⟨rfl, [], ds, by simp, by simp⟩⟩
          · exact ⟨c, hc1, hc2, .inl ⟨d :: pre, h, items, post, by rw [he]; simp, hh, hi⟩⟩
          · refine ⟨c, hc1, hc2, .inr ⟨rfl, d :: items, post, by rw [he]; simp, ?_⟩⟩
            intro i hi'
            rcases List.mem_cons.mp hi' with rfl | hi'
            · exact isItem_iff.mpr ⟨q, hq⟩
            · exact hi i hi'
        · rintro ⟨c, hc1, hc2, ⟨pre, h, items, post, he, hh, hi⟩ | ⟨_, items, post, he, hi⟩⟩
          · cases pre with
            | nil =>
              simp at he
              obtain ⟨rfl, he⟩ := he
              rw [header_not_item hh] at hq; cases hq
            | cons x xs =>
              simp at he
              obtain ⟨rfl, he⟩ := he
              exact .inr ⟨c, hc1, hc2, .inl ⟨xs, h, items, post, by rw [he]; simp, hh, hi⟩⟩
          · cases items with
            | nil =>
              simp at he
              obtain ⟨rfl, _⟩ := he
              rw [hq] at hc2
              cases hc2
              subst hc1
              exact .inl rfl
            | cons x xs =>
              simp at he
              obtain ⟨rfl, he⟩ := he
              exact .inr ⟨c, hc1, hc2, .inr ⟨rfl, xs, post, he, fun i hi' => hi i (by simp [hi'])⟩⟩
      · rename_i hq
        rw [List.mem_append]
        have := normal (fun _ => hq)
        rw [this]
        constructor
        · rintro (h | h)
          · exact absurd h (hflush _)
          · exact h
        · exact .inr

end Jarl
