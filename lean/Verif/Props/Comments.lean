import Verif.Spec.Comments
import Verif.Props.Check
/-!
# C35: every suppression comment that does nothing is reported
-/
namespace Jarl
open Spec

theorem directive_iff {s : Str} : Directive s ↔ ∃ x, parseCommentDirective s = some x := by
  unfold Directive
  simp only [← C11_valid, ← C11_blanket, ← C11_unexplained, ← C11_misnamed]
  constructor
  · rintro (⟨d, h⟩ | h | h | h) <;> exact ⟨_, h⟩
  · rintro ⟨x, h⟩
    cases x with
    | valid d => exact .inl ⟨d, h⟩
    | blanket => exact .inr (.inl h)
    | missingExplanation => exact .inr (.inr (.inl h))
    | invalidRuleName => exact .inr (.inr (.inr h))

theorem header_iff {s : Str} : HeaderText s ↔ isQuartoHeader s = true := C11_array_header.symm

theorem not_item {s : Str} : ¬ IsItem s ↔ arrayItem s = none := by
  rw [isItem_iff]
  cases arrayItem s <;> simp

theorem mem_flush {r : Range} {st : Option (Range × Bool)} :
    Visit.emptyHeader r ∈ flushHeader st ↔ st = some (r, false) := by
  rcases st with _ | ⟨h, _ | _⟩ <;> simp [flushHeader, eq_comm]

/-- The empty array headers among the leading comments. -/
theorem mem_leading_header {nr : Range} {first : Bool} {level : Nat} {st : Option (Range × Bool)} {cs : List Comment}
    {r : Range} :
    Visit.emptyHeader r ∈ leadingVisits nr first level st cs ↔
    (∃ pre c post, cs = pre ++ c :: post ∧ c.range = r ∧ HeaderText c.text ∧
      ∀ i rest, post = i :: rest → ¬ IsItem i.text) ∨
    (st = some (r, false) ∧ ∀ i rest, cs = i :: rest → ¬ IsItem i.text) := by
  induction cs generalizing st with
  | nil =>
    simp only [leadingVisits, mem_flush]
    constructor
    · intro h; exact .inr ⟨h, by simp⟩
    · rintro (⟨pre, c, post, h, _⟩ | ⟨h, _⟩)
      · simp at h
      · exact h
  | cons d ds ih =>
    -- the first comment is not consumed as an item
    have normal : (Visit.emptyHeader r ∈
        (if isQuartoHeader d.text then leadingVisits nr first level (some (d.range, false)) ds
         else .comment d nr first false level :: leadingVisits nr first level none ds)) ↔
        ∃ pre c post, d :: ds = pre ++ c :: post ∧ c.range = r ∧ HeaderText c.text ∧
          ∀ i rest, post = i :: rest → ¬ IsItem i.text := by
      split
      · rename_i hh
        rw [ih]
        constructor
        · rintro (⟨pre, c, post, h1, h2⟩ | ⟨h1, h2⟩)
          · exact ⟨d :: pre, c, post, by rw [h1]; rfl, h2⟩
          · cases h1
            exact ⟨[], d, ds, rfl, rfl, header_iff.mpr hh, h2⟩
        · rintro ⟨pre, c, post, h1, h2, h3, h4⟩
          cases pre with
          | nil =>
            simp at h1
            obtain ⟨rfl, rfl⟩ := h1
            exact .inr ⟨by rw [h2], h4⟩
          | cons p pre =>
            simp at h1
            exact .inl ⟨pre, c, post, h1.2, h2, h3, h4⟩
      · rename_i hh
        rw [List.mem_cons, ih]
        constructor
        · rintro (h | ⟨pre, c, post, h1, h2⟩ | ⟨h1, h2⟩)
          · cases h
          · exact ⟨d :: pre, c, post, by rw [h1]; rfl, h2⟩
          · cases h1
        · rintro ⟨pre, c, post, h1, h2, h3, h4⟩
          cases pre with
          | nil =>
            simp at h1
            obtain ⟨rfl, rfl⟩ := h1
            exact absurd (header_iff.mp h3) hh
          | cons p pre =>
            simp at h1
            exact .inr (.inl ⟨pre, c, post, h1.2, h2, h3, h4⟩)
    cases st with
    | none =>
      rw [leadingVisits, normal]
      simp
    | some p =>
      obtain ⟨h, found⟩ := p
      rw [leadingVisits]
      cases hi : arrayItem d.text with
      | some q =>
        simp only
        have hitem : IsItem d.text := isItem_iff.mpr ⟨q, hi⟩
        rw [List.mem_cons, ih]
        constructor
        · rintro (h' | ⟨pre, c, post, h1, h2⟩ | ⟨h1, _⟩)
          · cases h'
          · exact .inl ⟨d :: pre, c, post, by rw [h1]; rfl, h2⟩
          · simp at h1
        · rintro (⟨pre, c, post, h1, h2, h3, h4⟩ | ⟨_, h2⟩)
          · cases pre with
            | nil =>
              simp at h1
              obtain ⟨rfl, rfl⟩ := h1
              rw [header_not_item (header_iff.mp h3)] at hi
              cases hi
            | cons p pre =>
              simp at h1
              exact .inr (.inl ⟨pre, c, post, h1.2, h2, h3, h4⟩)
          · exact absurd hitem (h2 d ds rfl)
      | none =>
        simp only
        rw [List.mem_append, mem_flush, normal]
        constructor
        · rintro (h' | h')
          · exact .inr ⟨h', fun i rest he => by cases he; exact not_item.mpr hi⟩
          · exact .inl h'
        · rintro (h' | ⟨h', _⟩)
          · exact .inr h'
          · exact .inl h'

/-- The comment visits that are not end-of-line comments. -/
theorem own_visit_iff {root : SynNode} {source : Str} {c : Comment} {x : DirectiveParse} {f? : Option Bool}
    (hx : parseCommentDirective c.text = some x) (hh : isQuartoHeader c.text = false) :
    (∃ nr af lv, Visit.comment c nr af false lv ∈ visitNode source true 0 root ∧ ∀ b ∈ f?, af = b) ↔
    ∃ n f l, Reach root f l n ∧ ((c ∈ n.leading ∧ ∀ b ∈ f?, f = b) ∨ (BehindOrInside source n c ∧ ∀ b ∈ f?, false = b)) := by
  have key := comment_visit_iff (root := root) (source := source) (P := fun _ af tr _ => tr = false ∧ ∀ b ∈ f?, af = b) hx hh
  constructor
  · rintro ⟨nr, af, lv, h1, h2⟩
    obtain ⟨n, f, l, hr, h⟩ := key.mp ⟨nr, af, false, lv, h1, rfl, h2⟩
    refine ⟨n, f, l, hr, ?_⟩
    rcases h with ⟨h1, h2, h3⟩ | ⟨h1, h2, h3⟩ | ⟨h1, h2, h3⟩
    · exact .inl ⟨h1, h3⟩
    · exact .inr ⟨.inl ⟨h1, sameLine_false.mp h2⟩, h3⟩
    · exact .inr ⟨.inr h1, h3⟩
  · rintro ⟨n, f, l, hr, h⟩
    have : ∃ n f l, Reach root f l n ∧
      ((c ∈ n.leading ∧ (false = false ∧ ∀ b ∈ f?, f = b)) ∨
       (c ∈ n.trailing ∧ (isSameLineAsCode c.range source = false ∧ ∀ b ∈ f?, false = b)) ∨
       (c ∈ n.dangling ∧ (false = false ∧ ∀ b ∈ f?, false = b))) := by
      refine ⟨n, f, l, hr, ?_⟩
      rcases h with ⟨h1, h2⟩ | ⟨h1 | h1, h2⟩
      · exact .inl ⟨h1, rfl, h2⟩
      · exact .inr (.inl ⟨h1.1, sameLine_false.mpr h1.2, h2⟩)
      · exact .inr (.inr ⟨h1, rfl, h2⟩)
    obtain ⟨nr, af, tr, lv, h1, h2, h3⟩ := key.mpr this
    subst h2
    exact ⟨nr, af, lv, h1, h3⟩

theorem ownLine_iff {source : Str} {n : SynNode} {c : Comment} :
    OwnLineComment source n c ↔ c ∈ n.leading ∨ BehindOrInside source n c := Iff.rfl

/-- A visit of a header is one of a header that is not in front of a node. -/
theorem header_visit_iff {root : SynNode} {source : Str} {c : Comment} (hh : isQuartoHeader c.text = true) :
    (∃ nr af lv, Visit.comment c nr af false lv ∈ visitNode source true 0 root) ↔
    ∃ n f l, Reach root f l n ∧ BehindOrInside source n c := by
  constructor
  · rintro ⟨nr, af, lv, h⟩
    obtain ⟨n, f, l, hr, hv⟩ := mem_visits.mp h
    refine ⟨n, f, l, hr, ?_⟩
    unfold ownVisits at hv
    rcases List.mem_append.mp hv with hv | hv
    · rcases List.mem_append.mp hv with hv | hv
      · have := (leading_comment_flags hv).2.2.2.2.2
        rw [hh] at this; cases this
      · obtain ⟨d, hd, he⟩ := List.mem_map.mp hv
        simp only [Visit.comment.injEq] at he
        obtain ⟨rfl, _, _, h3, _⟩ := he
        exact .inl ⟨hd, sameLine_false.mp h3⟩
    · obtain ⟨d, hd, he⟩ := List.mem_map.mp hv
      simp only [Visit.comment.injEq] at he
      obtain ⟨rfl, _⟩ := he
      exact .inr hd
  · rintro ⟨n, f, l, hr, h⟩
    have into : ∀ v, v ∈ ownVisits source f l n → v ∈ visitNode source true 0 root :=
      fun v hv => mem_visits.mpr ⟨n, f, l, hr, hv⟩
    rcases h with ⟨h1, h2⟩ | h1
    · refine ⟨n.range, false, l, into _ ?_⟩
      unfold ownVisits
      simp only [List.mem_append, List.mem_map]
      exact .inl (.inr ⟨c, h1, by rw [sameLine_false.mpr h2]⟩)
    · refine ⟨n.range, false, l, into _ ?_⟩
      unfold ownVisits
      simp only [List.mem_append, List.mem_map]
      exact .inr ⟨c, h1, rfl⟩

theorem item_visit_iff {root : SynNode} {source : Str} {p : DirectiveParse} {r : Range} :
    Visit.item p r ∈ visitNode source true 0 root ↔
    ∃ n f l c, Reach root f l n ∧ ArrayLine n c ∧ arrayItem c.text = some p ∧ c.range = r := by
  rw [mem_visits]
  constructor
  · rintro ⟨n, f, l, hr, hv⟩
    unfold ownVisits at hv
    simp only [List.mem_append, List.mem_map] at hv
    rcases hv with (hv | ⟨_, _, h⟩) | ⟨_, _, h⟩
    · obtain ⟨c, h1, h2, ⟨pre, h, items, post, h3, h4, h5⟩ | ⟨h3, _⟩⟩ := mem_leading_item.mp hv
      · exact ⟨n, f, l, c, hr, ⟨pre, h, items, post, h3, header_iff.mpr h4, h5⟩, h2, h1⟩
      · cases h3
    · cases h
    · cases h
  · rintro ⟨n, f, l, c, hr, ⟨pre, h, items, post, h3, h4, h5⟩, h2, h1⟩
    refine ⟨n, f, l, hr, ?_⟩
    unfold ownVisits
    simp only [List.mem_append]
    exact .inl (.inl (mem_leading_item.mpr ⟨c, h1, h2, .inl ⟨pre, h, items, post, h3, header_iff.mp h4, h5⟩⟩))

theorem emptyHeader_visit_iff {root : SynNode} {source : Str} {r : Range} :
    Visit.emptyHeader r ∈ visitNode source true 0 root ↔
    ∃ n f l pre c post, Reach root f l n ∧ n.leading = pre ++ c :: post ∧ c.range = r ∧ HeaderText c.text ∧
      ∀ i rest, post = i :: rest → ¬ IsItem i.text := by
  rw [mem_visits]
  constructor
  · rintro ⟨n, f, l, hr, hv⟩
    unfold ownVisits at hv
    simp only [List.mem_append, List.mem_map] at hv
    rcases hv with (hv | ⟨_, _, h⟩) | ⟨_, _, h⟩
    · rcases mem_leading_header.mp hv with ⟨pre, c, post, h⟩ | ⟨h, _⟩
      · exact ⟨n, f, l, pre, c, post, hr, h⟩
      · cases h
    · cases h
    · cases h
  · rintro ⟨n, f, l, pre, c, post, hr, h⟩
    refine ⟨n, f, l, hr, ?_⟩
    unfold ownVisits
    simp only [List.mem_append]
    exact .inl (.inl (mem_leading_header.mpr (.inl ⟨pre, c, post, h⟩)))

/-- The lists of the manager, by reporting rule. -/
def Manager.reported (m : Manager) : Rule → List Range
  | .blanketSuppression => m.blanket
  | .invalidChunkSuppression => m.invalidChunk
  | .unexplainedSuppression => m.unexplained
  | .misplacedFileSuppression => m.misplacedFile
  | .misplacedSuppression => m.misplaced
  | .misnamedSuppression => m.misnamed
  | .unmatchedRangeSuppression => m.unmatchedStart ++ m.unmatchedEnd
  | _ => []

theorem parse_not_header {t : Str} {x : DirectiveParse} (h : parseCommentDirective t = some x) (hx : x ≠ .blanket) :
    isQuartoHeader t = false := by
  cases hh : isQuartoHeader t with
  | false => rfl
  | true => rw [header_parse hh] at h; cases h; exact absurd rfl hx

/-- Comments parsed to `x ≠ blanket`, on their own line. -/
theorem own_parse_iff {root : SynNode} {source : Str} {c : Comment} {x : DirectiveParse}
    (hx : parseCommentDirective c.text = some x) (hb : x ≠ .blanket) :
    (∃ nr af lv, Visit.comment c nr af false lv ∈ visitNode source true 0 root) ↔
    ∃ n f l, Reach root f l n ∧ OwnLineComment source n c := by
  have := own_visit_iff (root := root) (source := source) (f? := none) hx (parse_not_header hx hb)
  simpa [ownLine_iff] using this

/-- The collector records exactly the comments the specification calls bad. -/
theorem bad_collected {root : SynNode} {source : Str} {m : Manager} (h : collect root source = some m) (r : Rule) (c : Range) :
    BadComment root source r c ↔ c ∈ m.reported r := by
  have hs := C12_unmatched_start h c
  have he := C12_unmatched_end h c
  unfold collect at h
  cases hrun : runVisits {} (visitNode source true 0 root) with
  | none => rw [hrun] at h; cases h
  | some col =>
    rw [hrun] at h
    cases h
    have rf := run_fields hrun
    have e1 : col.blanket = (visitNode source true 0 root).filterMap blanketOf := by rw [rf.blanket]; rfl
    have e2 : col.unexplained = (visitNode source true 0 root).filterMap unexplainedOf := by rw [rf.unexplained]; rfl
    have e3 : col.misnamed = (visitNode source true 0 root).filterMap misnamedOf := by rw [rf.misnamed]; rfl
    have e4 : col.misplaced = (visitNode source true 0 root).filterMap misplacedOf := by rw [rf.misplaced]; rfl
    have e5 : col.misplacedFile = (visitNode source true 0 root).filterMap misplacedFileOf := by rw [rf.misplacedFile]; rfl
    have e6 : col.invalidChunk = (visitNode source true 0 root).filterMap invalidChunkOf := by rw [rf.invalidChunk]; rfl
    constructor
    · intro hb
      cases hb with
      | @trailing n f l c hr hc ht hd =>
        show c.range ∈ col.misplaced
        rw [e4, List.mem_filterMap]
        obtain ⟨x, hx⟩ := directive_iff.mp hd
        refine ⟨.comment c n.range false true l, mem_visits.mpr ⟨n, f, l, hr, ?_⟩, by simp [misplacedOf, hx]⟩
        unfold ownVisits
        simp only [List.mem_append, List.mem_map]
        exact .inl (.inr ⟨c, hc, by rw [sameLine_iff.mpr ht]⟩)
      | @blanket n f l c hr hc hb hh =>
        show c.range ∈ col.blanket
        rw [e1, List.mem_filterMap]
        have hx := C11_blanket.mpr hb
        have hh : isQuartoHeader c.text = false := by
          cases hq : isQuartoHeader c.text with
          | false => rfl
          | true => exact absurd (header_iff.mpr hq) hh
        obtain ⟨nr, af, lv, hv, _⟩ := (own_visit_iff (f? := none) hx hh).mpr ⟨n, f, l, hr, .inl ⟨hc, by simp⟩⟩
        exact ⟨_, hv, by simp [blanketOf, hx]⟩
      | @blanketElsewhere n f l c hr hc hb =>
        show c.range ∈ col.blanket
        rw [e1, List.mem_filterMap]
        have hx := C11_blanket.mpr hb
        cases hq : isQuartoHeader c.text with
        | true =>
          obtain ⟨nr, af, lv, hv⟩ := (header_visit_iff hq).mpr ⟨n, f, l, hr, hc⟩
          exact ⟨_, hv, by simp [blanketOf, hx]⟩
        | false =>
          obtain ⟨nr, af, lv, hv, _⟩ := (own_visit_iff (f? := none) hx hq).mpr ⟨n, f, l, hr, .inr ⟨hc, by simp⟩⟩
          exact ⟨_, hv, by simp [blanketOf, hx]⟩
      | @emptyHeader n f l pre c post hr hl hh hi =>
        show c.range ∈ col.blanket
        rw [e1, List.mem_filterMap]
        exact ⟨_, emptyHeader_visit_iff.mpr ⟨n, f, l, pre, c, post, hr, hl, rfl, hh, hi⟩, rfl⟩
      | @unexplained n f l c hr hc hx =>
        show c.range ∈ col.unexplained
        rw [e2, List.mem_filterMap]
        have hx := C11_unexplained.mpr hx
        obtain ⟨nr, af, lv, hv⟩ := (own_parse_iff hx (by simp)).mpr ⟨n, f, l, hr, hc⟩
        exact ⟨_, hv, by simp [unexplainedOf, hx]⟩
      | @unexplainedItem n f l c t hr hc hi ht =>
        show c.range ∈ col.unexplained
        rw [e2, List.mem_filterMap]
        have : arrayItem c.text = some .missingExplanation :=
          arrayItem_iff.mpr ⟨t, hi, by rw [parseRule_missing.mpr ht]; rfl⟩
        exact ⟨_, item_visit_iff.mpr ⟨n, f, l, c, hr, hc, this, rfl⟩, rfl⟩
      | @misnamed n f l c hr hc hx =>
        show c.range ∈ col.misnamed
        rw [e3, List.mem_filterMap]
        have hx := C11_misnamed.mpr hx
        obtain ⟨nr, af, lv, hv⟩ := (own_parse_iff hx (by simp)).mpr ⟨n, f, l, hr, hc⟩
        exact ⟨_, hv, by simp [misnamedOf, hx]⟩
      | @misnamedItem n f l c t hr hc hi ht =>
        show c.range ∈ col.misnamed
        rw [e3, List.mem_filterMap]
        have : arrayItem c.text = some .invalidRuleName :=
          arrayItem_iff.mpr ⟨t, hi, by rw [parseRule_misnamed.mpr ht]; rfl⟩
        exact ⟨_, item_visit_iff.mpr ⟨n, f, l, c, hr, hc, this, rfl⟩, rfl⟩
      | @invalidChunk n f l c r hr hc hx =>
        show c.range ∈ col.invalidChunk
        rw [e6, List.mem_filterMap]
        have hx := C11_valid.mpr hx
        obtain ⟨nr, af, lv, hv⟩ := (own_parse_iff hx (by simp)).mpr ⟨n, f, l, hr, hc⟩
        exact ⟨_, hv, by simp [invalidChunkOf, hx]⟩
      | @misplacedFile n f l c r hr hc hx =>
        show c.range ∈ col.misplacedFile
        rw [e5, List.mem_filterMap]
        have hx := C11_valid.mpr hx
        have : ∃ n f l, Reach root f l n ∧ ((c ∈ n.leading ∧ ∀ b ∈ (some false), f = b) ∨
            (BehindOrInside source n c ∧ ∀ b ∈ (some false), false = b)) := by
          refine ⟨n, f, l, hr, ?_⟩
          rcases hc with ⟨h1, h2⟩ | h1
          · exact .inl ⟨h2, by simpa using h1⟩
          · exact .inr ⟨h1, by simp⟩
        obtain ⟨nr, af, lv, hv, haf⟩ := (own_visit_iff hx (parse_not_header hx (by simp))).mpr this
        have haf : af = false := by simpa using haf
        subst haf
        exact ⟨_, hv, by simp [misplacedFileOf, hx]⟩
      | @unmatchedStart r level pre c hp =>
        exact List.mem_append.mpr (.inl (hs.mpr ⟨r, level, pre, hp⟩))
      | @unmatchedEnd r level pre c post hp hn =>
        exact List.mem_append.mpr (.inr (he.mpr ⟨r, level, pre, post, hp, hn⟩))
    · intro hm
      cases r
      case blanketSuppression =>
        have hm : c ∈ col.blanket := hm
        rw [e1, List.mem_filterMap] at hm
        obtain ⟨v, hv, hb⟩ := hm
        unfold blanketOf at hb
        split at hb
        · rename_i cm nr af lv
          split at hb
          · rename_i hx
            cases hb
            cases hq : isQuartoHeader cm.text with
            | true =>
              obtain ⟨n, f, l, hr, hc⟩ := (header_visit_iff hq).mp ⟨nr, af, lv, hv⟩
              exact .blanketElsewhere hr hc (C11_blanket.mp hx)
            | false =>
              obtain ⟨n, f, l, hr, ⟨hc, _⟩ | ⟨hc, _⟩⟩ := (own_visit_iff (f? := none) hx hq).mp ⟨nr, af, lv, hv, by simp⟩
              · exact .blanket hr hc (C11_blanket.mp hx) (fun h => by rw [header_iff.mp h] at hq; cases hq)
              · exact .blanketElsewhere hr hc (C11_blanket.mp hx)
          · cases hb
        · cases hb
          obtain ⟨n, f, l, pre, cm, post, hr, hl, rfl, hh, hi⟩ := emptyHeader_visit_iff.mp hv
          exact .emptyHeader hr hl hh hi
        · cases hb
      case unexplainedSuppression =>
        have hm : c ∈ col.unexplained := hm
        rw [e2, List.mem_filterMap] at hm
        obtain ⟨v, hv, hb⟩ := hm
        unfold unexplainedOf at hb
        split at hb
        · rename_i cm nr af lv
          split at hb
          · rename_i hx
            cases hb
            obtain ⟨n, f, l, hr, hc⟩ := (own_parse_iff hx (by simp)).mp ⟨nr, af, lv, hv⟩
            exact .unexplained hr hc (C11_unexplained.mp hx)
          · cases hb
        · cases hb
          obtain ⟨n, f, l, cm, hr, hc, hi, rfl⟩ := item_visit_iff.mp hv
          obtain ⟨t, h1, h2⟩ := arrayItem_iff.mp hi
          exact .unexplainedItem hr hc h1 (parseRule_missing.mp (wrapRule_missing.mp h2))
        · cases hb
      case misnamedSuppression =>
        have hm : c ∈ col.misnamed := hm
        rw [e3, List.mem_filterMap] at hm
        obtain ⟨v, hv, hb⟩ := hm
        unfold misnamedOf at hb
        split at hb
        · rename_i cm nr af lv
          split at hb
          · rename_i hx
            cases hb
            obtain ⟨n, f, l, hr, hc⟩ := (own_parse_iff hx (by simp)).mp ⟨nr, af, lv, hv⟩
            exact .misnamed hr hc (C11_misnamed.mp hx)
          · cases hb
        · cases hb
          obtain ⟨n, f, l, cm, hr, hc, hi, rfl⟩ := item_visit_iff.mp hv
          obtain ⟨t, h1, h2⟩ := arrayItem_iff.mp hi
          exact .misnamedItem hr hc h1 (parseRule_misnamed.mp (wrapRule_misnamed.mp h2))
        · cases hb
      case misplacedSuppression =>
        have hm : c ∈ col.misplaced := hm
        rw [e4, List.mem_filterMap] at hm
        obtain ⟨v, hv, hb⟩ := hm
        unfold misplacedOf at hb
        split at hb
        · rename_i cm nr af lv
          obtain ⟨x, hx, rfl⟩ := Option.map_eq_some_iff.mp hb
          obtain ⟨n, f, l, hr, hown⟩ := mem_visits.mp hv
          unfold ownVisits at hown
          simp only [List.mem_append, List.mem_map] at hown
          rcases hown with (hown | ⟨d, hd, hown⟩) | ⟨d, hd, hown⟩
          · have := (leading_comment_flags hown).2.2.1
            cases this
          · simp only [Visit.comment.injEq] at hown
            obtain ⟨rfl, _, _, h3, _⟩ := hown
            exact .trailing hr hd (sameLine_iff.mp h3) (directive_iff.mpr ⟨x, hx⟩)
          · simp at hown
        · cases hb
      case misplacedFileSuppression =>
        have hm : c ∈ col.misplacedFile := hm
        rw [e5, List.mem_filterMap] at hm
        obtain ⟨v, hv, hb⟩ := hm
        unfold misplacedFileOf at hb
        split at hb
        · rename_i cm nr lv
          split at hb
          · rename_i r hx
            cases hb
            obtain ⟨n, f, l, hr, hc⟩ := (own_visit_iff (f? := some false) hx (parse_not_header hx (by simp))).mp
              ⟨nr, false, lv, hv, by simp⟩
            refine .misplacedFile hr ?_ (C11_valid.mp hx)
            rcases hc with ⟨h1, h2⟩ | ⟨h1, _⟩
            · exact .inl ⟨by simpa using h2, h1⟩
            · exact .inr h1
          · cases hb
        · cases hb
      case invalidChunkSuppression =>
        have hm : c ∈ col.invalidChunk := hm
        rw [e6, List.mem_filterMap] at hm
        obtain ⟨v, hv, hb⟩ := hm
        unfold invalidChunkOf at hb
        split at hb
        · rename_i cm nr af lv
          split at hb
          · rename_i r hx
            cases hb
            obtain ⟨n, f, l, hr, hc⟩ := (own_parse_iff hx (by simp)).mp ⟨nr, af, lv, hv⟩
            exact .invalidChunk hr hc (C11_valid.mp hx)
          · cases hb
        · cases hb
      case unmatchedRangeSuppression =>
        rcases List.mem_append.mp hm with h | h
        · obtain ⟨r, level, pre, hp⟩ := hs.mp h
          exact .unmatchedStart hp
        · obtain ⟨r, level, pre, post, hp, hn⟩ := he.mp h
          exact .unmatchedEnd hp hn
      all_goals exact absurd hm (by simp [Manager.reported])


/-- What a successful check of an R file consists of. -/
theorem getChecksR_ok {L : Lints} {pkg : PackageAnalysis} {cfg : Config} {file contents : Str} {ds : List Diagnostic}
    (hr : hasRmdExtension file = false) (h : getChecks L pkg cfg file contents = .ok ds) :
    ∃ p m exprs unreach t, L.parse contents = some p ∧ fromNode p.root contents = some m ∧
      L.expressions cfg.lintInput contents = .ok exprs ∧ unreachableDiags L cfg.lintInput contents = .ok unreach ∧
      p.listText = some t ∧
      ds = (checkDocument cfg.rulesToApply m exprs unreach (pkg.duplicates file) (pkg.unused file)).map
        (fun d => located (findNewLines t) (applyFixSettings cfg file d)) := by
  unfold getChecks at h
  rw [hr] at h
  simp only [Bool.false_eq_true, if_false] at h
  unfold getChecksR checkerDiagnostics at h
  split at h
  · rename_i hp; cases h
  · rename_i p hp
    split at h
    · cases h
    · rename_i m hm
      unfold runChecker at h
      cases he : L.expressions cfg.lintInput contents with
      | error e => rw [he] at h; cases h
      | ok exprs =>
        rw [he] at h
        cases hu : unreachableDiags L cfg.lintInput contents with
        | error e => simp only [bind, Except.bind, hu] at h; cases h
        | ok unreach =>
          simp only [bind, Except.bind, hu, pure, Except.pure] at h
          split at h
          · cases h
          · rename_i t ht
            refine ⟨p, m, exprs, unreach, t, hp, hm, rfl, rfl, ht, ?_⟩
            rw [(computeLocations_ok h).1, List.map_map]
            rfl

theorem mem_gate {rules : List Rule} {r : Rule} {l : List Diagnostic} {d : Diagnostic} :
    d ∈ gate rules r l ↔ r ∈ rules ∧ d ∈ l := by
  unfold gate
  split <;> simp_all

theorem mem_commentDiags {r s : Rule} {b hp : Str} {l : List Range} {c : Range} :
    (∃ d ∈ commentDiags r b hp l, d.name = s.name ∧ d.range = c) ↔ r = s ∧ c ∈ l := by
  constructor
  · rintro ⟨d, hd, hn, rfl⟩
    obtain ⟨rg, hrg, rfl⟩ := List.mem_map.mp hd
    exact ⟨Rule.name_inj hn, hrg⟩
  · rintro ⟨rfl, hc⟩
    exact ⟨_, List.mem_map.mpr ⟨c, hc, rfl⟩, rfl, rfl⟩

theorem mem_gate_commentDiags {rules : List Rule} {r s : Rule} {b hp : Str} {l : List Range} {c : Range} :
    (∃ d ∈ gate rules r (commentDiags r b hp l), d.name = s.name ∧ d.range = c) ↔ r = s ∧ s ∈ rules ∧ c ∈ l := by
  constructor
  · rintro ⟨d, hd, h⟩
    obtain ⟨h1, h2⟩ := mem_gate.mp hd
    obtain ⟨rfl, h3⟩ := mem_commentDiags.mp ⟨d, h2, h⟩
    exact ⟨rfl, h1, h3⟩
  · rintro ⟨rfl, h1, h3⟩
    obtain ⟨d, h2, h⟩ := mem_commentDiags.mpr ⟨rfl, h3⟩
    exact ⟨d, mem_gate.mpr ⟨h1, h2⟩, h⟩

theorem exists_mem_append {p : Diagnostic → Prop} {a b : List Diagnostic} :
    (∃ d ∈ a ++ b, p d) ↔ (∃ d ∈ a, p d) ∨ (∃ d ∈ b, p d) := by
  simp only [List.mem_append, or_and_right, exists_or]

theorem gate_pkg_none {rules : List Rule} {r s : Rule} {b : Str} {l : List (Str × Range × Str)} {c : Range} (hne : r ≠ s) :
    (∃ d ∈ gate rules r (pkgDiags r b l), d.name = s.name ∧ d.range = c) ↔ False := by
  rw [iff_false]
  rintro ⟨d, hd, hn, _⟩
  obtain ⟨⟨_, _, _⟩, _, rfl⟩ := List.mem_map.mp (mem_gate.mp hd).2
  exact hne (Rule.name_inj hn)

/-- The raw diagnostics of the rules about comments. -/
theorem raw_comment_iff {rules : List Rule} {m : Manager} {exprs unreach : List Diagnostic}
    {dups unused : List (Str × Range × Str)} {s : Rule} (hs : s ∈ commentRules)
    (hl : ∀ d ∈ exprs ++ unreach, d.name ≠ s.name) {c : Range} :
    (∃ d ∈ rawDiagnostics rules m exprs unreach dups unused, d.name = s.name ∧ d.range = c) ↔
    s ∈ rules ∧ c ∈ m.reported s := by
  have h1 : (∃ d ∈ exprs, d.name = s.name ∧ d.range = c) ↔ False := by
    rw [iff_false]; rintro ⟨d, hd, hn, _⟩; exact hl d (by simp [hd]) hn
  have h2 : (∃ d ∈ gate rules .unreachableCode unreach, d.name = s.name ∧ d.range = c) ↔ False := by
    rw [iff_false]; rintro ⟨d, hd, hn, _⟩; exact hl d (by simp [(mem_gate.mp hd).2]) hn
  have h3 : Rule.duplicatedFunctionDefinition ≠ s := by rintro rfl; revert hs; decide
  have h4 : Rule.unusedFunction ≠ s := by rintro rfl; revert hs; decide
  unfold rawDiagnostics
  simp only [exists_mem_append, h1, h2, mem_gate_commentDiags, gate_pkg_none h3, gate_pkg_none h4, false_or, or_false]
  simp only [commentRules, List.mem_cons, List.not_mem_nil, or_false] at hs
  rcases hs with rfl | rfl | rfl | rfl | rfl | rfl | rfl <;>
    simp [Manager.reported, ← and_or_left]

/-- **C35.** In an R file whose suppression comments are `BadComment`s — at the end of a line, without rule, without
explanation, with an unknown rule, in the wrong form or place, or unmatched — exactly these comments are reported by the
rules about comments that are enabled, at their place, unless another suppression comment hides the report. -/
theorem C35_reported {L : Lints} (hP : ParserOk L) {pkg : PackageAnalysis} {cfg : Config} {file contents : Str}
    {ds : List Diagnostic} (hr : hasRmdExtension file = false) (h : getChecks L pkg cfg file contents = .ok ds)
    {p : Parsed} (hp : L.parse contents = some p) {r : Rule} (hrule : r ∈ commentRules)
    (hlints : ∀ es, (L.expressions cfg.lintInput contents = .ok es ∨ L.unreachable cfg.lintInput contents = .ok es) →
      ∀ d ∈ es, d.name ≠ r.name) (c : Range) :
    (∃ d ∈ ds, d.name = r.name ∧ d.range = c) ↔
    r ∈ cfg.rulesToApply ∧ BadComment p.root contents r c ∧
      ¬ (FileSuppressed p.root r ∨ ChunkSuppressed p.root r ∨ RegionSuppressed p.root contents r c ∨
        NodeSuppressed p.root contents r c) := by
  obtain ⟨p', m, exprs, unreach, t, hp', hm, he, hu, ht, rfl⟩ := getChecksR_ok hr h
  rw [hp] at hp'; cases hp'
  have hcs := hP _ _ hp
  obtain ⟨keep, hkeep, hfil⟩ := C08_hidden_iff_suppressed hcs hm
    (rawDiagnostics cfg.rulesToApply m exprs unreach (pkg.duplicates file) (pkg.unused file))
  have hmc : collect p.root contents = some m := by rw [← fromNode_eq_collect hcs]; exact hm
  have hl : ∀ d ∈ exprs ++ unreach, d.name ≠ r.name := by
    intro d hd
    rcases List.mem_append.mp hd with hd | hd
    · exact hlints _ (.inl he) d hd
    · unfold unreachableDiags at hu
      split at hu
      · exact hlints _ (.inr hu) d hd
      · cases hu; cases hd
  have hout : r ≠ .outdatedSuppression := by rintro rfl; revert hrule; decide
  have hraw := raw_comment_iff (rules := cfg.rulesToApply) (m := m) (dups := pkg.duplicates file)
    (unused := pkg.unused file) hrule hl (c := c)
  have hHid : ∀ d : Diagnostic, d.name = r.name → d.range = c → (keep d = true ↔ ¬ (FileSuppressed p.root r ∨
      ChunkSuppressed p.root r ∨ RegionSuppressed p.root contents r c ∨ NodeSuppressed p.root contents r c)) := by
    intro d hn hrg
    rw [hkeep]
    unfold Hidden
    subst hrg
    apply not_congr
    constructor
    · rintro ⟨r', hn', h⟩
      have : r' = r := Rule.name_inj (hn'.trans hn)
      subst this; exact h
    · intro h; exact ⟨r, hn.symm, h⟩
  rw [bad_collected hmc]
  have hstep : (∃ d ∈ (checkDocument cfg.rulesToApply m exprs unreach (pkg.duplicates file) (pkg.unused file)).map
      (fun d => located (findNewLines t) (applyFixSettings cfg file d)), d.name = r.name ∧ d.range = c) ↔
      ∃ d ∈ (filterDiagnostics m (rawDiagnostics cfg.rulesToApply m exprs unreach (pkg.duplicates file) (pkg.unused file))).1,
        d.name = r.name ∧ d.range = c := by
    unfold checkDocument
    simp only [List.mem_map, List.mem_append]
    constructor
    · rintro ⟨_, ⟨d, hd | hd, rfl⟩, hn, hrg⟩
      · obtain ⟨a1, _, _, _, a5, _⟩ := applyFixSettings_same cfg file d
        exact ⟨d, hd, a1 ▸ hn, a5 ▸ hrg⟩
      · exfalso
        obtain ⟨rg, _, rfl⟩ := List.mem_map.mp (mem_gate.mp hd).2
        obtain ⟨a1, _⟩ := applyFixSettings_same cfg file (Diagnostic.new Rule.outdatedSuppression.name
          (cs! "This suppression comment is unused, no violation would be reported without it.")
          (some (cs! "Remove this suppression comment or verify that it's still needed.")) rg Fix.empty)
        have : Rule.outdatedSuppression.name = r.name := a1.symm.trans hn
        exact hout (Rule.name_inj this).symm
    · rintro ⟨d, hd, hn, hrg⟩
      obtain ⟨a1, _, _, _, a5, _⟩ := applyFixSettings_same cfg file d
      exact ⟨_, ⟨d, .inl hd, rfl⟩, a1.trans hn, a5.trans hrg⟩
  rw [hstep, hfil, ← and_assoc, ← hraw]
  constructor
  · rintro ⟨d, hd, hn, hrg⟩
    obtain ⟨h1, h2⟩ := List.mem_filter.mp hd
    exact ⟨⟨d, h1, hn, hrg⟩, (hHid d hn hrg).mp h2⟩
  · rintro ⟨⟨d, h1, hn, hrg⟩, h2⟩
    exact ⟨d, List.mem_filter.mpr ⟨h1, (hHid d hn hrg).mpr h2⟩, hn, hrg⟩

/-! ### Concrete cases (tests) -/

def exBadSource : Str := cs! "# jarl-ignore\nx # jarl-ignore any_is_na: ok\n"
def exBadLints : Lints where
  parse code := if code = exBadSource then
      some ⟨.mk ⟨14, 15⟩ false [] [] []
        [.mk ⟨14, 15⟩ false [⟨cs! "# jarl-ignore", ⟨0, 13⟩⟩] [⟨cs! "# jarl-ignore any_is_na: ok", ⟨16, 43⟩⟩] [] []], some code⟩
    else none
  expressions _ _ := .ok []
  unreachable _ _ := .ok []

example : (match getChecks exBadLints exPkg exConfig (cs! "a.R") exBadSource with
    | .ok ds => ds.map (fun d => (d.name, d.range))
    | .error _ => []) =
    [(cs! "blanket_suppression", ⟨0, 13⟩), (cs! "misplaced_suppression", ⟨16, 43⟩)] := by decide +kernel

/-- The comment at the end of the line meets the specification of a misplaced one. -/
example : BadComment (.mk ⟨14, 15⟩ false [] [] []
    [.mk ⟨14, 15⟩ false [⟨cs! "# jarl-ignore", ⟨0, 13⟩⟩] [⟨cs! "# jarl-ignore any_is_na: ok", ⟨16, 43⟩⟩] [] []])
    exBadSource .misplacedSuppression ⟨16, 43⟩ := by
  refine BadComment.trailing (c := ⟨cs! "# jarl-ignore any_is_na: ok", ⟨16, 43⟩⟩)
    (.firstChild .root rfl) (by simp [SynNode.trailing]) ?_ (directive_iff.mpr ⟨_, by rfl⟩)
  refine ⟨cs! "# jarl-ignore\n", cs! "x ", cs! "# jarl-ignore any_is_na: ok\n", by decide +kernel, by decide +kernel,
    .inr ⟨cs! "# jarl-ignore", by decide +kernel⟩, by decide +kernel, 'x', by decide +kernel, by decide +kernel⟩

/-- `ParserOk` holds for this parser. -/
example : ParserOk exBadLints := by
  intro code p hp
  unfold exBadLints at hp
  simp only at hp
  split at hp
  · rename_i hc
    cases hp
    subst hc
    intro n f l c hreach hmem
    have hn : n = .mk ⟨14, 15⟩ false [] [] [] [.mk ⟨14, 15⟩ false [⟨cs! "# jarl-ignore", ⟨0, 13⟩⟩]
          [⟨cs! "# jarl-ignore any_is_na: ok", ⟨16, 43⟩⟩] [] []] ∨
        n = .mk ⟨14, 15⟩ false [⟨cs! "# jarl-ignore", ⟨0, 13⟩⟩]
          [⟨cs! "# jarl-ignore any_is_na: ok", ⟨16, 43⟩⟩] [] [] := by
      clear hmem
      induction hreach with
      | root => exact .inl rfl
      | firstChild _ hc ih =>
        rcases ih with rfl | rfl
        · simp [SynNode.children] at hc; exact .inr hc.1.symm
        · simp [SynNode.children] at hc
      | laterChild _ hc hm ih =>
        rcases ih with rfl | rfl
        · simp [SynNode.children] at hc; obtain ⟨_, rfl⟩ := hc; simp at hm
        · simp [SynNode.children] at hc
    rcases hn with rfl | rfl
    · simp [SynNode.leading, SynNode.trailing, SynNode.dangling] at hmem
    · simp [SynNode.leading, SynNode.trailing, SynNode.dangling] at hmem
      rcases hmem with rfl | rfl
      · exact ⟨[], cs! "\nx # jarl-ignore any_is_na: ok\n", by decide +kernel⟩
      · exact ⟨cs! "# jarl-ignore\nx ", cs! "\n", by decide +kernel⟩
  · cases hp

end Jarl
